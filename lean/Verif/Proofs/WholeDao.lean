import Verif.Spec.WholeDao
import Verif.Props.SingleBallots
import Verif.Props.DaoCore
/-! From a history of the whole DAO to histories of its parts. -/

namespace Verif.WholeDao
open Verif Verif.Voting Verif.Spec Verif.Spec.WholeDao

variable {S E C O : Type}

/-! ### The proposal module only asks for powers at heights up to the present one -/

theorem step_congr {s : Single.State} {env : Single.Env} {P : Addr → Addr → Nat → Nat} {T : Addr → Nat → Nat}
    (hP : ∀ a h, h ≤ env.block.height → P s.config.dao a h = env.power s.config.dao a h)
    (hT : ∀ h, h ≤ env.block.height → T s.config.dao h = env.total s.config.dao h)
    (hs : ∀ id p, s.proposals.get id = some p → p.startHeight ≤ env.block.height) (call : Single.Call) :
    Single.step s { env with power := P, total := T } call = Single.step s env call := by
  have hq : ∀ a h, h ≤ env.block.height →
      Single.queryPower { env with power := P, total := T } s.config.dao a h =
        Single.queryPower env s.config.dao a h := by
    intro a h hh
    simp only [Single.queryPower, hP a h hh]
  have hv : ∀ {s1 : Single.State} {voter : Addr} {id : Nat} {v : Vote} {r : Option Nat},
      s1.config = s.config → (∀ id p, s1.proposals.get id = some p → p.startHeight ≤ env.block.height) →
      Single.execVote s1 { env with power := P, total := T } voter id v r = Single.execVote s1 env voter id v r := by
    intro s1 voter id v r hc hs1
    unfold Single.execVote
    cases hg : s1.proposals.get id with
    | none => simp only [orErr, error_bind]
    | some p =>
      simp only [orErr, ok_bind, hc, hq voter p.startHeight (hs1 id p hg)]
  cases call with
  | vote id v r => exact hv rfl hs
  | propose g c m vo z =>
    simp only [Single.step, Single.execPropose]
    have ht : Single.queryTotal { env with power := P, total := T } s.config.dao env.block.height =
        Single.queryTotal env s.config.dao env.block.height := by
      simp only [Single.queryTotal, hT _ (Nat.le_refl _)]
    rw [ht]
    cases vo with
    | none => rfl
    | some vr =>
      obtain ⟨v, r⟩ := vr
      apply bind_congr; intro _
      apply bind_congr; intro proposer
      apply bind_congr; intro _
      apply bind_congr; intro total
      cases hu : (Single.freshProposal s.config env.block proposer c m total).updateStatus env.block with
      | error e => rfl
      | ok p =>
        have hsh : p.startHeight = env.block.height := by
          rw [Single.updateStatus_ok] at hu
          obtain ⟨st, _, rfl⟩ := hu; rfl
        simp only [ok_bind]
        apply bind_congr; intro id
        apply bind_congr; intro _
        rw [hv (s1 := { s with count := id, proposals := s.proposals.set id p }) rfl]
        intro id' p' hp'
        simp only [AMap.get_set] at hp'
        split at hp'
        · injection hp' with hp'; subst hp'; exact Nat.le_of_eq hsh
        · exact hs _ _ hp'
  | execute id f =>
    simp only [Single.step, Single.execExecute]
    cases hg : s.proposals.get id with
    | none => rfl
    | some p =>
      simp only [orErr, ok_bind]
      have : Single.senderCanExecute s { env with power := P, total := T } p = Single.senderCanExecute s env p := by
        simp only [Single.senderCanExecute, hq _ _ (hs id p hg)]
      rw [this]
  | _ => rfl

/-- Proposals start at a height not above the present one. -/
theorem started {s : Single.State} {b : Block} {log : List Single.Event} (h : Single.Reach s b log) :
    ∀ id p, s.proposals.get id = some p → p.startHeight ≤ b.height := by
  obtain ⟨env, c, i, s0, out, h0, hr⟩ := h
  refine Single.run_micro (P := fun s b => ∀ id p, s.proposals.get id = some p → p.startHeight ≤ b.height) hr ?_ ?_ ?_
  · unfold Single.instantiate at h0
    simp only [bind_ok, Except.ok.injEq, Prod.mk.injEq] at h0
    obtain ⟨_, hv, rfl, _⟩ := h0
    intro id p hp; cases hp
  · intro s b b' h hb id p hp
    exact Nat.le_trans (h id p hp) hb.1
  · intro env s s' h hm
    cases hm with
    | other h1 => rw [h1]; exact h
    | rationale => exact h
    | vote hp =>
      intro id' p' hp'
      simp only [AMap.get_set] at hp'
      split at hp'
      · injection hp' with hp'; subst hp'; have := h _ _ hp; exact this
      · exact h _ _ hp'
    | create =>
      intro id' p' hp'
      simp only [AMap.get_set] at hp'
      split at hp'
      · injection hp' with hp'; subst hp'; exact Nat.le_refl _
      · exact h _ _ hp'
    | status hp =>
      intro id' p' hp'
      simp only [AMap.get_set] at hp'
      split at hp'
      · injection hp' with hp'; subst hp'; have := h _ _ hp; exact this
      · exact h _ _ hp'

/-! ### What a call of the proposal module does to the DAO -/

theorem handOn_none {decode : Nat → DaoCore.CosmosMsg} {e : Env} {pa : Addr} {l : List Single.SubMsg}
    {c : DaoCore.World} (h : ∀ m ∈ l, isExecuteOnDao m.msg = false) : handOn decode e pa l c = .ok (c, []) := by
  induction l with
  | nil => rfl
  | cons m l ih =>
    have h1 := h m (by simp)
    have h2 := ih (fun m hm => h m (List.mem_cons_of_mem _ hm))
    unfold handOn
    cases hm : m.msg <;> rw [hm] at h1 <;> first | exact h2 | (simp [isExecuteOnDao] at h1)

theorem prop_effect {V : VotingModule S E C O} {decode : Nat → DaoCore.CosmosMsg} {w w' : World S} {e : Env}
    {c : Single.Call} {out : Out} (h : step V decode w e (.prop c) = .ok (w', out)) :
    (∃ o, out.prop = some o ∧ Single.step w.prop (propEnv V w e) c = .ok (w'.prop, o)) ∧
    w'.vote = w.vote ∧ w'.propAddr = w.propAddr ∧ w'.voteAddr = w.voteAddr ∧
    ((w'.core = w.core ∧ out.core = []) ∨ ∃ id p, c = .execute id false ∧ w.prop.proposals.get id = some p ∧
      DaoCore.step w.core (coreEnv e) (.call w.propAddr (.executeProposalHook (p.msgs.map decode))) =
        .ok (w'.core, out.core)) := by
  simp only [step, bind_ok, Prod.exists, Except.ok.injEq, Prod.mk.injEq] at h
  obtain ⟨p, o, h1, cc, subs, h2, rfl, rfl⟩ := h
  refine ⟨⟨o, rfl, h1⟩, rfl, rfl, rfl, ?_⟩
  simp only
  unfold passOn at h2
  split at h2
  · injection h2 with h2; injection h2 with h2 h3
    exact Or.inl ⟨h2.symm, h3.symm⟩
  · rename_i hf
    by_cases hex : ∃ m ∈ o.msgs, isExecuteOnDao m.msg = true
    · obtain ⟨m, hm, hx⟩ := hex
      obtain ⟨id, q, f, rfl, hq, hmm, _⟩ := Single.C10_only_execute_sends h1 hm hx
      have hff : f = false := by
        cases f
        · rfl
        · exact absurd rfl hf
      subst hff
      obtain ⟨q', st, st', hq', hst, _, _, _, _, ho, _⟩ := Single.execExecute_inv h1
      rw [hq] at hq'; injection hq' with hq'; subst hq'
      have hno : ∀ {st st'}, ∀ m ∈ Single.statusChangedHooks w.prop.proposalHooks id st st' ++
          Single.completedHooks w.prop.policy id st', isExecuteOnDao m.msg = false := by
        intro st st' m hm
        rcases List.mem_append.1 hm with hm | hm
        · exact Single.status_not_exec m hm
        · exact Single.completed_not_exec m hm
      rcases ho with ⟨_, _, ho⟩ | ⟨_, _, _, rid, ho⟩
      · rw [ho] at hm; rw [hno m hm] at hx; cases hx
      · rw [ho] at h2
        simp only [handOn] at h2
        split at h2
        · simp only [bind_ok, Prod.exists, handOn_none hno, Except.ok.injEq, Prod.mk.injEq] at h2
          obtain ⟨c1, o1, h3, c2, o2, ⟨rfl, rfl⟩, rfl, rfl⟩ := h2
          rw [List.append_nil]
          exact Or.inr ⟨id, q, rfl, hq, h3⟩
        · rw [handOn_none hno] at h2
          injection h2 with h2; injection h2 with h2 h3
          exact Or.inl ⟨h2.symm, h3.symm⟩
    · rw [handOn_none (fun m hm => by
        cases hx : isExecuteOnDao m.msg
        · rfl
        · exact absurd ⟨m, hm, hx⟩ hex)] at h2
      injection h2 with h2; injection h2 with h2 h3
      exact Or.inl ⟨h2.symm, h3.symm⟩

theorem core_effect {V : VotingModule S E C O} {decode : Nat → DaoCore.CosmosMsg} {w w' : World S} {e : Env}
    {c : DaoCore.Call} {out : Out} (h : step V decode w e (.core c) = .ok (w', out)) :
    notBy w.propAddr c = true ∧ DaoCore.step w.core (coreEnv e) c = .ok (w'.core, out.core) ∧
    w'.prop = w.prop ∧ w'.vote = w.vote ∧ w'.propAddr = w.propAddr ∧ w'.voteAddr = w.voteAddr ∧ out.prop = none := by
  simp only [step, bind_ok, require_ok, Prod.exists, Except.ok.injEq, Prod.mk.injEq] at h
  obtain ⟨_, hn, cc, o, h1, rfl, rfl⟩ := h
  exact ⟨hn, h1, rfl, rfl, rfl, rfl, rfl⟩

theorem vote_effect {V : VotingModule S E C O} {decode : Nat → DaoCore.CosmosMsg} {w w' : World S} {e : Env}
    {ve : E} {c : C} {out : Out} (h : step V decode w e (.vote ve c) = .ok (w', out)) :
    V.sys.block ve = e.block ∧ (∃ o, V.sys.step w.vote ve c = .ok (w'.vote, o)) ∧
    w'.prop = w.prop ∧ w'.core = w.core ∧ w'.propAddr = w.propAddr ∧ w'.voteAddr = w.voteAddr ∧ out = ⟨none, []⟩ := by
  simp only [step, bind_ok, require_ok, Prod.exists, Except.ok.injEq, Prod.mk.injEq, decide_eq_true_eq] at h
  obtain ⟨_, hn, cc, o, h1, rfl, rfl⟩ := h
  exact ⟨hn, ⟨o, h1⟩, rfl, rfl, rfl, rfl, rfl⟩

/-! ### The voting module -/

theorem vote_run {V : VotingModule S E C O} {decode : Nat → DaoCore.CosmosMsg} {w w' : World S} {b b' : Block}
    {log : List (Event S E C)} (h : (sys V decode).Run w b log w' b') {b1 : Block} (hb : b1.le b) :
    ∃ l b2, V.sys.Run w.vote b1 l w'.vote b2 ∧ b2.le b' ∧ ∀ e ∈ l, ∃ ev ∈ log, V.sys.block e.env = ev.env.block := by
  induction h with
  | refl => exact ⟨[], b1, .refl, hb, by simp⟩
  | @step s1 s2 b3 log env call out hr hb3 hs ih =>
    obtain ⟨l, b2, h1, h2, h3⟩ := ih
    have old : ∀ e ∈ l, ∃ ev ∈ (⟨s1, env, call, out, s2⟩ : Event S E C) :: log, V.sys.block e.env = ev.env.block :=
      fun e he => let ⟨ev, hev, hx⟩ := h3 e he; ⟨ev, List.mem_cons_of_mem _ hev, hx⟩
    cases call with
    | core c =>
      obtain ⟨_, _, _, hw, _⟩ := core_effect (V := V) (decode := decode) hs
      rw [hw]
      exact ⟨l, b2, h1, Block.le_trans h2 hb3, old⟩
    | prop c =>
      obtain ⟨_, hw, _⟩ := prop_effect (decode := decode) hs
      rw [hw]
      exact ⟨l, b2, h1, Block.le_trans h2 hb3, old⟩
    | vote ve c =>
      obtain ⟨hbl, ⟨o, hst⟩, _, _⟩ := vote_effect (decode := decode) hs
      have hle : b2.le (V.sys.block ve) := by rw [hbl]; exact Block.le_trans h2 hb3
      refine ⟨_, _, .step h1 hle hst, by rw [hbl]; exact Block.le_refl _, ?_⟩
      intro e he
      rcases List.mem_cons.1 he with rfl | he
      · exact ⟨_, List.mem_cons_self, hbl⟩
      · exact old e he

/-- Blocks of later events are not earlier. -/
theorem run_blocks {M : Sys S E C O} {s s' : S} {b b' : Block} {l : List (Ev S E C O)} (h : M.Run s b l s' b') :
    ∀ e ∈ l, b.le (M.block e.env) := by
  intro e he
  obtain ⟨l1, l2, b1, _, h1, h2, _⟩ := h.event e he
  exact Block.le_trans h1.block_le h2

theorem vote_reach {V : VotingModule S E C O} {decode : Nat → DaoCore.CosmosMsg} {w : World S} {b : Block}
    {log : List (Event S E C)} (h : (sys V decode).Reach w b log) : ∃ l b1, V.sys.Reach w.vote b1 l ∧ b1.le b := by
  obtain ⟨b0, w0, ⟨_, _, ⟨b1, l, h1, h2⟩, _⟩, hr⟩ := h
  obtain ⟨l', b2, h3, h4, _⟩ := vote_run hr h2
  exact ⟨_, _, h1.run h3, h4⟩

/-- The answers for a height up to the block of an event are the same after the event. -/
theorem vote_agree {V : VotingModule S E C O} (hV : Lawful V) {decode : Nat → DaoCore.CosmosMsg} {w : World S}
    {b : Block} {log : List (Event S E C)} (h : (sys V decode).Reach w b log) :
    ∀ ev ∈ log, ∀ x, x ≤ ev.env.block.height →
      (∀ a, V.power w.vote a x = V.power ev.pre.vote a x) ∧ V.total w.vote x = V.total ev.pre.vote x := by
  intro ev hev x hx
  obtain ⟨b0, w0, hi, hr⟩ := h
  obtain ⟨l1, l2, b1, _, h1, h2, h3, h4⟩ := hr.event ev hev
  obtain ⟨l, b2, h5, h6⟩ := vote_reach ⟨b0, w0, hi, h1⟩
  have hrun : (sys V decode).Run ev.pre b1 (l2 ++ [ev]) w b := (Sys.Run.step .refl h2 h3).append h4
  obtain ⟨l', b3, h7, _, h8⟩ := vote_run hrun h6
  refine hV.stable h5 h7 ?_
  intro e he
  obtain ⟨ev', hev', hbl⟩ := h8 e he
  rw [hbl]
  rcases List.mem_append.1 hev' with hm | hm
  · exact Nat.le_trans hx (run_blocks h4 ev' hm).1
  · rw [List.mem_singleton.1 hm]; exact hx

/-! ### The proposal module -/

/-- The same call with answers taken from `P` and `T`. -/
def fixEnv (P : Addr → Nat → Nat) (T : Nat → Nat) (e : Single.Event) : Single.Event :=
  ⟨e.pre, { e.env with power := fun _ => P, total := fun _ => T }, e.call, e.out, e.post⟩

theorem lastVote_fix {P : Addr → Nat → Nat} {T : Nat → Nat} {a : Addr} {id : Nat} {l : List Single.Event} :
    lastVote a id (l.map (fixEnv P T)) = lastVote a id l := by
  induction l with
  | nil => rfl
  | cons e l ih => simp only [List.map_cons, lastVote, ih]; rfl

theorem prop_reach {V : VotingModule S E C O} {decode : Nat → DaoCore.CosmosMsg} {w : World S} {b : Block}
    {log : List (Event S E C)} (h : (sys V decode).Reach w b log) (hst : Steady log) {P : Addr → Nat → Nat}
    {T : Nat → Nat} (hA : ∀ ev ∈ log, ∀ x, x ≤ ev.env.block.height →
      (∀ a, P a x = V.power ev.pre.vote a x) ∧ T x = V.total ev.pre.vote x) :
    ∃ b1, b1.le b ∧ Single.Reach w.prop b1 ((propLog V log).map (fixEnv P T)) := by
  obtain ⟨b0, w0, ⟨_, _, _, env0, c0, i0, out0, hb0, _, hi⟩, hr⟩ := h
  induction hr with
  | refl => exact ⟨b0, Block.le_refl _, env0, c0, i0, _, out0, hi, by rw [hb0]; exact .refl⟩
  | @step s1 s2 b3 log env call out hr hb3 hs ih =>
    obtain ⟨b1, hb1, env1, c1, i1, s0, o1, h1, h2⟩ := ih (fun e he => hst e (List.mem_cons_of_mem _ he))
      (fun e he => hA e (List.mem_cons_of_mem _ he))
    cases call with
    | core c =>
      obtain ⟨_, _, hw, _⟩ := core_effect (V := V) (decode := decode) hs
      rw [hw]
      exact ⟨b1, Block.le_trans hb1 hb3, env1, c1, i1, s0, o1, h1, h2⟩
    | vote ve c =>
      obtain ⟨_, _, hw, _⟩ := vote_effect (decode := decode) hs
      rw [hw]
      exact ⟨b1, Block.le_trans hb1 hb3, env1, c1, i1, s0, o1, h1, h2⟩
    | prop c =>
      obtain ⟨⟨o, ho, hp⟩, _⟩ := prop_effect (decode := decode) hs
      obtain ⟨hw1, hw2⟩ := hst _ (List.mem_cons_self)
      have hag := hA _ (List.mem_cons_self)
      simp only at hw1 hw2 hag
      have hwired : Wired s1 s1.prop.config.dao := ⟨hw2, hw1⟩
      have hle : b1.le env.block := Block.le_trans hb1 hb3
      have hstarted := started ⟨env1, c1, i1, s0, o1, h1, h2⟩
      have hstep : Single.step s1.prop { propEnv V s1 env with power := fun _ => P, total := fun _ => T } c =
          .ok (s2.prop, o) := by
        rw [step_congr _ _ _ c, hp]
        · intro a x hx
          simp only [propEnv, if_pos hwired]
          exact (hag x hx).1 a
        · intro x hx
          simp only [propEnv, if_pos hwired]
          exact (hag x hx).2
        · intro id p hg
          exact Nat.le_trans (hstarted id p hg) hle.1
      refine ⟨env.block, Block.le_refl _, env1, c1, i1, s0, o1, h1, ?_⟩
      have he : propLog V ((⟨s1, env, .prop c, out, s2⟩ : Event S E C) :: log) =
          ⟨s1.prop, propEnv V s1 env, c, o, s2.prop⟩ :: propLog V log := by
        simp only [propLog, ho]
      rw [he]
      exact .step h2 hle hstep

theorem lawful_bounded {V : VotingModule S E C O} (hV : Lawful V) {s : S} {b : Block} {l : List (Ev S E C O)}
    (h : V.sys.Reach s b l) (x : Nat) (L : List Addr) (hL : L.Nodup) :
    (L.map (fun a => V.power s a x)).sum ≤ V.total s x := by
  obtain ⟨M, hM, h0, hs⟩ := hV.sums h x
  rw [hs]
  have key : ∀ (L M : List Addr), L.Nodup → M.Nodup → (∀ a, a ∈ L → a ∉ M → V.power s a x = 0) →
      (L.map (fun a => V.power s a x)).sum ≤ (M.map (fun a => V.power s a x)).sum := by
    intro L
    induction L with
    | nil => intro M _ _ _; simp
    | cons a L ih =>
      intro M hL hM h0
      rw [List.nodup_cons] at hL
      simp only [List.map_cons, List.sum_cons]
      by_cases ha : a ∈ M
      · have h1 := ih (M.erase a) hL.2 (hM.erase a) (fun q hq hn => h0 q (List.mem_cons_of_mem _ hq)
          (fun hq' => hn ((List.Nodup.mem_erase_iff hM).2 ⟨fun he => hL.1 (he ▸ hq), hq'⟩)))
        have h2 := (List.perm_cons_erase ha).map (fun a => V.power s a x)
        rw [h2.sum_nat]
        simp only [List.map_cons, List.sum_cons]
        omega
      · rw [h0 a (by simp) ha]
        have h1 := ih M hL.2 hM (fun q hq hn => h0 q (List.mem_cons_of_mem _ hq) hn)
        omega
  exact key L M hL hM (fun a _ ha => h0 a ha)

/-- The history of the proposal module in which all powers are those of the voting module at the end. -/
theorem prop_stable {V : VotingModule S E C O} (hV : Lawful V) {decode : Nat → DaoCore.CosmosMsg} {w : World S}
    {b : Block} {log : List (Event S E C)} (h : (sys V decode).Reach w b log) (hst : Steady log) :
    ∃ b1 l, b1.le b ∧ Single.Reach w.prop b1 l ∧
      l = (propLog V log).map (fixEnv (V.power w.vote) (V.total w.vote)) ∧
      StablePowers l (V.power w.vote) (V.total w.vote) := by
  obtain ⟨b1, hb, hr⟩ := prop_reach h hst (vote_agree hV h)
  obtain ⟨l, b2, hv, _⟩ := vote_reach h
  refine ⟨b1, _, hb, hr, rfl, ?_, ?_, fun x L hL => lawful_bounded hV hv x L hL⟩
  · intro e he a x
    obtain ⟨e', _, rfl⟩ := List.mem_map.1 he
    rfl
  · intro e he x
    obtain ⟨e', _, rfl⟩ := List.mem_map.1 he
    rfl

end Verif.WholeDao
