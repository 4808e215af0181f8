import Verif.Spec.WholeMulti
import Verif.Proofs.WholeDao
import Verif.Props.MultipleBallots
/-! From a history of the whole DAO to histories of its parts. -/

namespace Verif.WholeMulti
open Verif
open Verif.Voting hiding Vote Votes
open Verif.Spec hiding StablePowers isExecuteOf isExecuteOnDao lastVote ballotCast
open Verif.Spec.WholeMulti Verif.Spec.Multi
open Verif.Multiple (Vote)
open Verif.WholeDao (VotingModule run_blocks lawful_bounded)
open Verif.Spec.WholeDao (Lawful)

variable {S E C O : Type}

/-! ### The proposal module only asks for powers at heights up to the present one -/

theorem step_congr {s : Multiple.State} {env : Multiple.Env} {P : Addr → Addr → Nat → Nat} {T : Addr → Nat}
    (hP : ∀ a h, h ≤ env.block.height → P s.config.dao a h = env.power s.config.dao a h)
    (hs : ∀ id p, s.proposals.get id = some p → p.startHeight ≤ env.block.height) (call : Multiple.Call)
    (hT : (∃ g c m v z, call = .propose g c m v z) → T s.config.dao = env.totalNow s.config.dao) :
    Multiple.step s { env with power := P, totalNow := T } call = Multiple.step s env call := by
  have hq : ∀ a h, h ≤ env.block.height →
      Multiple.queryPower { env with power := P, totalNow := T } s.config.dao a h =
        Multiple.queryPower env s.config.dao a h := by
    intro a h hh
    simp only [Multiple.queryPower, hP a h hh]
  have hv : ∀ {s1 : Multiple.State} {voter : Addr} {id : Nat} {v : Vote} {r : Option Nat},
      s1.config = s.config → (∀ id p, s1.proposals.get id = some p → p.startHeight ≤ env.block.height) →
      Multiple.execVote s1 { env with power := P, totalNow := T } voter id v r = Multiple.execVote s1 env voter id v r := by
    intro s1 voter id v r hc hs1
    unfold Multiple.execVote
    cases hg : s1.proposals.get id with
    | none => simp only [orErr, error_bind]
    | some p =>
      simp only [orErr, ok_bind, hc, hq voter p.startHeight (hs1 id p hg)]
  cases call with
  | vote id v r => exact hv rfl hs
  | propose g c m vo z =>
    simp only [Multiple.step, Multiple.execPropose]
    have ht : Multiple.queryTotal { env with power := P, totalNow := T } s.config.dao =
        Multiple.queryTotal env s.config.dao := by
      simp only [Multiple.queryTotal, hT ⟨_, _, _, _, _, rfl⟩]
    rw [ht]
    cases vo with
    | none => rfl
    | some vr =>
      obtain ⟨v, r⟩ := vr
      apply bind_congr; intro _
      apply bind_congr; intro proposer
      apply bind_congr; intro _
      apply bind_congr; intro choices
      apply bind_congr; intro total
      cases hu : (Multiple.freshProposal s.config env.block proposer c choices total).updateStatus env.block with
      | error e => rfl
      | ok p =>
        have hsh : p.startHeight = env.block.height := by
          rw [Multiple.updateStatus_ok] at hu
          obtain ⟨st, _, rfl⟩ := hu; rfl
        simp only [ok_bind]
        apply bind_congr; intro id
        apply bind_congr; intro _
        rw [hv (s1 := { s with count := id, proposals := s.proposals.set id p }) rfl]
        intro id' p' hp'
        simp only [AMap.get_set] at hp'
        split at hp'
        · injection hp' with hp'; subst hp'; exact Nat.le_of_eq hsh
        · exact hs _ _ hp'
  | execute id f =>
    simp only [Multiple.step, Multiple.execExecute]
    cases hg : s.proposals.get id with
    | none => rfl
    | some p =>
      simp only [orErr, ok_bind]
      have : Multiple.senderCanExecute s { env with power := P, totalNow := T } p = Multiple.senderCanExecute s env p := by
        simp only [Multiple.senderCanExecute, hq _ _ (hs id p hg)]
      rw [this]
  | _ => rfl

/-- Proposals start at a height not above the present one. -/
theorem started {s : Multiple.State} {b : Block} {log : List Multiple.Event} (h : Multiple.Reach s b log) :
    ∀ id p, s.proposals.get id = some p → p.startHeight ≤ b.height := by
  obtain ⟨env, c, i, s0, out, h0, hr⟩ := h
  refine Multiple.run_micro (P := fun s b => ∀ id p, s.proposals.get id = some p → p.startHeight ≤ b.height) hr ?_ ?_ ?_
  · unfold Multiple.instantiate at h0
    simp only [bind_ok, Except.ok.injEq, Prod.mk.injEq] at h0
    obtain ⟨_, hv, rfl, _⟩ := h0
    intro id p hp; cases hp
  · intro s b b' h hb id p hp
    exact Nat.le_trans (h id p hp) hb.1
  · intro env s s' h hm
    cases hm with
    | other h1 => rw [h1]; exact h
    | rationale => exact h
    | vote hp =>
      intro id' p' hp'
      simp only [AMap.get_set] at hp'
      split at hp'
      · injection hp' with hp'; subst hp'; have := h _ _ hp; exact this
      · exact h _ _ hp'
    | create =>
      intro id' p' hp'
      simp only [AMap.get_set] at hp'
      split at hp'
      · injection hp' with hp'; subst hp'; exact Nat.le_refl _
      · exact h _ _ hp'
    | status hp =>
      intro id' p' hp'
      simp only [AMap.get_set] at hp'
      split at hp'
      · injection hp' with hp'; subst hp'; have := h _ _ hp; exact this
      · exact h _ _ hp'

/-! ### What a call of the proposal module does to the DAO -/

theorem handOn_none {decode : Nat → DaoCore.CosmosMsg} {e : Env} {pa : Addr} {l : List Multiple.SubMsg}
    {c : DaoCore.World} (h : ∀ m ∈ l, isExecuteOnDao m.msg = false) : handOn decode e pa l c = .ok (c, []) := by
  induction l with
  | nil => rfl
  | cons m l ih =>
    have h1 := h m (by simp)
    have h2 := ih (fun m hm => h m (List.mem_cons_of_mem _ hm))
    unfold handOn
    cases hm : m.msg <;> rw [hm] at h1 <;> first | exact h2 | (simp [isExecuteOnDao] at h1)

theorem prop_effect {V : VotingModule S E C O} {N : TotalNow S} {decode : Nat → DaoCore.CosmosMsg} {w w' : World S} {e : Env}
    {c : Multiple.Call} {out : Out} (h : step V N decode w e (.prop c) = .ok (w', out)) :
    (∃ o, out.prop = some o ∧ Multiple.step w.prop (propEnv V N w e) c = .ok (w'.prop, o)) ∧
    w'.vote = w.vote ∧ w'.propAddr = w.propAddr ∧ w'.voteAddr = w.voteAddr ∧
    ((w'.core = w.core ∧ out.core = []) ∨ ∃ id p ms, c = .execute id false ∧ w.prop.proposals.get id = some p ∧
      Multiple.winningMsgs p = .ok ms ∧
      DaoCore.step w.core (coreEnv e) (.call w.propAddr (.executeProposalHook (ms.map decode))) =
        .ok (w'.core, out.core)) := by
  simp only [step, bind_ok, Prod.exists, Except.ok.injEq, Prod.mk.injEq] at h
  obtain ⟨p, o, h1, cc, subs, h2, rfl, rfl⟩ := h
  refine ⟨⟨o, rfl, h1⟩, rfl, rfl, rfl, ?_⟩
  simp only
  unfold passOn at h2
  split at h2
  · injection h2 with h2; injection h2 with h2 h3
    exact Or.inl ⟨h2.symm, h3.symm⟩
  · rename_i hf
    by_cases hex : ∃ m ∈ o.msgs, isExecuteOnDao m.msg = true
    · obtain ⟨m, hm, hx⟩ := hex
      obtain ⟨id, q, f, _, rfl, hq, hmm, _⟩ := Multiple.C21_only_execute_sends h1 hm hx
      have hff : f = false := by
        cases f
        · rfl
        · exact absurd rfl hf
      subst hff
      obtain ⟨q', st, st', ms, hq', hst, hwm, _, _, _, _, ho, _⟩ := Multiple.execExecute_inv h1
      rw [hq] at hq'; injection hq' with hq'; subst hq'
      have hno : ∀ {st st'}, ∀ m ∈ Multiple.statusChangedHooks w.prop.proposalHooks id st st' ++
          Multiple.completedHooks w.prop.policy id st', isExecuteOnDao m.msg = false := by
        intro st st' m hm
        rcases List.mem_append.1 hm with hm | hm
        · exact Multiple.status_not_exec m hm
        · exact Multiple.completed_not_exec m hm
      rcases ho with ⟨_, _, ho⟩ | ⟨_, _, _, rid, ho⟩
      · rw [ho] at hm; rw [hno m hm] at hx; cases hx
      · rw [ho] at h2
        simp only [handOn] at h2
        split at h2
        · simp only [bind_ok, Prod.exists, handOn_none hno, Except.ok.injEq, Prod.mk.injEq] at h2
          obtain ⟨c1, o1, h3, c2, o2, ⟨rfl, rfl⟩, rfl, rfl⟩ := h2
          rw [List.append_nil]
          exact Or.inr ⟨id, q, ms, rfl, hq, hwm, h3⟩
        · rw [handOn_none hno] at h2
          injection h2 with h2; injection h2 with h2 h3
          exact Or.inl ⟨h2.symm, h3.symm⟩
    · rw [handOn_none (fun m hm => by
        cases hx : isExecuteOnDao m.msg
        · rfl
        · exact absurd ⟨m, hm, hx⟩ hex)] at h2
      injection h2 with h2; injection h2 with h2 h3
      exact Or.inl ⟨h2.symm, h3.symm⟩

theorem core_effect {V : VotingModule S E C O} {N : TotalNow S} {decode : Nat → DaoCore.CosmosMsg} {w w' : World S} {e : Env}
    {c : DaoCore.Call} {out : Out} (h : step V N decode w e (.core c) = .ok (w', out)) :
    notBy w.propAddr c = true ∧ DaoCore.step w.core (coreEnv e) c = .ok (w'.core, out.core) ∧
    w'.prop = w.prop ∧ w'.vote = w.vote ∧ w'.propAddr = w.propAddr ∧ w'.voteAddr = w.voteAddr ∧ out.prop = none := by
  simp only [step, bind_ok, require_ok, Prod.exists, Except.ok.injEq, Prod.mk.injEq] at h
  obtain ⟨_, hn, cc, o, h1, rfl, rfl⟩ := h
  exact ⟨hn, h1, rfl, rfl, rfl, rfl, rfl⟩

theorem vote_effect {V : VotingModule S E C O} {N : TotalNow S} {decode : Nat → DaoCore.CosmosMsg} {w w' : World S} {e : Env}
    {ve : E} {c : C} {out : Out} (h : step V N decode w e (.vote ve c) = .ok (w', out)) :
    V.sys.block ve = e.block ∧ (∃ o, V.sys.step w.vote ve c = .ok (w'.vote, o)) ∧
    w'.prop = w.prop ∧ w'.core = w.core ∧ w'.propAddr = w.propAddr ∧ w'.voteAddr = w.voteAddr ∧ out = ⟨none, []⟩ := by
  simp only [step, bind_ok, require_ok, Prod.exists, Except.ok.injEq, Prod.mk.injEq, decide_eq_true_eq] at h
  obtain ⟨_, hn, cc, o, h1, rfl, rfl⟩ := h
  exact ⟨hn, ⟨o, h1⟩, rfl, rfl, rfl, rfl, rfl⟩

/-! ### The voting module -/

theorem vote_run {V : VotingModule S E C O} {N : TotalNow S} {decode : Nat → DaoCore.CosmosMsg} {w w' : World S} {b b' : Block}
    {log : List (Event S E C)} (h : (sys V N decode).Run w b log w' b') {b1 : Block} (hb : b1.le b) :
    ∃ l b2, V.sys.Run w.vote b1 l w'.vote b2 ∧ b2.le b' ∧ ∀ e ∈ l, ∃ ev ∈ log, V.sys.block e.env = ev.env.block := by
  induction h with
  | refl => exact ⟨[], b1, .refl, hb, by simp⟩
  | @step s1 s2 b3 log env call out hr hb3 hs ih =>
    obtain ⟨l, b2, h1, h2, h3⟩ := ih
    have old : ∀ e ∈ l, ∃ ev ∈ (⟨s1, env, call, out, s2⟩ : Event S E C) :: log, V.sys.block e.env = ev.env.block :=
      fun e he => let ⟨ev, hev, hx⟩ := h3 e he; ⟨ev, List.mem_cons_of_mem _ hev, hx⟩
    cases call with
    | core c =>
      obtain ⟨_, _, _, hw, _⟩ := core_effect (V := V) (N := N) (decode := decode) hs
      rw [hw]
      exact ⟨l, b2, h1, Block.le_trans h2 hb3, old⟩
    | prop c =>
      obtain ⟨_, hw, _⟩ := prop_effect (decode := decode) hs
      rw [hw]
      exact ⟨l, b2, h1, Block.le_trans h2 hb3, old⟩
    | vote ve c =>
      obtain ⟨hbl, ⟨o, hst⟩, _, _⟩ := vote_effect (N := N) (decode := decode) hs
      have hle : b2.le (V.sys.block ve) := by rw [hbl]; exact Block.le_trans h2 hb3
      refine ⟨_, _, .step h1 hle hst, by rw [hbl]; exact Block.le_refl _, ?_⟩
      intro e he
      rcases List.mem_cons.1 he with rfl | he
      · exact ⟨_, List.mem_cons_self, hbl⟩
      · exact old e he

theorem vote_reach {V : VotingModule S E C O} {N : TotalNow S} {decode : Nat → DaoCore.CosmosMsg} {w : World S} {b : Block}
    {log : List (Event S E C)} (h : (sys V N decode).Reach w b log) : ∃ l b1, V.sys.Reach w.vote b1 l ∧ b1.le b := by
  obtain ⟨b0, w0, ⟨_, _, ⟨b1, l, h1, h2⟩, _⟩, hr⟩ := h
  obtain ⟨l', b2, h3, h4, _⟩ := vote_run hr h2
  exact ⟨_, _, h1.run h3, h4⟩

/-- The answers for a height up to the block of an event are the same after the event. -/
theorem vote_agree {V : VotingModule S E C O} (hV : Lawful V) {N : TotalNow S} {decode : Nat → DaoCore.CosmosMsg} {w : World S}
    {b : Block} {log : List (Event S E C)} (h : (sys V N decode).Reach w b log) :
    ∀ ev ∈ log, ∀ x, x ≤ ev.env.block.height →
      (∀ a, V.power w.vote a x = V.power ev.pre.vote a x) ∧ V.total w.vote x = V.total ev.pre.vote x := by
  intro ev hev x hx
  obtain ⟨b0, w0, hi, hr⟩ := h
  obtain ⟨l1, l2, b1, _, h1, h2, h3, h4⟩ := hr.event ev hev
  obtain ⟨l, b2, h5, h6⟩ := vote_reach ⟨b0, w0, hi, h1⟩
  have hrun : (sys V N decode).Run ev.pre b1 (l2 ++ [ev]) w b := (Sys.Run.step .refl h2 h3).append h4
  obtain ⟨l', b3, h7, _, h8⟩ := vote_run hrun h6
  refine hV.stable h5 h7 ?_
  intro e he
  obtain ⟨ev', hev', hbl⟩ := h8 e he
  rw [hbl]
  rcases List.mem_append.1 hev' with hm | hm
  · exact Nat.le_trans hx (run_blocks h4 ev' hm).1
  · rw [List.mem_singleton.1 hm]; exact hx

/-- The total asked for without a height when a proposal is made is the one for the height of its block. -/
theorem now_agree {V : VotingModule S E C O} (hV : Lawful V) {N : TotalNow S} {decode : Nat → DaoCore.CosmosMsg}
    {w : World S} {b : Block} {log : List (Event S E C)} (h : (sys V N decode).Reach w b log)
    (hN : TotalsOfHeight V N log) :
    ∀ ev ∈ log, proposes ev → V.total w.vote ev.env.block.height = N ev.pre.vote ev.env.block := by
  intro ev hev hp
  rw [(vote_agree hV h ev hev _ (Nat.le_refl _)).2, hN ev hev hp]

/-- Modules that answer for the current height. -/
theorem totals_now {V : VotingModule S E C O} {N : TotalNow S} (hN : AnswersNow V N)
    {decode : Nat → DaoCore.CosmosMsg} {w : World S} {b : Block} {log : List (Event S E C)}
    (h : (sys V N decode).Reach w b log) : TotalsOfHeight V N log := by
  intro ev hev _
  obtain ⟨b0, w0, hi, hr⟩ := h
  obtain ⟨l1, l2, b1, _, h1, h2, _⟩ := hr.event ev hev
  obtain ⟨l, b2, h5, h6⟩ := vote_reach ⟨b0, w0, hi, h1⟩
  exact hN h5 _ (Block.le_trans h6 h2)

/-- A history without calls of the voting module at or above a height. -/
theorem quiet_run {V : VotingModule S E C O} {N : TotalNow S} {decode : Nat → DaoCore.CosmosMsg} {w w' : World S} {b b' : Block}
    {log : List (Event S E C)} (h : (sys V N decode).Run w b log w' b') {b1 : Block} (hb : b1.le b) {x : Nat}
    (hx : b.height < x) (hq : ∀ e ∈ log, (∃ ve c, e.call = .vote ve c) → e.env.block.height < x) :
    ∃ l b2, V.sys.Run w.vote b1 l w'.vote b2 ∧ b2.le b' ∧ b2.height < x := by
  induction h with
  | refl => exact ⟨[], b1, .refl, hb, Nat.lt_of_le_of_lt hb.1 hx⟩
  | @step s1 s2 b3 log env call out hr hb3 hs ih =>
    obtain ⟨l, b2, h1, h2, h3⟩ := ih (fun e he => hq e (List.mem_cons_of_mem _ he))
    cases call with
    | core c =>
      obtain ⟨_, _, _, hw, _⟩ := core_effect (V := V) (N := N) (decode := decode) hs
      rw [hw]
      exact ⟨l, b2, h1, Block.le_trans h2 hb3, h3⟩
    | prop c =>
      obtain ⟨_, hw, _⟩ := prop_effect (decode := decode) hs
      rw [hw]
      exact ⟨l, b2, h1, Block.le_trans h2 hb3, h3⟩
    | vote ve c =>
      obtain ⟨hbl, ⟨o, hst⟩, _, _⟩ := vote_effect (N := N) (decode := decode) hs
      have hle : b2.le (V.sys.block ve) := by rw [hbl]; exact Block.le_trans h2 hb3
      refine ⟨_, _, .step h1 hle hst, by rw [hbl]; exact Block.le_refl _, ?_⟩
      rw [hbl]
      exact hq _ (List.mem_cons_self) ⟨_, _, rfl⟩

/-- Modules that answer with what is held right now, if nobody calls them in the block of a proposal before it. -/
theorem totals_newest {V : VotingModule S E C O} (hV : Lawful V) {N : TotalNow S} (hN : AnswersNewest V N)
    {decode : Nat → DaoCore.CosmosMsg} {w0 w : World S} {b0 b : Block} {log : List (Event S E C)} (hi : Init V b0 w0)
    (hr : (sys V N decode).Run w0 b0 log w b) (hq : Settled b0 log) : TotalsOfHeight V N log := by
  intro ev hev hp
  obtain ⟨l1, l2, b1, hl, h1, h2, _⟩ := hr.event ev hev
  obtain ⟨hx, hq⟩ := hq _ _ _ hl hp
  obtain ⟨b3, l, h3, h4⟩ := hi.2.2.1
  obtain ⟨l', b4, h5, _, h6⟩ := quiet_run h1 h4 hx hq
  rw [hN, (hV.history (h3.run h5) .refl h6 (by simp)).2]

/-! ### The proposal module -/

/-- The same call with answers taken from `P` and `T`. -/
def fixEnv (P : Addr → Nat → Nat) (T : Nat → Nat) (e : Multiple.Event) : Multiple.Event :=
  ⟨e.pre, { e.env with power := fun _ => P, totalNow := fun _ => T e.env.block.height }, e.call, e.out, e.post⟩

theorem lastVote_fix {P : Addr → Nat → Nat} {T : Nat → Nat} {a : Addr} {id : Nat} {l : List Multiple.Event} :
    lastVote a id (l.map (fixEnv P T)) = lastVote a id l := by
  induction l with
  | nil => rfl
  | cons e l ih => simp only [List.map_cons, lastVote, ih]; rfl

theorem prop_reach {V : VotingModule S E C O} {N : TotalNow S} {decode : Nat → DaoCore.CosmosMsg} {w : World S} {b : Block}
    {log : List (Event S E C)} (h : (sys V N decode).Reach w b log) (hst : Steady log) {P : Addr → Nat → Nat}
    {T : Nat → Nat} (hA : ∀ ev ∈ log, ∀ x, x ≤ ev.env.block.height →
      (∀ a, P a x = V.power ev.pre.vote a x)) (hN : ∀ ev ∈ log, proposes ev → T ev.env.block.height = N ev.pre.vote ev.env.block) :
    ∃ b1, b1.le b ∧ Multiple.Reach w.prop b1 ((propLog V N log).map (fixEnv P T)) := by
  obtain ⟨b0, w0, ⟨_, _, _, env0, c0, i0, out0, hb0, _, hi⟩, hr⟩ := h
  induction hr with
  | refl => exact ⟨b0, Block.le_refl _, env0, c0, i0, _, out0, hi, by rw [hb0]; exact .refl⟩
  | @step s1 s2 b3 log env call out hr hb3 hs ih =>
    obtain ⟨b1, hb1, env1, c1, i1, s0, o1, h1, h2⟩ := ih (fun e he => hst e (List.mem_cons_of_mem _ he))
      (fun e he => hA e (List.mem_cons_of_mem _ he)) (fun e he => hN e (List.mem_cons_of_mem _ he))
    cases call with
    | core c =>
      obtain ⟨_, _, hw, _⟩ := core_effect (V := V) (N := N) (decode := decode) hs
      rw [hw]
      exact ⟨b1, Block.le_trans hb1 hb3, env1, c1, i1, s0, o1, h1, h2⟩
    | vote ve c =>
      obtain ⟨_, _, hw, _⟩ := vote_effect (N := N) (decode := decode) hs
      rw [hw]
      exact ⟨b1, Block.le_trans hb1 hb3, env1, c1, i1, s0, o1, h1, h2⟩
    | prop c =>
      obtain ⟨⟨o, ho, hp⟩, _⟩ := prop_effect (decode := decode) hs
      obtain ⟨hw1, hw2⟩ := hst _ (List.mem_cons_self)
      have hag := hA _ (List.mem_cons_self)
      have hnow := hN _ (List.mem_cons_self)
      simp only at hw1 hw2 hag hnow
      have hwired : Wired s1 s1.prop.config.dao := ⟨hw2, hw1⟩
      have hle : b1.le env.block := Block.le_trans hb1 hb3
      have hstarted := started ⟨env1, c1, i1, s0, o1, h1, h2⟩
      have hstep : Multiple.step s1.prop { propEnv V N s1 env with power := fun _ => P, totalNow := fun _ => T env.block.height } c =
          .ok (s2.prop, o) := by
        rw [step_congr _ _ c _, hp]
        · intro a x hx
          simp only [propEnv, if_pos hwired]
          exact hag x hx a
        · intro id p hg
          exact Nat.le_trans (hstarted id p hg) hle.1
        · rintro ⟨g, cc, m, v, z, rfl⟩
          simp only [propEnv, if_pos hwired]
          exact hnow ⟨_, _, _, _, _, rfl⟩
      refine ⟨env.block, Block.le_refl _, env1, c1, i1, s0, o1, h1, ?_⟩
      have he : propLog V N ((⟨s1, env, .prop c, out, s2⟩ : Event S E C) :: log) =
          ⟨s1.prop, propEnv V N s1 env, c, o, s2.prop⟩ :: propLog V N log := by
        simp only [propLog, ho]
      rw [he]
      exact .step h2 hle hstep

/-- The history of the proposal module in which all powers are those of the voting module at the end. -/
theorem prop_stable {V : VotingModule S E C O} (hV : Lawful V) {N : TotalNow S}
    {decode : Nat → DaoCore.CosmosMsg} {w : World S} {b : Block} {log : List (Event S E C)}
    (h : (sys V N decode).Reach w b log) (hst : Steady log) (hN : TotalsOfHeight V N log) :
    ∃ b1 l, b1.le b ∧ Multiple.Reach w.prop b1 l ∧
      l = (propLog V N log).map (fixEnv (V.power w.vote) (V.total w.vote)) ∧
      StablePowers l (V.power w.vote) (V.total w.vote) := by
  obtain ⟨b1, hb, hr⟩ := prop_reach h hst (fun ev hev x hx => (vote_agree hV h ev hev x hx).1) (now_agree hV h hN)
  obtain ⟨l, b2, hv, _⟩ := vote_reach h
  refine ⟨b1, _, hb, hr, rfl, ?_, ?_, fun x L hL => lawful_bounded hV hv x L hL⟩
  · intro e he a x
    obtain ⟨e', _, rfl⟩ := List.mem_map.1 he
    rfl
  · intro e he
    obtain ⟨e', _, rfl⟩ := List.mem_map.1 he
    rfl

end Verif.WholeMulti
