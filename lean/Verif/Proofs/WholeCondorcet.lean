import Verif.Spec.WholeCondorcet
import Verif.Proofs.WholeDao
import Verif.Props.Condorcet
/-! From a history of the whole DAO to histories of its parts. -/

namespace Verif.WholeCondorcet
open Verif
open Verif.Voting hiding Vote Votes
open Verif.Spec hiding StablePowers isExecuteOf isExecuteOnDao lastVote ballotCast
open Verif.Spec.WholeCondorcet Verif.Spec.Condorcet
open Verif.WholeDao (VotingModule run_blocks lawful_bounded)
open Verif.Spec.WholeDao (Lawful)

variable {S E C O : Type}

/-! ### The proposal module only asks for powers at heights up to the present one -/

theorem step_congr {s : Condorcet.State} {env : Condorcet.Env} {P : Addr → Addr → Nat → Nat} {T : Addr → Nat}
    (hP : ∀ a h, h ≤ env.block.height → P s.dao a h = env.power s.dao a h)
    (hs : ∀ id t, s.tallies.get id = some t → t.startHeight ≤ env.block.height) (call : Condorcet.Call)
    (hT : (∃ c, call = .propose c) → T s.dao = env.totalNow s.dao) :
    Condorcet.step s { env with power := P, totalNow := T } call = Condorcet.step s env call := by
  cases call with
  | vote id v =>
    simp only [Condorcet.step, Condorcet.execVote]
    cases hg : s.tallies.get id with
    | none => rfl
    | some t => simp only [orErr, ok_bind, hP _ _ (hs id t hg)]
  | propose c =>
    simp only [Condorcet.step, Condorcet.execPropose, hT ⟨_, rfl⟩]
  | execute id f =>
    simp only [Condorcet.step, Condorcet.execExecute]
    cases hg : s.tallies.get id with
    | none => rfl
    | some t => simp only [orErr, ok_bind, hP _ _ (hs id t hg)]
  | _ => rfl

/-- How a call changes the tallies. -/
theorem tally_step {s s' : Condorcet.State} {env : Condorcet.Env} {call : Condorcet.Call} {out : Condorcet.Out}
    (h : Condorcet.step s env call = .ok (s', out)) {id : Nat} {t' : Condorcet.Tally} (ht : s'.tallies.get id = some t') :
    (∃ t, s.tallies.get id = some t ∧ t'.startHeight = t.startHeight ∧ t'.expiration = t.expiration) ∨
    (∃ c, call = .propose c) ∧ id = Condorcet.top s + 1 ∧ t'.startHeight = env.block.height := by
  cases call with
  | propose c =>
    simp only [Condorcet.step] at h
    obtain ⟨t, st, total, _, _, _, _, _, hnew, _, rfl, _⟩ := Condorcet.propose_inv h
    simp only [AMap.get_set] at ht
    split at ht
    · rename_i he
      injection ht with ht; subst ht
      refine Or.inr ⟨⟨_, rfl⟩, he.symm, ?_⟩
      simp only [Condorcet.newTally, bind_ok, Except.ok.injEq] at hnew
      obtain ⟨_, _, _, _, rfl⟩ := hnew
      rfl
    · exact Or.inl ⟨_, ht, rfl, rfl⟩
  | vote i v =>
    simp only [Condorcet.step] at h
    obtain ⟨t, t2, hg, _, _, _, _, _, hadd, rfl, _⟩ := Condorcet.vote_inv h
    simp only [AMap.get_set] at ht
    split at ht
    · rename_i he
      injection ht with ht; subst ht he
      simp only [Condorcet.Tally.addVote, bind_ok, Except.ok.injEq] at hadd
      obtain ⟨_, _, _, _, _, _, rfl⟩ := hadd
      exact Or.inl ⟨t, hg, rfl, rfl⟩
    · exact Or.inl ⟨_, ht, rfl, rfl⟩
  | execute i f =>
    simp only [Condorcet.step] at h
    obtain ⟨_, _, _, _, _, _, _, _, _, _, _, rfl, _⟩ := Condorcet.execute_inv h
    exact Or.inl ⟨_, ht, rfl, rfl⟩
  | close i =>
    simp only [Condorcet.step] at h
    obtain ⟨_, _, _, _, _, rfl, _⟩ := Condorcet.close_inv h
    exact Or.inl ⟨_, ht, rfl, rfl⟩
  | setConfig c =>
    simp only [Condorcet.step] at h
    obtain ⟨_, _, rfl, _⟩ := Condorcet.setConfig_inv h
    exact Or.inl ⟨_, ht, rfl, rfl⟩

/-- Proposals start at a height not above the present one. -/
theorem started {s : Condorcet.State} {b : Block} {log : List Condorcet.Event} (h : Condorcet.Reach s b log) :
    ∀ id t, s.tallies.get id = some t → t.startHeight ≤ b.height := by
  obtain ⟨env, c, s0, h0, hr⟩ := h
  induction hr with
  | refl =>
    simp only [Condorcet.instantiate, bind_ok, Except.ok.injEq] at h0
    obtain ⟨_, _, rfl⟩ := h0
    intro id t ht; cases ht
  | step hr hb hs ih =>
    intro id t ht
    rcases tally_step hs ht with ⟨t0, h1, h2, _⟩ | ⟨_, _, h2⟩
    · rw [h2]; exact Nat.le_trans (ih id t0 h1) hb.1
    · rw [h2]

/-- The DAO of the module never changes. -/
theorem step_dao {s s' : Condorcet.State} {env : Condorcet.Env} {call : Condorcet.Call} {out : Condorcet.Out}
    (h : Condorcet.step s env call = .ok (s', out)) : s'.dao = s.dao := by
  cases call with
  | propose c =>
    simp only [Condorcet.step] at h; obtain ⟨_, _, _, _, _, _, _, _, _, _, rfl, _⟩ := Condorcet.propose_inv h; rfl
  | vote i v => simp only [Condorcet.step] at h; obtain ⟨_, _, _, _, _, _, _, _, _, rfl, _⟩ := Condorcet.vote_inv h; rfl
  | execute i f =>
    simp only [Condorcet.step] at h; obtain ⟨_, _, _, _, _, _, _, _, _, _, _, rfl, _⟩ := Condorcet.execute_inv h; rfl
  | close i => simp only [Condorcet.step] at h; obtain ⟨_, _, _, _, _, rfl, _⟩ := Condorcet.close_inv h; rfl
  | setConfig c => simp only [Condorcet.step] at h; obtain ⟨_, _, rfl, _⟩ := Condorcet.setConfig_inv h; rfl

/-- The votes in a history of the proposal module, as `Spec.WholeCondorcet.votesOn`. -/
def rankings (id : Nat) : List Condorcet.Event → List (Addr × List Nat)
  | [] => []
  | e :: rest =>
    match e.call with
    | .vote i r => rankings id rest ++ if i = id then [(e.env.sender, r)] else []
    | _ => rankings id rest

theorem rankings_voters (id : Nat) (l : List Condorcet.Event) : (rankings id l).map Prod.fst = votersOn id l := by
  induction l with
  | nil => rfl
  | cons e l ih =>
    simp only [rankings, votersOn]
    cases hc : e.call with
    | vote i r => simp only [List.map_append, ih]; split <;> rfl
    | _ => simp only [ih, List.append_nil]

/-- With the same powers throughout, the ballots counted are the votes with the powers at the start. -/
theorem ballots_eq {s : Condorcet.State} {b : Block} {log : List Condorcet.Event} (h : Condorcet.Reach s b log)
    {P : Addr → Nat → Nat} (hP : ∀ e ∈ log, ∀ d a x, e.env.power d a x = P a x) :
    ∀ id t, s.tallies.get id = some t →
      ballotsOn id log = (rankings id log).map (fun v => ⟨v.2, P v.1 t.startHeight⟩) := by
  obtain ⟨env, c, s0, h0, hr⟩ := h
  induction hr with
  | refl =>
    simp only [Condorcet.instantiate, bind_ok, Except.ok.injEq] at h0
    obtain ⟨_, _, rfl⟩ := h0
    intro id t ht; cases ht
  | @step s1 s2 b1 log env' call out hr hb hs ih =>
    have ih := ih (fun e he => hP e (List.mem_cons_of_mem _ he))
    intro id t ht
    have hinv := Condorcet.inv_reach ⟨env, c, s0, h0, hr⟩
    have hempty : s1.tallies.get id = none → ballotsOn id log = [] ∧ rankings id log = [] := by
      intro hn
      obtain ⟨h1, h2⟩ := hinv.unborn id hn
      rw [← rankings_voters] at h2
      exact ⟨h1, List.map_eq_nil_iff.1 h2⟩
    have old : ballotsOn id log = (rankings id log).map (fun v => ⟨v.2, P v.1 t.startHeight⟩) := by
      rcases tally_step hs ht with ⟨t0, h1, h2, _⟩ | ⟨_, h1, _⟩
      · rw [h2]; exact ih id t0 h1
      · have hn : s1.tallies.get id = none := by
          cases hg : s1.tallies.get id with
          | none => rfl
          | some t0 =>
            have := (hinv.ids id).1 ((hinv.both id).1 (by rw [hg]; rfl))
            omega
        obtain ⟨h3, h4⟩ := hempty hn
        rw [h3, h4]; rfl
    simp only [ballotsOn, rankings]
    cases call with
    | vote i r =>
      simp only [List.map_append, old]
      congr 1
      split
      · rename_i hi
        subst hi
        simp only [List.map_cons, List.map_nil]
        rcases tally_step hs ht with ⟨t0, h1, h2, _⟩ | ⟨⟨c, hc⟩, _⟩
        · rw [h1, h2]
          have := hP _ (List.mem_cons_self) s1.dao env'.sender t0.startHeight
          simp only at this
          simp only [Option.map_some, Option.getD_some, this]
        · cases hc
      · rfl
    | _ => simp only [List.append_nil, old]

/-! ### What a call of the proposal module does to the DAO -/

theorem prop_effect {V : VotingModule S E C O} {N : Now S} {decode : Nat → DaoCore.CosmosMsg} {w w' : World S} {e : Env}
    {c : Condorcet.Call} {out : Out} (h : step V N decode w e (.prop c) = .ok (w', out)) :
    (∃ o, out.prop = some o ∧ Condorcet.step w.prop (propEnv V N w e) c = .ok (w'.prop, o)) ∧
    w'.vote = w.vote ∧ w'.propAddr = w.propAddr ∧ w'.voteAddr = w.voteAddr ∧
    ((w'.core = w.core ∧ out.core = []) ∨ ∃ id p t i ms, c = .execute id false ∧ w.prop.proposals.get id = some p ∧
      w.prop.tallies.get id = some t ∧ p.status t e.block = .ok (.passed i) ∧ p.choices[i]? = some ms ∧
      DaoCore.step w.core (coreEnv e) (.call w.propAddr (.executeProposalHook (ms.map decode))) =
        .ok (w'.core, out.core)) := by
  simp only [step, bind_ok, Prod.exists, Except.ok.injEq, Prod.mk.injEq] at h
  obtain ⟨p, o, h1, cc, subs, h2, rfl, rfl⟩ := h
  refine ⟨⟨o, rfl, h1⟩, rfl, rfl, rfl, ?_⟩
  simp only
  unfold passOn at h2
  split at h2
  · injection h2 with h2; injection h2 with h2 h3
    exact Or.inl ⟨h2.symm, h3.symm⟩
  · rename_i hf
    by_cases hex : ∃ id f, c = .execute id f
    · obtain ⟨id, f, rfl⟩ := hex
      have hff : f = false := by
        cases f
        · rfl
        · exact absurd rfl hf
      subst hff
      simp only [Condorcet.step] at h1
      obtain ⟨t, q, i, ms, st, ht, hq, _, hst, hm, _, _, rfl⟩ := Condorcet.execute_inv h1
      simp only [handOn] at h2
      split at h2
      · exact Or.inr ⟨id, q, t, i, ms, rfl, hq, ht, hst, hm, h2⟩
      · injection h2 with h2; injection h2 with h2 h3
        exact Or.inl ⟨h2.symm, h3.symm⟩
    · rw [Condorcet.C25_only_execute_sends h1 (fun id f hc => hex ⟨id, f, hc⟩)] at h2
      simp only [handOn] at h2
      injection h2 with h2; injection h2 with h2 h3
      exact Or.inl ⟨h2.symm, h3.symm⟩

theorem core_effect {V : VotingModule S E C O} {N : Now S} {decode : Nat → DaoCore.CosmosMsg} {w w' : World S} {e : Env}
    {c : DaoCore.Call} {out : Out} (h : step V N decode w e (.core c) = .ok (w', out)) :
    notBy w.propAddr c = true ∧ DaoCore.step w.core (coreEnv e) c = .ok (w'.core, out.core) ∧
    w'.prop = w.prop ∧ w'.vote = w.vote ∧ w'.propAddr = w.propAddr ∧ w'.voteAddr = w.voteAddr ∧ out.prop = none := by
  simp only [step, bind_ok, require_ok, Prod.exists, Except.ok.injEq, Prod.mk.injEq] at h
  obtain ⟨_, hn, cc, o, h1, rfl, rfl⟩ := h
  exact ⟨hn, h1, rfl, rfl, rfl, rfl, rfl⟩

theorem vote_effect {V : VotingModule S E C O} {N : Now S} {decode : Nat → DaoCore.CosmosMsg} {w w' : World S} {e : Env}
    {ve : E} {c : C} {out : Out} (h : step V N decode w e (.vote ve c) = .ok (w', out)) :
    V.sys.block ve = e.block ∧ (∃ o, V.sys.step w.vote ve c = .ok (w'.vote, o)) ∧
    w'.prop = w.prop ∧ w'.core = w.core ∧ w'.propAddr = w.propAddr ∧ w'.voteAddr = w.voteAddr ∧ out = ⟨none, []⟩ := by
  simp only [step, bind_ok, require_ok, Prod.exists, Except.ok.injEq, Prod.mk.injEq, decide_eq_true_eq] at h
  obtain ⟨_, hn, cc, o, h1, rfl, rfl⟩ := h
  exact ⟨hn, ⟨o, h1⟩, rfl, rfl, rfl, rfl, rfl⟩

/-! ### The voting module -/

theorem vote_run {V : VotingModule S E C O} {N : Now S} {decode : Nat → DaoCore.CosmosMsg} {w w' : World S} {b b' : Block}
    {log : List (Event S E C)} (h : (sys V N decode).Run w b log w' b') {b1 : Block} (hb : b1.le b) :
    ∃ l b2, V.sys.Run w.vote b1 l w'.vote b2 ∧ b2.le b' ∧ ∀ e ∈ l, ∃ ev ∈ log, V.sys.block e.env = ev.env.block := by
  induction h with
  | refl => exact ⟨[], b1, .refl, hb, by simp⟩
  | @step s1 s2 b3 log env call out hr hb3 hs ih =>
    obtain ⟨l, b2, h1, h2, h3⟩ := ih
    have old : ∀ e ∈ l, ∃ ev ∈ (⟨s1, env, call, out, s2⟩ : Event S E C) :: log, V.sys.block e.env = ev.env.block :=
      fun e he => let ⟨ev, hev, hx⟩ := h3 e he; ⟨ev, List.mem_cons_of_mem _ hev, hx⟩
    cases call with
    | core c =>
      obtain ⟨_, _, _, hw, _⟩ := core_effect (V := V) (N := N) (decode := decode) hs
      rw [hw]
      exact ⟨l, b2, h1, Block.le_trans h2 hb3, old⟩
    | prop c =>
      obtain ⟨_, hw, _⟩ := prop_effect (decode := decode) hs
      rw [hw]
      exact ⟨l, b2, h1, Block.le_trans h2 hb3, old⟩
    | vote ve c =>
      obtain ⟨hbl, ⟨o, hst⟩, _, _⟩ := vote_effect (N := N) (decode := decode) hs
      have hle : b2.le (V.sys.block ve) := by rw [hbl]; exact Block.le_trans h2 hb3
      refine ⟨_, _, .step h1 hle hst, by rw [hbl]; exact Block.le_refl _, ?_⟩
      intro e he
      rcases List.mem_cons.1 he with rfl | he
      · exact ⟨_, List.mem_cons_self, hbl⟩
      · exact old e he

theorem vote_reach {V : VotingModule S E C O} {N : Now S} {decode : Nat → DaoCore.CosmosMsg} {w : World S} {b : Block}
    {log : List (Event S E C)} (h : (sys V N decode).Reach w b log) : ∃ l b1, V.sys.Reach w.vote b1 l ∧ b1.le b := by
  obtain ⟨b0, w0, ⟨_, _, ⟨b1, l, h1, h2⟩, _⟩, hr⟩ := h
  obtain ⟨l', b2, h3, h4, _⟩ := vote_run hr h2
  exact ⟨_, _, h1.run h3, h4⟩

/-- The answers for a height up to the block of an event are the same after the event. -/
theorem vote_agree {V : VotingModule S E C O} (hV : Lawful V) {N : Now S} {decode : Nat → DaoCore.CosmosMsg} {w : World S}
    {b : Block} {log : List (Event S E C)} (h : (sys V N decode).Reach w b log) :
    ∀ ev ∈ log, ∀ x, x ≤ ev.env.block.height →
      (∀ a, V.power w.vote a x = V.power ev.pre.vote a x) ∧ V.total w.vote x = V.total ev.pre.vote x := by
  intro ev hev x hx
  obtain ⟨b0, w0, hi, hr⟩ := h
  obtain ⟨l1, l2, b1, _, h1, h2, h3, h4⟩ := hr.event ev hev
  obtain ⟨l, b2, h5, h6⟩ := vote_reach ⟨b0, w0, hi, h1⟩
  have hrun : (sys V N decode).Run ev.pre b1 (l2 ++ [ev]) w b := (Sys.Run.step .refl h2 h3).append h4
  obtain ⟨l', b3, h7, _, h8⟩ := vote_run hrun h6
  refine hV.stable h5 h7 ?_
  intro e he
  obtain ⟨ev', hev', hbl⟩ := h8 e he
  rw [hbl]
  rcases List.mem_append.1 hev' with hm | hm
  · exact Nat.le_trans hx (run_blocks h4 ev' hm).1
  · rw [List.mem_singleton.1 hm]; exact hx

/-- The total asked for without a height when a proposal is made is the one for the height of its block. -/
theorem now_agree {V : VotingModule S E C O} (hV : Lawful V) {N : Now S} {decode : Nat → DaoCore.CosmosMsg}
    {w : World S} {b : Block} {log : List (Event S E C)} (h : (sys V N decode).Reach w b log)
    (hN : TotalsOfHeight V N log) :
    ∀ ev ∈ log, proposes ev → V.total w.vote ev.env.block.height = N.total ev.pre.vote ev.env.block := by
  intro ev hev hp
  rw [(vote_agree hV h ev hev _ (Nat.le_refl _)).2, hN ev hev hp]

/-- Modules that answer for the current height. -/
theorem totals_now {V : VotingModule S E C O} {N : Now S} (hN : AnswersNow V N)
    {decode : Nat → DaoCore.CosmosMsg} {w : World S} {b : Block} {log : List (Event S E C)}
    (h : (sys V N decode).Reach w b log) : TotalsOfHeight V N log := by
  intro ev hev _
  obtain ⟨b0, w0, hi, hr⟩ := h
  obtain ⟨l1, l2, b1, _, h1, h2, _⟩ := hr.event ev hev
  obtain ⟨l, b2, h5, h6⟩ := vote_reach ⟨b0, w0, hi, h1⟩
  exact (hN h5 _ (Block.le_trans h6 h2)).1

/-- A history without calls of the voting module at or above a height. -/
theorem quiet_run {V : VotingModule S E C O} {N : Now S} {decode : Nat → DaoCore.CosmosMsg} {w w' : World S} {b b' : Block}
    {log : List (Event S E C)} (h : (sys V N decode).Run w b log w' b') {b1 : Block} (hb : b1.le b) {x : Nat}
    (hx : b.height < x) (hq : ∀ e ∈ log, (∃ ve c, e.call = .vote ve c) → e.env.block.height < x) :
    ∃ l b2, V.sys.Run w.vote b1 l w'.vote b2 ∧ b2.le b' ∧ b2.height < x := by
  induction h with
  | refl => exact ⟨[], b1, .refl, hb, Nat.lt_of_le_of_lt hb.1 hx⟩
  | @step s1 s2 b3 log env call out hr hb3 hs ih =>
    obtain ⟨l, b2, h1, h2, h3⟩ := ih (fun e he => hq e (List.mem_cons_of_mem _ he))
    cases call with
    | core c =>
      obtain ⟨_, _, _, hw, _⟩ := core_effect (V := V) (N := N) (decode := decode) hs
      rw [hw]
      exact ⟨l, b2, h1, Block.le_trans h2 hb3, h3⟩
    | prop c =>
      obtain ⟨_, hw, _⟩ := prop_effect (decode := decode) hs
      rw [hw]
      exact ⟨l, b2, h1, Block.le_trans h2 hb3, h3⟩
    | vote ve c =>
      obtain ⟨hbl, ⟨o, hst⟩, _, _⟩ := vote_effect (N := N) (decode := decode) hs
      have hle : b2.le (V.sys.block ve) := by rw [hbl]; exact Block.le_trans h2 hb3
      refine ⟨_, _, .step h1 hle hst, by rw [hbl]; exact Block.le_refl _, ?_⟩
      rw [hbl]
      exact hq _ (List.mem_cons_self) ⟨_, _, rfl⟩

/-- Modules that answer with what is held right now, if nobody calls them in the block of a proposal before it. -/
theorem totals_newest {V : VotingModule S E C O} (hV : Lawful V) {N : Now S} (hN : AnswersNewest V N)
    {decode : Nat → DaoCore.CosmosMsg} {w0 w : World S} {b0 b : Block} {log : List (Event S E C)} (hi : Init V b0 w0)
    (hr : (sys V N decode).Run w0 b0 log w b) (hq : Settled b0 log) : TotalsOfHeight V N log := by
  intro ev hev hp
  obtain ⟨l1, l2, b1, hl, h1, h2, _⟩ := hr.event ev hev
  obtain ⟨hx, hq⟩ := hq _ _ _ hl hp
  obtain ⟨b3, l, h3, h4⟩ := hi.2.2.1
  obtain ⟨l', b4, h5, _, h6⟩ := quiet_run h1 h4 hx hq
  rw [(hN _ _).1, (hV.history (h3.run h5) .refl h6 (by simp)).2]

/-! ### The proposal module -/

/-- The module belongs to the DAO, which is another contract. -/
theorem belongs {V : VotingModule S E C O} {N : Now S} {decode : Nat → DaoCore.CosmosMsg} {w : World S} {b : Block}
    {log : List (Event S E C)} (h : (sys V N decode).Reach w b log) :
    w.prop.dao = w.core.core.me ∧ w.propAddr ≠ w.core.core.me := by
  obtain ⟨b0, w0, hi, hr⟩ := h
  induction hr with
  | refl =>
    obtain ⟨h1, _, _, env, c, _, hsd, h2⟩ := hi
    simp only [Condorcet.instantiate, bind_ok, Except.ok.injEq] at h2
    obtain ⟨_, _, h2⟩ := h2
    exact ⟨by rw [← h2]; exact hsd, h1⟩
  | @step s1 s2 b3 log env call out hr hb3 hs ih =>
    cases call with
    | vote ve c =>
      obtain ⟨_, _, hp, hw, hpa, _⟩ := vote_effect (N := N) (decode := decode) hs
      rw [hw, hpa, hp]; exact ih
    | prop c =>
      obtain ⟨⟨_, _, hp⟩, _, hpa, _, he⟩ := prop_effect (decode := decode) hs
      have hd := step_dao hp
      rcases he with ⟨he, _⟩ | ⟨id, p, t, i, ms, rfl, _, _, _, _, hc⟩
      · rw [hpa, he, hd]; exact ih
      · have := DaoCore.does_me (DaoCore.step_does hc)
        simp only at this
        rw [hpa, this, hd]; exact ih
    | core c =>
      obtain ⟨hn, hc, hp, _, hpa, _⟩ := core_effect (V := V) (N := N) (decode := decode) hs
      have := DaoCore.does_me (DaoCore.step_does hc)
      simp only at this
      rw [hpa, this, hp]; exact ih

/-- The same call with answers taken from `P` and `T`. -/
def fixEnv (P : Addr → Nat → Nat) (T : Nat → Nat) (e : Condorcet.Event) : Condorcet.Event :=
  ⟨e.pre, { e.env with power := fun _ => P, totalNow := fun _ => T e.env.block.height }, e.call, e.out, e.post⟩

theorem rankings_fix {P : Addr → Nat → Nat} {T : Nat → Nat} {id : Nat} {l : List Condorcet.Event} :
    rankings id (l.map (fixEnv P T)) = rankings id l := by
  induction l with
  | nil => rfl
  | cons e l ih => simp only [List.map_cons, rankings, ih]; rfl

theorem prop_cons {V : VotingModule S E C O} {N : Now S} {s1 s2 : World S} {env : Env} {c : Condorcet.Call} {out : Out}
    {o : Condorcet.Out} {log : List (Event S E C)} (ho : out.prop = some o) :
    propLog V N ((⟨s1, env, .prop c, out, s2⟩ : Event S E C) :: log) =
      ⟨s1.prop, propEnv V N s1 env, c, o, s2.prop⟩ :: propLog V N log := by
  simp only [propLog, ho]

theorem votes_log {V : VotingModule S E C O} {N : Now S} {decode : Nat → DaoCore.CosmosMsg} {w w0 : World S} {b b0 : Block}
    {log : List (Event S E C)} (h : (sys V N decode).Run w0 b0 log w b) (id : Nat) :
    votesOn id log = rankings id (propLog V N log) := by
  induction h with
  | refl => rfl
  | @step s1 s2 b3 log env call out hr hb3 hs ih =>
    cases call with
    | core c => exact ih
    | vote ve c => exact ih
    | prop c =>
      obtain ⟨⟨o, ho, _⟩, _⟩ := prop_effect (decode := decode) hs
      rw [prop_cons ho]
      cases c <;> simp only [votesOn, rankings, ih]
      rfl

/-- The history of the proposal module alone. -/
theorem prop_history {V : VotingModule S E C O} {N : Now S} {decode : Nat → DaoCore.CosmosMsg} {w : World S} {b : Block}
    {log : List (Event S E C)} (h : (sys V N decode).Reach w b log) :
    ∃ b1, b1.le b ∧ Condorcet.Reach w.prop b1 (propLog V N log) := by
  obtain ⟨b0, w0, ⟨_, _, _, env0, c0, hb0, _, hi⟩, hr⟩ := h
  induction hr with
  | refl => exact ⟨b0, Block.le_refl _, env0, c0, _, hi, by rw [hb0]; exact .refl⟩
  | @step s1 s2 b3 log env call out hr hb3 hs ih =>
    obtain ⟨b1, hb1, env1, c1, s0, h1, h2⟩ := ih
    cases call with
    | core c =>
      obtain ⟨_, _, hw, _⟩ := core_effect (V := V) (N := N) (decode := decode) hs
      rw [hw]
      exact ⟨b1, Block.le_trans hb1 hb3, env1, c1, s0, h1, h2⟩
    | vote ve c =>
      obtain ⟨_, _, hw, _⟩ := vote_effect (N := N) (decode := decode) hs
      rw [hw]
      exact ⟨b1, Block.le_trans hb1 hb3, env1, c1, s0, h1, h2⟩
    | prop c =>
      obtain ⟨⟨o, ho, hp⟩, _⟩ := prop_effect (decode := decode) hs
      refine ⟨env.block, Block.le_refl _, env1, c1, s0, h1, ?_⟩
      rw [prop_cons ho]
      exact .step h2 (Block.le_trans hb1 hb3) hp

/-- A stretch of the history of the proposal module. -/
theorem prop_run {V : VotingModule S E C O} {N : Now S} {decode : Nat → DaoCore.CosmosMsg} {w w' : World S} {b b' : Block}
    {log : List (Event S E C)} (h : (sys V N decode).Run w b log w' b') {b1 : Block} (hb : b1.le b) :
    ∃ b2, b2.le b' ∧ Condorcet.Run w.prop b1 (propLog V N log) w'.prop b2 := by
  induction h with
  | refl => exact ⟨b1, hb, .refl⟩
  | @step s1 s2 b3 log env call out hr hb3 hs ih =>
    obtain ⟨b2, hb2, h2⟩ := ih
    cases call with
    | core c =>
      obtain ⟨_, _, hw, _⟩ := core_effect (V := V) (N := N) (decode := decode) hs
      rw [hw]
      exact ⟨b2, Block.le_trans hb2 hb3, h2⟩
    | vote ve c =>
      obtain ⟨_, _, hw, _⟩ := vote_effect (N := N) (decode := decode) hs
      rw [hw]
      exact ⟨b2, Block.le_trans hb2 hb3, h2⟩
    | prop c =>
      obtain ⟨⟨o, ho, hp⟩, _⟩ := prop_effect (decode := decode) hs
      refine ⟨env.block, Block.le_refl _, ?_⟩
      rw [prop_cons ho]
      exact .step h2 (Block.le_trans hb2 hb3) hp

theorem prop_reach {V : VotingModule S E C O} {N : Now S} {decode : Nat → DaoCore.CosmosMsg} {w : World S} {b : Block}
    {log : List (Event S E C)} (h : (sys V N decode).Reach w b log) (hst : Steady log) {P : Addr → Nat → Nat}
    {T : Nat → Nat} (hA : ∀ ev ∈ log, ∀ x, x ≤ ev.env.block.height →
      (∀ a, P a x = V.power ev.pre.vote a x))
    (hN : ∀ ev ∈ log, proposes ev → T ev.env.block.height = N.total ev.pre.vote ev.env.block) :
    ∃ b1, b1.le b ∧ Condorcet.Reach w.prop b1 ((propLog V N log).map (fixEnv P T)) := by
  obtain ⟨b0, w0, hi, hr⟩ := h
  have hi' := hi
  obtain ⟨_, _, _, env0, c0, hb0, _, hi'⟩ := hi'
  induction hr with
  | refl => exact ⟨b0, Block.le_refl _, env0, c0, _, hi', by rw [hb0]; exact .refl⟩
  | @step s1 s2 b3 log env call out hr hb3 hs ih =>
    obtain ⟨b1, hb1, env1, c1, s0, h1, h2⟩ := ih (fun e he => hst e (List.mem_cons_of_mem _ he))
      (fun e he => hA e (List.mem_cons_of_mem _ he)) (fun e he => hN e (List.mem_cons_of_mem _ he))
    cases call with
    | core c =>
      obtain ⟨_, _, hw, _⟩ := core_effect (V := V) (N := N) (decode := decode) hs
      rw [hw]
      exact ⟨b1, Block.le_trans hb1 hb3, env1, c1, s0, h1, h2⟩
    | vote ve c =>
      obtain ⟨_, _, hw, _⟩ := vote_effect (N := N) (decode := decode) hs
      rw [hw]
      exact ⟨b1, Block.le_trans hb1 hb3, env1, c1, s0, h1, h2⟩
    | prop c =>
      obtain ⟨⟨o, ho, hp⟩, _⟩ := prop_effect (decode := decode) hs
      have hw1 := hst _ (List.mem_cons_self)
      have hag := hA _ (List.mem_cons_self)
      have hnow := hN _ (List.mem_cons_self)
      simp only at hw1 hag hnow
      have hwired : Wired s1 s1.prop.dao := ⟨(belongs ⟨b0, w0, hi, hr⟩).1, hw1⟩
      have hle : b1.le env.block := Block.le_trans hb1 hb3
      have hstarted := started ⟨env1, c1, s0, h1, h2⟩
      have hstep : Condorcet.step s1.prop { propEnv V N s1 env with power := fun _ => P, totalNow := fun _ => T env.block.height } c =
          .ok (s2.prop, o) := by
        rw [step_congr _ _ c _, hp]
        · intro a x hx
          simp only [propEnv, if_pos hwired]
          exact hag x hx a
        · intro id p hg
          exact Nat.le_trans (hstarted id p hg) hle.1
        · rintro ⟨cc, rfl⟩
          simp only [propEnv, if_pos hwired]
          exact hnow ⟨_, rfl⟩
      refine ⟨env.block, Block.le_refl _, env1, c1, s0, h1, ?_⟩
      rw [prop_cons ho]
      exact .step h2 hle hstep

/-- The history of the proposal module in which all powers are those of the voting module at the end. -/
theorem prop_stable {V : VotingModule S E C O} (hV : Lawful V) {N : Now S}
    {decode : Nat → DaoCore.CosmosMsg} {w : World S} {b : Block} {log : List (Event S E C)}
    (h : (sys V N decode).Reach w b log) (hst : Steady log) (hN : TotalsOfHeight V N log) :
    ∃ b1 l, b1.le b ∧ Condorcet.Reach w.prop b1 l ∧
      l = (propLog V N log).map (fixEnv (V.power w.vote) (V.total w.vote)) := by
  obtain ⟨b1, hb, hr⟩ := prop_reach h hst (fun ev hev x hx => (vote_agree hV h ev hev x hx).1) (now_agree hV h hN)
  exact ⟨b1, _, hb, hr, rfl⟩

end Verif.WholeCondorcet
