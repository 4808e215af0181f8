import Verif.Proofs.SingleInv
/-! More invariants of dao-proposal-single: rules, ids, statuses, powers. -/

namespace Verif.Single
open Verif Verif.Voting Verif.Spec

theorem run_split {s s' : State} {b b' : Block} {l1 l2 : List Event} {e : Event}
    (h : Run s b (l1 ++ e :: l2) s' b') :
    ∃ b1, Run s b l2 e.pre b1 ∧ b1.le e.env.block ∧ step e.pre e.env e.call = .ok (e.post, e.out) ∧
      Run e.post e.env.block l1 s' b' := by
  induction l1 generalizing s' b' with
  | nil =>
    cases h with
    | step hr hb h => exact ⟨_, hr, hb, h, .refl⟩
  | cons a l ih =>
    cases h with
    | step hr hb h =>
      obtain ⟨b1, h1, h2, h3, h4⟩ := ih hr
      exact ⟨b1, h1, h2, h3, .step h4 hb h⟩

theorem mem_split {α : Type} {a : α} {l : List α} (h : a ∈ l) : ∃ l1 l2, l = l1 ++ a :: l2 := by
  induction l with
  | nil => simp at h
  | cons x xs ih =>
    rcases List.mem_cons.1 h with h | h
    · subst h; exact ⟨[], xs, rfl⟩
    · obtain ⟨l1, l2, rfl⟩ := ih h
      exact ⟨x :: l1, l2, rfl⟩

theorem reach_split {s : State} {b : Block} {log : List Event} (h : Reach s b log) {e : Event}
    (he : e ∈ log) : ∃ l1 l2 b1, log = l1 ++ e :: l2 ∧ Reach e.pre b1 l2 ∧ b1.le e.env.block ∧
      step e.pre e.env e.call = .ok (e.post, e.out) ∧ Run e.post e.env.block l1 s b := by
  obtain ⟨l1, l2, rfl⟩ := mem_split he
  obtain ⟨env, c, i, s0, out, h0, hr⟩ := h
  obtain ⟨b1, h1, h2, h3, h4⟩ := run_split hr
  exact ⟨l1, l2, b1, rfl, ⟨env, c, i, s0, out, h0, h1⟩, h2, h3, h4⟩

theorem reach_one {s s' : State} {b : Block} {log : List Event} {env : Env} {call : Call} {out : Out}
    (h : Reach s b log) (hb : b.le env.block) (hs : step s env call = .ok (s', out)) :
    Reach s' env.block (⟨s, env, call, out, s'⟩ :: log) := by
  obtain ⟨env0, c, i, s0, out0, h0, hr⟩ := h
  exact ⟨env0, c, i, s0, out0, h0, .step hr hb hs⟩

theorem _root_.Verif.Spec.Path.trans {a b c : Status} (h : Path a b) (h' : Path b c) : Path a c := by
  induction h' with
  | refl => exact h
  | snoc _ e ih => exact .snoc ih e

theorem _root_.Verif.Spec.Path.one {a b : Status} (e : Edge a b) : Path a b := .snoc (.refl a) e

theorem _root_.Verif.Spec.Path.final {a b : Status} (h : Path a b) (hf : Final a) : b = a := by
  induction h with
  | refl => rfl
  | snoc _ e ih => subst ih; cases e <;> exact absurd hf id

/-- The reported status is reachable from the recorded one. -/
theorem currentStatus_path {p : Proposal} {b : Block} {st : Status}
    (h : p.currentStatus b = .ok st) : Path p.status st := by
  unfold Proposal.currentStatus at h
  split at h
  · rename_i hs; rw [hs]
    simp only [bind_ok] at h
    obtain ⟨passed, _, h⟩ := h
    split at h
    · split at h
      · simp only [bind_ok] at h
        obtain ⟨e, _, h⟩ := h
        split at h <;> injection h with h <;> subst h
        · exact .one .pass
        · exact .one (.lock _)
      · injection h with h; subst h; exact .one .pass
    · split at h
      · injection h with h; subst h; exact .one .reject
      · simp only [bind_ok] at h
        obtain ⟨r, _, h⟩ := h
        split at h <;> injection h with h <;> subst h
        · exact .one .reject
        · exact .refl _
  · rename_i e hs; rw [hs]
    split at h <;> injection h with h <;> subst h
    · exact .one (.unlock _)
    · exact .refl _
  · injection h with h; subst h; exact .refl _

theorem currentStatus_final {p : Proposal} {b : Block} {st : Status}
    (h : p.currentStatus b = .ok st) (hf : Final p.status) : st = p.status :=
  (currentStatus_path h).final hf

theorem move_path {env : Env} {p : Proposal} {st st' : Status} (h : StatusMove env p st st') :
    Path st st' := by
  cases h with
  | close => exact .one .close
  | veto v hv hs h =>
    rcases h with ⟨rfl, _⟩ | ⟨e, rfl, _⟩
    · exact .one .vetoOpen
    · exact .one (.vetoLocked _)
  | exec h h' =>
    rcases h with rfl | ⟨e, v, rfl, _⟩ <;> rcases h' with rfl | rfl
    · exact .one .exec
    · exact .one .execFailed
    · exact .one (.execEarly _)
    · exact .one (.execEarlyFailed _)

/-- What a micro step does to an existing proposal. -/
theorem micro_prop {env : Env} {s s' : State} (hi : Inv s) (hm : Micro env s s') {id : Nat}
    {p : Proposal} (hp : s.proposals.get id = some p) :
    ∃ p', s'.proposals.get id = some p' ∧ SameRules p p' ∧ Path p.status p'.status := by
  cases hm with
  | other h1 h2 h3 h4 => exact ⟨p, by rw [h1]; exact hp, .refl _, .refl _⟩
  | rationale hb => exact ⟨p, hp, .refl _, .refl _⟩
  | @vote voter id' v r q power w votes st hq hexp hpow hlt h0 hw hadd hst =>
    simp only [AMap.get_set]
    split
    · rename_i he; subst he
      rw [hp] at hq; injection hq with hq; subst hq
      exact ⟨_, rfl, ⟨rfl, rfl, rfl, rfl, rfl, rfl, rfl, rfl, rfl, rfl⟩, (currentStatus_path hst :)⟩
    · exact ⟨p, hp, .refl _, .refl _⟩
  | @create proposer content msgs total st ht hlt hst hc =>
    simp only [AMap.get_set]
    split
    · rename_i he; subst he
      have := (hi.ids (s.count + 1)).1 (by simp [hp])
      omega
    · exact ⟨p, hp, .refl _, .refl _⟩
  | @status id' q st st' hq hcur hmv =>
    simp only [AMap.get_set]
    split
    · rename_i he; subst he
      rw [hp] at hq; injection hq with hq; subst hq
      exact ⟨_, rfl, ⟨rfl, rfl, rfl, rfl, rfl, rfl, rfl, rfl, rfl, rfl⟩,
        (currentStatus_path hcur).trans (move_path hmv)⟩
    · exact ⟨p, hp, .refl _, .refl _⟩

theorem run_prop {s s' : State} {b b' : Block} {log : List Event} (hr : Run s b log s' b')
    (hi : Inv s) {id : Nat} {p : Proposal} (hp : s.proposals.get id = some p) :
    ∃ p', s'.proposals.get id = some p' ∧ SameRules p p' ∧ Path p.status p'.status := by
  have key := run_micro (P := fun s _ => Inv s ∧ ∃ p', s.proposals.get id = some p' ∧ SameRules p p'
      ∧ Path p.status p'.status) hr ⟨hi, p, hp, .refl _, .refl _⟩ (fun _ _ _ h _ => h)
  exact (key (fun env s s' h hm => by
    obtain ⟨hi, p', h1, h2, h3⟩ := h
    obtain ⟨p'', h4, h5, h6⟩ := micro_prop hi hm h1
    exact ⟨inv_micro hi hm, p'', h4, h2.trans h5, h3.trans h6⟩)).2

/-! ### Ballots -/

theorem micro_ballot {env : Env} {s s' : State} (hm : Micro env s s') {id : Nat}
    {a : Addr} {bal : Ballot} (hb : s.ballots.get (id, a) = some bal) :
    ∃ bal', s'.ballots.get (id, a) = some bal' ∧
      ((∀ p, s.proposals.get id = some p → p.allowRevoting = false) →
        bal'.vote = bal.vote ∧ bal'.power = bal.power) := by
  cases hm with
  | other h1 h2 h3 h4 => exact ⟨bal, by rw [h3]; exact hb, fun _ => ⟨rfl, rfl⟩⟩
  | @rationale id' b r hb' =>
    simp only [AMap.get_set]
    split
    · rename_i he; rw [he, hb] at hb'; injection hb' with hb'; subst hb'
      exact ⟨_, rfl, fun _ => ⟨rfl, rfl⟩⟩
    · exact ⟨bal, hb, fun _ => ⟨rfl, rfl⟩⟩
  | @vote voter id' v r q power w votes st hq hexp hpow hlt h0 hw hadd hst =>
    simp only [AMap.get_set]
    split
    · rename_i he
      injection he with e1 e2
      subst e1; subst e2
      refine ⟨_, rfl, fun h => ?_⟩
      have := h q hq
      rw [hb] at hw
      simp [withdrawBallot, this] at hw
    · exact ⟨bal, hb, fun _ => ⟨rfl, rfl⟩⟩
  | create ht hlt hst hc => exact ⟨bal, hb, fun _ => ⟨rfl, rfl⟩⟩
  | status hq hcur hmv => exact ⟨bal, hb, fun _ => ⟨rfl, rfl⟩⟩

theorem run_ballot {s s' : State} {b b' : Block} {log : List Event} (hr : Run s b log s' b')
    (hi : Inv s) {id : Nat} {a : Addr} {bal : Ballot} {p : Proposal}
    (hp : s.proposals.get id = some p) (hrev : p.allowRevoting = false)
    (hb : s.ballots.get (id, a) = some bal) :
    ∃ bal', s'.ballots.get (id, a) = some bal' ∧ bal'.vote = bal.vote ∧ bal'.power = bal.power := by
  have key := run_micro (P := fun s _ => Inv s ∧ (∃ p', s.proposals.get id = some p' ∧
      p'.allowRevoting = false) ∧ ∃ bal', s.ballots.get (id, a) = some bal' ∧ bal'.vote = bal.vote ∧
      bal'.power = bal.power) hr ⟨hi, ⟨p, hp, hrev⟩, bal, hb, rfl, rfl⟩ (fun _ _ _ h _ => h)
  exact (key (fun env s s' h hm => by
    obtain ⟨hi, ⟨p', h1, h2⟩, bal', h3, h4, h5⟩ := h
    obtain ⟨p'', h6, h7, _⟩ := micro_prop hi hm h1
    obtain ⟨bal'', h8, h9⟩ := micro_ballot hm h3
    have h9 := h9 (fun q hq => by rw [h1] at hq; injection hq with hq; subst hq; exact h2)
    exact ⟨inv_micro hi hm, ⟨p'', h6, by rw [h7.allowRevoting]; exact h2⟩, bal'', h8,
      h9.1.trans h4, h9.2.trans h5⟩)).2.2

/-! ### Powers -/

/-- Total powers and ballots are the answers of the voting module. -/
structure PowInv (P : Addr → Nat → Nat) (T : Nat → Nat) (s : State) : Prop where
  tot : ∀ id p, s.proposals.get id = some p → p.totalPower = T p.startHeight
  bal : ∀ id a bal p, s.proposals.get id = some p → s.ballots.get (id, a) = some bal →
    bal.power = P a p.startHeight

theorem micro_config {env : Env} {s s' : State} (hm : Micro env s s') :
    (s'.config = s.config) ∨ (s'.proposals = s.proposals ∧ s'.count = s.count ∧
      s'.ballots = s.ballots) := by
  cases hm with
  | other h1 h2 h3 h4 => exact Or.inr ⟨h1, h2, h3⟩
  | _ => exact Or.inl rfl

theorem powInv_micro {P : Addr → Nat → Nat} {T : Nat → Nat} {env : Env} {s s' : State}
    (hP : ∀ a h, env.power s.config.dao a h = P a h) (hT : ∀ h, env.total s.config.dao h = T h)
    (hi : Inv s) (h : PowInv P T s) (hm : Micro env s s') : PowInv P T s' := by
  obtain ⟨ht, hb⟩ := h
  cases hm with
  | other h1 h2 h3 h4 => exact ⟨by rw [h1]; exact ht, by rw [h1, h3]; exact hb⟩
  | @rationale id' b r hb' =>
    refine ⟨ht, ?_⟩
    intro id a bal p hp hg
    simp only [AMap.get_set] at hg
    split at hg
    · rename_i he; injection he with e1 e2; subst e1; subst e2
      injection hg with hg; subst hg
      exact hb _ _ b p hp hb'
    · exact hb _ _ _ _ hp hg
  | @vote voter id' v r q power w votes st hq hexp hpow hlt h0 hw hadd hst =>
    refine ⟨?_, ?_⟩
    · intro id p hp
      simp only [AMap.get_set] at hp
      split at hp
      · rename_i he; subst he; injection hp with hp; subst hp
        exact ht _ q hq
      · exact ht _ _ hp
    · intro id a bal p hp hg
      simp only [AMap.get_set] at hp hg
      split at hg
      · rename_i he; injection he with e1 e2; subst e1; subst e2
        simp only [if_true] at hp
        injection hp with hp; subst hp
        injection hg with hg; subst hg
        rw [hpow, hP]
      · rename_i hne
        split at hp
        · rename_i he; subst he; injection hp with hp; subst hp
          exact hb _ _ _ q hq hg
        · exact hb _ _ _ _ hp hg
  | @create proposer content msgs total st htt hlt hst hc =>
    have hnone : ∀ a bal, s.ballots.get (s.count + 1, a) ≠ some bal := by
      intro a bal h
      have h1 := hi.bal _ _ _ h
      have := (hi.ids _).1 h1
      omega
    refine ⟨?_, ?_⟩
    · intro id p hp
      simp only [AMap.get_set] at hp
      split at hp
      · injection hp with hp; subst hp
        rw [htt] at *
        exact hT _
      · exact ht _ _ hp
    · intro id a bal p hp hg
      simp only [AMap.get_set] at hp
      split at hp
      · rename_i he; subst he; exact absurd hg (hnone _ _)
      · exact hb _ _ _ _ hp hg
  | @status id' q st st' hq hcur hmv =>
    refine ⟨?_, ?_⟩
    · intro id p hp
      simp only [AMap.get_set] at hp
      split at hp
      · rename_i he; subst he; injection hp with hp; subst hp
        exact ht _ q hq
      · exact ht _ _ hp
    · intro id a bal p hp hg
      simp only [AMap.get_set] at hp
      split at hp
      · rename_i he; subst he; injection hp with hp; subst hp
        exact hb _ _ _ q hq hg
      · exact hb _ _ _ _ hp hg

/-- Induction over a history whose events all satisfy an assumption on environments. -/
theorem run_micro_env {P : State → Block → Prop} {Q : Env → Config → Prop} {s s' : State}
    {b b' : Block} {log : List Event}
    (hr : Run s b log s' b') (hQ : ∀ e ∈ log, Q e.env e.pre.config) (h0 : P s b)
    (hmono : ∀ s b b', P s b → b.le b' → P s b')
    (hstep : ∀ env s s', Q env s.config → P s env.block → Micro env s s' → P s' env.block) :
    P s' b' := by
  induction hr with
  | refl => exact h0
  | @step s1 s2 b1 log env call out hr hb h ih =>
    have h1 := hmono _ _ _ (ih (fun e he => hQ e (List.mem_cons_of_mem _ he))) hb
    have hq : Q env s1.config := hQ ⟨s1, env, call, out, s2⟩ (by simp)
    rcases step_micro h with hm | ⟨sm, hc, hm1, hm2⟩
    · exact hstep _ _ _ hq h1 hm
    · exact hstep _ _ _ (by rw [hc]; exact hq) (hstep _ _ _ hq h1 hm1) hm2

theorem powInv_reach {P : Addr → Nat → Nat} {T : Nat → Nat} {s : State} {b : Block}
    {log : List Event} (h : Reach s b log) (hp : StablePowers log P T) : PowInv P T s := by
  obtain ⟨env, c, i, s0, out, h0, hr⟩ := h
  have hi := inv_init h0
  refine (run_micro_env (P := fun s _ => Inv s ∧ PowInv P T s)
    (Q := fun env c => (∀ a h, env.power c.dao a h = P a h) ∧ ∀ h, env.total c.dao h = T h) hr
    (fun e he => ⟨hp.power e he, hp.total e he⟩) ⟨hi, ?_⟩ (fun _ _ _ h _ => h) ?_).2
  · unfold instantiate at h0
    simp only [bind_ok, Except.ok.injEq, Prod.mk.injEq] at h0
    obtain ⟨_, hv, rfl, _⟩ := h0
    exact ⟨fun _ _ h => by simp [AMap.get] at h, fun _ _ _ _ h => by simp [AMap.get] at h⟩
  · rintro env s s' ⟨hP, hT⟩ ⟨hi, hpi⟩ hm
    exact ⟨inv_micro hi hm, powInv_micro hP hT hi hpi hm⟩

/-- Summing over the entries of one proposal is summing over distinct addresses. -/
theorem sum_filter_le (m : AMap (Nat × Addr) Ballot) (hwf : m.WF) (id : Nat) (f : Addr → Nat)
    (hf : ∀ a b, ((id, a), b) ∈ m → b.power = f a) :
    ∃ l : List Addr, l.Nodup ∧ (∀ a ∈ l, ∃ b, ((id, a), b) ∈ m) ∧
      AMap.sum (fun k b => if k.1 = id then b.power else 0) m = (l.map f).sum := by
  induction m with
  | nil => exact ⟨[], List.nodup_nil, by simp, rfl⟩
  | cons e m ih =>
    obtain ⟨⟨id', a⟩, b⟩ := e
    simp only [AMap.WF, List.map_cons, List.nodup_cons] at hwf
    obtain ⟨l, h1, h2, h3⟩ := ih hwf.2 (fun a b h => hf a b (List.mem_cons_of_mem _ h))
    by_cases he : id' = id
    · subst he
      refine ⟨a :: l, ?_, ?_, ?_⟩
      · refine List.nodup_cons.2 ⟨?_, h1⟩
        intro ha
        obtain ⟨b', hb'⟩ := h2 a ha
        exact hwf.1 (List.mem_map.2 ⟨_, hb', rfl⟩)
      · intro x hx
        rcases List.mem_cons.1 hx with rfl | hx
        · exact ⟨b, by simp⟩
        · obtain ⟨b', hb'⟩ := h2 x hx
          exact ⟨b', List.mem_cons_of_mem _ hb'⟩
      · simp only [AMap.sum, if_true, h3, List.map_cons, List.sum_cons]
        rw [hf a b (by simp)]
    · refine ⟨l, h1, ?_, ?_⟩
      · intro x hx
        obtain ⟨b', hb'⟩ := h2 x hx
        exact ⟨b', List.mem_cons_of_mem _ hb'⟩
      · simp only [AMap.sum, he, if_false, h3, Nat.zero_add]

theorem ballotSum_total (s : State) (id : Nat) :
    ballotSum s id .yes + ballotSum s id .no + ballotSum s id .abstain
      = AMap.sum (fun k b => if k.1 = id then b.power else 0) s.ballots := by
  unfold ballotSum
  rw [← AMap.sum_add, ← AMap.sum_add]
  apply AMap.sum_congr
  rintro ⟨id', a⟩ ⟨pw, v, r⟩ _
  by_cases h : id' = id <;> cases v <;> simp [h]

theorem fits_of {P : Addr → Nat → Nat} {T : Nat → Nat} {s : State} (hi : Inv s) (hp : PowInv P T s)
    (hT : ∀ h (l : List Addr), l.Nodup → (l.map (fun a => P a h)).sum ≤ T h) {id : Nat}
    {p : Proposal} (hg : s.proposals.get id = some p) :
    p.votes.yes + p.votes.no + p.votes.abstain ≤ p.totalPower := by
  have h := (hi.prop id p hg).tally
  have h1 := h .yes; have h2 := h .no; have h3 := h .abstain
  simp only [countOf] at h1 h2 h3
  rw [h1, h2, h3, ballotSum_total, hp.tot id p hg]
  obtain ⟨l, hn, _, hs⟩ := sum_filter_le s.ballots hi.wfB id (fun a => P a p.startHeight)
    (fun a b hb => hp.bal id a b p hg (AMap.get_of_mem hi.wfB hb))
  rw [hs]
  exact hT _ l hn

theorem sane_prop {P : Addr → Nat → Nat} {T : Nat → Nat} {s : State} (hi : Inv s)
    (hp : PowInv P T s) (hT : ∀ h (l : List Addr), l.Nodup → (l.map (fun a => P a h)).sum ≤ T h)
    {id : Nat} {p : Proposal} (hg : s.proposals.get id = some p) : p.Sane :=
  ⟨fits_of hi hp hT hg, (hi.prop id p hg).total, (hi.prop id p hg).valid⟩

end Verif.Single
