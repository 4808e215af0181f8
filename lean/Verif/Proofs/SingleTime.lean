import Verif.Proofs.SingleHistory
/-! Timelocks and the tally behind a recorded outcome. -/

namespace Verif.Single
open Verif Verif.Voting Verif.Spec

/-- What a status says about the veto timelock. -/
def TimeOk (p : Proposal) (b : Block) (st : Status) : Prop :=
  (∀ e, st = .vetoTimelock e → ∃ v, p.veto = some v ∧ p.expiration.add v.timelockDuration = .ok e) ∧
  (st = .passed → ∀ v, p.veto = some v →
    ∃ e, p.expiration.add v.timelockDuration = .ok e ∧ e.isExpired b = true)

theorem timeOk_mono {p : Proposal} {b b' : Block} {st : Status} (h : TimeOk p b st) (hb : b.le b') :
    TimeOk p b' st :=
  ⟨h.1, fun hs v hv => by
    obtain ⟨e, h1, h2⟩ := h.2 hs v hv
    exact ⟨e, h1, Expiration.isExpired_mono hb h2⟩⟩

theorem timeOk_same {p p' : Proposal} {b : Block} {st : Status} (hs : SameRules p p')
    (h : TimeOk p b st) : TimeOk p' b st := by
  unfold TimeOk; rw [hs.veto, hs.expiration]; exact h

theorem timeOk_final {p : Proposal} {b : Block} {st : Status} (h : Final st) : TimeOk p b st := by
  cases st <;> simp [Final] at h <;> exact ⟨fun _ h => (by cases h), fun h => (by cases h)⟩

theorem timeOk_current {p : Proposal} {b : Block} {st : Status} (h : TimeOk p b p.status)
    (hc : p.currentStatus b = .ok st) : TimeOk p b st := by
  unfold Proposal.currentStatus at hc
  split at hc
  · simp only [bind_ok] at hc
    obtain ⟨passed, _, hc⟩ := hc
    split at hc
    · split at hc
      · rename_i v hv
        simp only [bind_ok] at hc
        obtain ⟨e, he, hc⟩ := hc
        split at hc <;> injection hc with hc <;> subst hc
        · rename_i hx
          refine ⟨fun _ h => (by cases h), fun _ v' hv' => ?_⟩
          rw [hv] at hv'; injection hv' with hv'; subst hv'
          exact ⟨e, he, hx⟩
        · refine ⟨fun e' h => ?_, fun h => (by cases h)⟩
          injection h with h; subst h; exact ⟨v, hv, he⟩
      · rename_i hv
        injection hc with hc; subst hc
        exact ⟨fun _ h => (by cases h), fun _ v hv' => by rw [hv] at hv'; cases hv'⟩
    · split at hc
      · injection hc with hc; subst hc
        exact ⟨fun _ h => (by cases h), fun h => (by cases h)⟩
      · simp only [bind_ok] at hc
        obtain ⟨r, _, hc⟩ := hc
        split at hc <;> injection hc with hc <;> subst hc
        · exact ⟨fun _ h => (by cases h), fun h => (by cases h)⟩
        · exact ⟨fun _ h => (by cases h), fun h => (by cases h)⟩
  · rename_i e hs
    split at hc <;> injection hc with hc <;> subst hc
    · rename_i hx
      refine ⟨fun _ h => (by cases h), fun _ v hv => ?_⟩
      obtain ⟨v', hv', he⟩ := h.1 e hs
      rw [hv] at hv'; injection hv' with hv'; subst hv'
      exact ⟨e, he, hx⟩
    · rw [← hs]; exact h
  · injection hc with hc; subst hc; exact h

/-- The timelock invariant. -/
def TimeInv (s : State) (b : Block) : Prop :=
  ∀ id p, s.proposals.get id = some p → TimeOk p b p.status

theorem move_final {env : Env} {p : Proposal} {st st' : Status} (h : StatusMove env p st st') :
    Final st' := by
  cases h with
  | close => trivial
  | veto => trivial
  | exec h h' => rcases h' with rfl | rfl <;> trivial

theorem timeInv_micro {env : Env} {s s' : State} (h : TimeInv s env.block) (hm : Micro env s s') :
    TimeInv s' env.block := by
  intro id p hp
  cases hm with
  | other h1 h2 h3 h4 => rw [h1] at hp; exact h id p hp
  | rationale hb => exact h id p hp
  | @vote voter id' v r q power w votes st hq hexp hpow hlt h0 hw hadd hst =>
    simp only [AMap.get_set] at hp
    split at hp
    · rename_i he; subst he; injection hp with hp; subst hp
      exact timeOk_same (p := { q with votes := votes })
        ⟨rfl, rfl, rfl, rfl, rfl, rfl, rfl, rfl, rfl, rfl⟩ (timeOk_current (h _ q hq) hst)
    · exact h id p hp
  | @create proposer content msgs total st htt hlt hst hc =>
    simp only [AMap.get_set] at hp
    split at hp
    · injection hp with hp; subst hp
      exact timeOk_same (p := freshProposal s.config env.block proposer content msgs total)
        ⟨rfl, rfl, rfl, rfl, rfl, rfl, rfl, rfl, rfl, rfl⟩
        (timeOk_current ⟨fun _ h => (by cases h), fun h => (by cases h)⟩ hst)
    · exact h id p hp
  | @status id' q st st' hq hcur hmv =>
    simp only [AMap.get_set] at hp
    split at hp
    · rename_i he; subst he; injection hp with hp; subst hp
      exact timeOk_final (move_final hmv)
    · exact h id p hp

theorem init_empty {env : Env} {c : Config} {i : PreProposeInfo} {s : State} {out : Out}
    (h : instantiate env c i = .ok (s, out)) (id : Nat) : s.proposals.get id = none := by
  unfold instantiate at h
  simp only [bind_ok, Except.ok.injEq, Prod.mk.injEq] at h
  obtain ⟨_, hv, rfl, _⟩ := h
  rfl

theorem timeInv_reach {s : State} {b : Block} {log : List Event} (h : Reach s b log) :
    TimeInv s b := by
  obtain ⟨env, c, i, s0, out, h0, hr⟩ := h
  exact run_micro (P := fun s b => TimeInv s b) hr
    (fun id p hp => by rw [init_empty h0] at hp; cases hp)
    (fun _ _ _ h hb id p hp => timeOk_mono (h id p hp) hb)
    (fun _ _ _ h hm => timeInv_micro h hm)

/-! ### The tally behind a pass -/

/-- Statuses only a passed proposal can have. -/
def PassedLike : Status → Prop
  | .passed | .vetoTimelock _ | .executed | .executionFailed => True
  | _ => False

/-- At some earlier block some earlier tally passed; either before expiry without revoting, or after
expiry with the present tally. -/
def WasPassed (p : Proposal) (b : Block) : Prop :=
  ∃ (b0 : Block) (q : Proposal), b0.le b ∧ SameRules q p ∧ Extends q.votes p.votes ∧
    passedB q b0 = true ∧
    ((p.allowRevoting = false ∧ p.expiration.isExpired b0 = false) ∨
      (q.votes = p.votes ∧ p.expiration.isExpired b0 = true))

theorem wasPassed_mono {p : Proposal} {b b' : Block} (h : WasPassed p b) (hb : b.le b') :
    WasPassed p b' := by
  obtain ⟨b0, q, h1, h2⟩ := h
  exact ⟨b0, q, Block.le_trans h1 hb, h2⟩

theorem _root_.Verif.Single.SameRules.symm {p q : Proposal} (h : SameRules p q) : SameRules q p :=
  ⟨h.1.symm, h.2.symm, h.3.symm, h.4.symm, h.5.symm, h.6.symm, h.7.symm, h.8.symm, h.9.symm,
   h.10.symm⟩

theorem extends_refl (v : Votes) : Extends v v := ⟨Nat.le_refl _, Nat.le_refl _, Nat.le_refl _⟩

theorem extends_trans {a b c : Votes} (h : Extends a b) (h' : Extends b c) : Extends a c :=
  ⟨Nat.le_trans h.1 h'.1, Nat.le_trans h.2.1 h'.2.1, Nat.le_trans h.2.2 h'.2.2⟩

/-- Later ballots before expiry keep the fact. -/
theorem wasPassed_votes {p p' : Proposal} {b : Block} (h : WasPassed p b) (hs : SameRules p p')
    (hext : p.allowRevoting = false → Extends p.votes p'.votes)
    (hopen : p.expiration.isExpired b = false) : WasPassed p' b := by
  obtain ⟨b0, q, h1, h2, h3, h4, h5⟩ := h
  rcases h5 with ⟨h5, h6⟩ | ⟨h5, h6⟩
  · exact ⟨b0, q, h1, h2.trans hs, extends_trans h3 (hext h5), h4,
      Or.inl ⟨by rw [hs.allowRevoting]; exact h5, by rw [hs.expiration]; exact h6⟩⟩
  · rw [Expiration.isExpired_mono h1 h6] at hopen; cases hopen

theorem wasPassed_same {p p' : Proposal} {b : Block} (h : WasPassed p b) (hs : SameRules p p')
    (hv : p'.votes = p.votes) : WasPassed p' b := by
  obtain ⟨b0, q, h1, h2, h3, h4, h5⟩ := h
  refine ⟨b0, q, h1, h2.trans hs, by rw [hv]; exact h3, h4, ?_⟩
  rw [hs.allowRevoting, hs.expiration, hv]; exact h5

theorem passedB_revoting {p : Proposal} {b : Block} (h : passedB p b = true) :
    p.allowRevoting = false ∨ p.expiration.isExpired b = true := by
  unfold passedB at h
  cases h1 : p.allowRevoting <;> cases h2 : p.expiration.isExpired b <;> simp [h1, h2] at h ⊢

theorem wasPassed_now {p : Proposal} {b : Block} (h : passedB p b = true) : WasPassed p b := by
  refine ⟨b, p, Block.le_refl _, .refl _, extends_refl _, h, ?_⟩
  cases hx : p.expiration.isExpired b with
  | true => exact Or.inr ⟨rfl, rfl⟩
  | false =>
    rcases passedB_revoting h with h' | h'
    · exact Or.inl ⟨h', rfl⟩
    · rw [hx] at h'; cases h'

/-- What was passed is passed now (given a yes vote and a tally within the power). -/
theorem passedB_of_was {p : Proposal} {b : Block} (h : WasPassed p b)
    (hfit : vsum p.votes ≤ p.totalPower) (hy : 0 < p.votes.yes) : passedB p b = true := by
  obtain ⟨b0, q, h1, h2, h3, h4, h5⟩ := h
  rcases h5 with ⟨h5, h6⟩ | ⟨h5, h6⟩
  · exact passedB_final h2 (by rw [← h2.allowRevoting]; exact h5)
      (by rw [← h2.expiration]; exact h6) h1 h3 (by rw [← h2.totalPower]; exact hfit) hy h4
  · have hx := Expiration.isExpired_mono h1 h6
    unfold passedB at h4 ⊢
    rw [← h2.allowRevoting, ← h2.expiration, ← h2.threshold, ← h2.totalPower, h5] at h4
    rw [← h2.minPeriodRunning, h6] at h4
    simp only [hx, Bool.not_true, Bool.and_false, Bool.false_eq_true, if_false, if_true] at h4 ⊢
    by_cases hm : p.minPeriodRunning b0 = true
    · rw [if_pos hm] at h4; cases h4
    · rw [if_neg hm] at h4
      rw [if_neg (minPeriod_mono h1 hm)]
      exact h4

theorem wasPassed_current {p : Proposal} {b : Block} {st : Status} (hs : p.Sane)
    (h : PassedLike p.status → WasPassed p b) (hc : p.currentStatus b = .ok st)
    (hst : PassedLike st) : WasPassed p b := by
  unfold Proposal.currentStatus at hc
  split at hc
  · simp only [bind_ok] at hc
    obtain ⟨passed, hp, hc⟩ := hc
    rw [isPassed_eq hs] at hp
    injection hp with hp
    cases passed with
    | true => exact wasPassed_now hp
    | false =>
      simp only [Bool.false_eq_true, if_false] at hc
      split at hc
      · injection hc with hc; subst hc; exact absurd hst id
      · simp only [bind_ok] at hc
        obtain ⟨r, _, hc⟩ := hc
        split at hc <;> injection hc with hc <;> subst hc <;> exact absurd hst id
  · rename_i e he; exact h (by rw [he]; trivial)
  · injection hc with hc; subst hc; exact h hst

/-- The invariant: only what passed is recorded as passed, locked or executed. -/
def PassInv (s : State) (b : Block) : Prop :=
  ∀ id p, s.proposals.get id = some p → PassedLike p.status → WasPassed p b

theorem withdraw_extends {p : Proposal} {o : Option Ballot} {v : Vote} {w votes : Votes} {n : Nat}
    (hw : withdrawBallot p o v = .ok w) (ha : w.addVote v n = .ok votes)
    (hr : p.allowRevoting = false) : Extends p.votes votes := by
  unfold withdrawBallot at hw
  cases o with
  | some b => simp [hr] at hw
  | none =>
    injection hw with hw; subst hw
    have h1 := addVote_count ha .yes
    have h2 := addVote_count ha .no
    have h3 := addVote_count ha .abstain
    simp only [countOf] at h1 h2 h3
    exact ⟨by omega, by omega, by omega⟩

theorem passInv_micro {P : Addr → Nat → Nat} {T : Nat → Nat} {env : Env} {s s' : State}
    (hP : ∀ a h, env.power s.config.dao a h = P a h) (hTt : ∀ h, env.total s.config.dao h = T h)
    (hT : ∀ h (l : List Addr), l.Nodup → (l.map (fun a => P a h)).sum ≤ T h)
    (hi : Inv s) (hpi : PowInv P T s) (h : PassInv s env.block) (hm : Micro env s s') :
    PassInv s' env.block := by
  intro id p hp hst
  have hi' := inv_micro hi hm
  have hpi' := powInv_micro hP hTt hi hpi hm
  have hsane := sane_prop hi' hpi' hT hp
  cases hm with
  | other h1 h2 h3 h4 => rw [h1] at hp; exact h id p hp hst
  | rationale hb => exact h id p hp hst
  | @vote voter id' v r q power w votes st hq hexp hpow hlt h0 hw hadd hcur =>
    simp only [AMap.get_set] at hp
    split at hp
    · rename_i he; subst he; injection hp with hp; subst hp
      have hsane' : Proposal.Sane { q with votes := votes } := ⟨hsane.1, hsane.2, hsane.3⟩
      refine wasPassed_same (p := { q with votes := votes }) (wasPassed_current hsane' ?_ hcur hst)
        ⟨rfl, rfl, rfl, rfl, rfl, rfl, rfl, rfl, rfl, rfl⟩ rfl
      intro hpl
      exact wasPassed_votes (h _ q hq hpl) ⟨rfl, rfl, rfl, rfl, rfl, rfl, rfl, rfl, rfl, rfl⟩
        (fun hr => withdraw_extends hw hadd hr) hexp
    · exact h id p hp hst
  | @create proposer content msgs total st htt hlt hcur hc =>
    simp only [AMap.get_set] at hp
    split at hp
    · injection hp with hp; subst hp
      exact wasPassed_same (p := freshProposal s.config env.block proposer content msgs total)
        (wasPassed_current ⟨hsane.1, hsane.2, hsane.3⟩ (fun h => False.elim h) hcur hst)
        ⟨rfl, rfl, rfl, rfl, rfl, rfl, rfl, rfl, rfl, rfl⟩ rfl
    · exact h id p hp hst
  | @status id' q st st' hq hcur hmv =>
    simp only [AMap.get_set] at hp
    split at hp
    · rename_i he; subst he; injection hp with hp; subst hp
      have hst1 : PassedLike st := by
        cases hmv with
        | close => exact False.elim hst
        | veto v hv hs h => exact False.elim hst
        | exec h h' =>
          rcases h with rfl | ⟨e, v, rfl, _⟩ <;> trivial
      exact wasPassed_same (p := q)
        (wasPassed_current ⟨hsane.1, hsane.2, hsane.3⟩ (h _ q hq) hcur hst1)
        ⟨rfl, rfl, rfl, rfl, rfl, rfl, rfl, rfl, rfl, rfl⟩ rfl
    · exact h id p hp hst

theorem passInv_reach {P : Addr → Nat → Nat} {T : Nat → Nat} {s : State} {b : Block}
    {log : List Event} (h : Reach s b log) (hp : StablePowers log P T) : PassInv s b := by
  obtain ⟨env, c, i, s0, out, h0, hr⟩ := h
  have hi := inv_init h0
  refine (run_micro_env (P := fun s b => Inv s ∧ PowInv P T s ∧ PassInv s b)
    (Q := fun env c => (∀ a h, env.power c.dao a h = P a h) ∧ ∀ h, env.total c.dao h = T h) hr
    (fun e he => ⟨hp.power e he, hp.total e he⟩) ⟨hi, ?_, ?_⟩ ?_ ?_).2.2
  · refine ⟨fun id p hp => ?_, fun id a bal p hp => ?_⟩ <;> rw [init_empty h0] at hp <;> cases hp
  · intro id p hp; rw [init_empty h0] at hp; cases hp
  · rintro s b b' ⟨h1, h2, h3⟩ hb
    exact ⟨h1, h2, fun id p hg hl => wasPassed_mono (h3 id p hg hl) hb⟩
  · rintro env s s' ⟨hP, hT⟩ ⟨hi, hpi, hpass⟩ hm
    exact ⟨inv_micro hi hm, powInv_micro hP hT hi hpi hm,
      passInv_micro hP hT hp.bounded hi hpi hpass hm⟩

end Verif.Single
