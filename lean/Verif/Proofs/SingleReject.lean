import Verif.Props.SingleDecision
import Verif.Proofs.SingleTime
/-! The tally behind a rejection, and proposals without a veto. -/

namespace Verif.Single
open Verif Verif.Voting Verif.Spec

/-- Statuses only a rejected proposal can have. -/
def LostLike : Status → Prop
  | .rejected | .closed => True
  | _ => False

/-- At some earlier block some earlier tally was rejected before expiry without revoting, or did not pass after expiry
with the present tally. -/
def WasLost (p : Proposal) (b : Block) : Prop :=
  ∃ (b0 : Block) (q : Proposal), b0.le b ∧ SameRules q p ∧ q.Sane ∧
    ((p.allowRevoting = false ∧ p.expiration.isExpired b0 = false ∧ Extends q.votes p.votes ∧
        q.isRejected b0 = .ok true) ∨
      (q.votes = p.votes ∧ p.expiration.isExpired b0 = true ∧ q.isPassed b0 = .ok false))

theorem wasLost_mono {p : Proposal} {b b' : Block} (h : WasLost p b) (hb : b.le b') : WasLost p b' := by
  obtain ⟨b0, q, h1, h2⟩ := h
  exact ⟨b0, q, Block.le_trans h1 hb, h2⟩

theorem wasLost_votes {p p' : Proposal} {b : Block} (h : WasLost p b) (hs : SameRules p p')
    (hext : p.allowRevoting = false → Extends p.votes p'.votes)
    (hopen : p.expiration.isExpired b = false) : WasLost p' b := by
  obtain ⟨b0, q, h1, h2, hsane, h5⟩ := h
  rcases h5 with ⟨h3, h4, h5, h6⟩ | ⟨_, h6, _⟩
  · exact ⟨b0, q, h1, h2.trans hs, hsane, Or.inl ⟨by rw [hs.allowRevoting]; exact h3,
      by rw [hs.expiration]; exact h4, extends_trans h5 (hext h3), h6⟩⟩
  · rw [Expiration.isExpired_mono h1 h6] at hopen; cases hopen

theorem wasLost_same {p p' : Proposal} {b : Block} (h : WasLost p b) (hs : SameRules p p')
    (hv : p'.votes = p.votes) : WasLost p' b := by
  obtain ⟨b0, q, h1, h2, h3, h4⟩ := h
  refine ⟨b0, q, h1, h2.trans hs, h3, ?_⟩
  rw [hs.allowRevoting, hs.expiration, hv]; exact h4

theorem wasLost_current {p : Proposal} {b : Block} {st : Status} (hs : p.Sane)
    (h : LostLike p.status → WasLost p b) (hc : p.currentStatus b = .ok st)
    (hst : LostLike st) : WasLost p b := by
  unfold Proposal.currentStatus at hc
  split at hc
  · simp only [bind_ok] at hc
    obtain ⟨passed, hp, hc⟩ := hc
    cases passed with
    | true =>
      simp only [if_true] at hc
      split at hc
      · simp only [bind_ok] at hc
        obtain ⟨e, _, hc⟩ := hc
        split at hc <;> injection hc with hc <;> subst hc <;> exact absurd hst id
      · injection hc with hc; subst hc; exact absurd hst id
    | false =>
      simp only [Bool.false_eq_true, if_false] at hc
      split at hc
      · rename_i hx
        exact ⟨b, p, Block.le_refl _, .refl _, hs, Or.inr ⟨rfl, hx, hp⟩⟩
      · rename_i hx
        have hx : p.expiration.isExpired b = false := by
          cases hx' : p.expiration.isExpired b
          · rfl
          · exact absurd hx' hx
        simp only [bind_ok] at hc
        obtain ⟨r, hr, hc⟩ := hc
        split at hc
        · rename_i hrt
          refine ⟨b, p, Block.le_refl _, .refl _, hs, Or.inl ⟨?_, hx, extends_refl _, by rw [hr, hrt]⟩⟩
          cases hrev : p.allowRevoting with
          | false => rfl
          | true =>
            have := (C12_revoting_undecided p b hrev hx).2.1
            rw [hr, hrt] at this; cases this
        · injection hc with hc; subst hc; exact absurd hst id
  · split at hc <;> injection hc with hc <;> subst hc <;> exact absurd hst id
  · injection hc with hc; subst hc; exact h hst

/-- The invariant: only what cannot pass is recorded as rejected or closed. -/
def LostInv (s : State) (b : Block) : Prop :=
  ∀ id p, s.proposals.get id = some p → LostLike p.status → WasLost p b

theorem lostInv_micro {P : Addr → Nat → Nat} {T : Nat → Nat} {env : Env} {s s' : State}
    (hP : ∀ a h, env.power s.config.dao a h = P a h) (hTt : ∀ h, env.total s.config.dao h = T h)
    (hT : ∀ h (l : List Addr), l.Nodup → (l.map (fun a => P a h)).sum ≤ T h)
    (hi : Inv s) (hpi : PowInv P T s) (h : LostInv s env.block) (hm : Micro env s s') :
    LostInv s' env.block := by
  intro id p hp hst
  have hi' := inv_micro hi hm
  have hpi' := powInv_micro hP hTt hi hpi hm
  have hsane := sane_prop hi' hpi' hT hp
  cases hm with
  | other h1 h2 h3 h4 => rw [h1] at hp; exact h id p hp hst
  | rationale hb => exact h id p hp hst
  | @vote voter id' v r q power w votes st hq hexp hpow hlt h0 hw hadd hcur =>
    simp only [AMap.get_set] at hp
    split at hp
    · rename_i he; subst he; injection hp with hp; subst hp
      have hsane' : Proposal.Sane { q with votes := votes } := ⟨hsane.1, hsane.2, hsane.3⟩
      refine wasLost_same (p := { q with votes := votes }) (wasLost_current hsane' ?_ hcur hst)
        ⟨rfl, rfl, rfl, rfl, rfl, rfl, rfl, rfl, rfl, rfl⟩ rfl
      intro hpl
      exact wasLost_votes (h _ q hq hpl) ⟨rfl, rfl, rfl, rfl, rfl, rfl, rfl, rfl, rfl, rfl⟩
        (fun hr => withdraw_extends hw hadd hr) hexp
    · exact h id p hp hst
  | @create proposer content msgs total st htt hlt hcur hc =>
    simp only [AMap.get_set] at hp
    split at hp
    · injection hp with hp; subst hp
      exact wasLost_same (p := freshProposal s.config env.block proposer content msgs total)
        (wasLost_current ⟨hsane.1, hsane.2, hsane.3⟩ (fun h => False.elim h) hcur hst)
        ⟨rfl, rfl, rfl, rfl, rfl, rfl, rfl, rfl, rfl, rfl⟩ rfl
    · exact h id p hp hst
  | @status id' q st st' hq hcur hmv =>
    simp only [AMap.get_set] at hp
    split at hp
    · rename_i he; subst he; injection hp with hp; subst hp
      have hst1 : LostLike st := by
        cases hmv with
        | close => trivial
        | veto v hv hs h => exact False.elim hst
        | exec h h' => rcases h' with rfl | rfl <;> exact False.elim hst
      exact wasLost_same (p := q)
        (wasLost_current ⟨hsane.1, hsane.2, hsane.3⟩ (h _ q hq) hcur hst1)
        ⟨rfl, rfl, rfl, rfl, rfl, rfl, rfl, rfl, rfl, rfl⟩ rfl
    · exact h id p hp hst

theorem lostInv_reach {P : Addr → Nat → Nat} {T : Nat → Nat} {s : State} {b : Block}
    {log : List Event} (h : Reach s b log) (hp : StablePowers log P T) : LostInv s b := by
  obtain ⟨env, c, i, s0, out, h0, hr⟩ := h
  have hi := inv_init h0
  refine (run_micro_env (P := fun s b => Inv s ∧ PowInv P T s ∧ LostInv s b)
    (Q := fun env c => (∀ a h, env.power c.dao a h = P a h) ∧ ∀ h, env.total c.dao h = T h) hr
    (fun e he => ⟨hp.power e he, hp.total e he⟩) ⟨hi, ?_, ?_⟩ ?_ ?_).2.2
  · refine ⟨fun id p hp => ?_, fun id a bal p hp => ?_⟩ <;> rw [init_empty h0] at hp <;> cases hp
  · intro id p hp; rw [init_empty h0] at hp; cases hp
  · rintro s b b' ⟨h1, h2, h3⟩ hb
    exact ⟨h1, h2, fun id p hg hl => wasLost_mono (h3 id p hg hl) hb⟩
  · rintro env s s' ⟨hP, hT⟩ ⟨hi, hpi, hpass⟩ hm
    exact ⟨inv_micro hi hm, powInv_micro hP hT hi hpi hm,
      lostInv_micro hP hT hp.bounded hi hpi hpass hm⟩

/-! ### The minimum voting period ends with the voting period at the latest -/

def MinOk (p : Proposal) : Prop :=
  ∀ m, p.minVotingPeriod = some m → ∀ b, p.expiration.isExpired b = true → m.isExpired b = true

theorem minOk_same {p p' : Proposal} (h : MinOk p) (hs : SameRules p p') : MinOk p' := by
  unfold MinOk; rw [hs.minVotingPeriod, hs.expiration]; exact h

theorem minOk_fresh {c : Config} (hc : validateConfig c = .ok ()) (b : Block) (proposer : Addr) (content : Nat)
    (msgs : List Nat) (total : Nat) : MinOk (freshProposal c b proposer content msgs total) := by
  unfold validateConfig at hc
  simp only [bind_ok] at hc
  obtain ⟨_, _, _, h2, _⟩ := hc
  intro m hm b' hx
  unfold freshProposal at hm hx
  simp only at hm hx
  unfold validateVotingPeriod at h2
  cases hmin : c.minVotingPeriod with
  | none => rw [hmin] at hm; cases hm
  | some d =>
    rw [hmin] at hm h2
    simp only [Option.map_some, Option.some.injEq] at hm
    subst hm
    cases d <;> cases hmax : c.maxVotingPeriod <;> rw [hmax] at h2 hx <;> simp only at h2
    · split at h2
      · simp only [Duration.after, Expiration.isExpired, decide_eq_true_eq] at hx ⊢; omega
      · cases h2
    · cases h2
    · cases h2
    · split at h2
      · rename_i hle
        have := Nat.mul_le_mul_right NANOS hle
        simp only [Duration.after, Expiration.isExpired, decide_eq_true_eq] at hx ⊢; omega
      · cases h2

/-- Facts about the rules of every proposal, and about proposals without a veto. -/
def RuleInv (s : State) : Prop :=
  ∀ id p, s.proposals.get id = some p → MinOk p ∧ (p.veto = none → p.status ≠ .vetoed ∧ ∀ e, p.status ≠ .vetoTimelock e)

theorem noVeto_current {p : Proposal} {b : Block} {st : Status} (hv : p.veto = none)
    (h : p.status ≠ .vetoed ∧ ∀ e, p.status ≠ .vetoTimelock e) (hc : p.currentStatus b = .ok st) :
    st ≠ .vetoed ∧ ∀ e, st ≠ .vetoTimelock e := by
  unfold Proposal.currentStatus at hc
  split at hc
  · simp only [bind_ok, hv] at hc
    obtain ⟨passed, _, hc⟩ := hc
    split at hc
    · injection hc with hc; subst hc; exact ⟨by simp, by simp⟩
    · split at hc
      · injection hc with hc; subst hc; exact ⟨by simp, by simp⟩
      · simp only [bind_ok] at hc
        obtain ⟨r, _, hc⟩ := hc
        split at hc <;> injection hc with hc <;> subst hc <;> exact ⟨by simp, by simp⟩
  · rename_i e he; exact absurd he (h.2 e)
  · injection hc with hc; subst hc; exact h

theorem ruleInv_micro {env : Env} {s s' : State} (hi : Inv s) (h : RuleInv s) (hm : Micro env s s') : RuleInv s' := by
  intro id p hp
  cases hm with
  | other h1 h2 h3 h4 => rw [h1] at hp; exact h id p hp
  | rationale hb => exact h id p hp
  | @vote voter id' v r q power w votes st hq hexp hpow hlt h0 hw hadd hcur =>
    simp only [AMap.get_set] at hp
    split at hp
    · rename_i he; subst he; injection hp with hp; subst hp
      exact ⟨(h _ q hq).1, fun hv => noVeto_current (p := { q with votes := votes }) hv ((h _ q hq).2 hv) hcur⟩
    · exact h id p hp
  | @create proposer content msgs total st htt hlt hcur hc =>
    simp only [AMap.get_set] at hp
    split at hp
    · injection hp with hp; subst hp
      exact ⟨minOk_fresh hi.cfg _ proposer content msgs total, fun hv => noVeto_current
        (p := freshProposal s.config env.block proposer content msgs total) hv
        ⟨fun h => (by cases h), fun _ h => (by cases h)⟩ hcur⟩
    · exact h id p hp
  | @status id' q st st' hq hcur hmv =>
    simp only [AMap.get_set] at hp
    split at hp
    · rename_i he; subst he; injection hp with hp; subst hp
      refine ⟨(h _ q hq).1, fun hv => ?_⟩
      have hv : q.veto = none := hv
      cases hmv with
      | close => exact ⟨by simp, by simp⟩
      | veto v hv' => rw [hv] at hv'; cases hv'
      | exec h h' => rcases h' with rfl | rfl <;> exact ⟨by simp, by simp⟩
    · exact h id p hp

theorem ruleInv_reach {s : State} {b : Block} {log : List Event} (h : Reach s b log) : RuleInv s := by
  obtain ⟨env, c, i, s0, out, h0, hr⟩ := h
  exact (run_micro (P := fun s _ => Inv s ∧ RuleInv s) hr
    ⟨inv_init h0, fun id p hp => by rw [init_empty h0] at hp; cases hp⟩ (fun _ _ _ h _ => h)
    (fun _ _ _ h hm => ⟨inv_micro h.1 hm, ruleInv_micro h.1 h.2 hm⟩)).2

/-- The tally of a rejected or closed proposal does not meet its threshold. -/
theorem lost_not_met {P : Addr → Nat → Nat} {T : Nat → Nat} {s : State} {b b' : Block} {log : List Event}
    (h : Reach s b log) (hpow : StablePowers log P T) {id : Nat} {p : Proposal} (hp : s.proposals.get id = some p)
    (hst : LostLike p.status) (hb : b.le b') :
    ¬ ShouldPass p.threshold p.totalPower p.votes (p.expiration.isExpired b') := by
  have hs := sane_prop (inv_reach h) (powInv_reach h hpow) hpow.bounded hp
  obtain ⟨b0, q, h1, h2, hq, h3⟩ := lostInv_reach h hpow id p hp hst
  rcases h3 with ⟨h3, h4, h5, h6⟩ | ⟨h3, h4, h5⟩
  · have := C04_early_reject_right q b0 p.votes (p.expiration.isExpired b') hq.valid hq.u128 hq.fits
      (by rw [← h2.allowRevoting]; exact h3) (by rw [← h2.expiration]; exact h4) h6 h5
      (by rw [← h2.totalPower]; exact hs.fits)
    rw [← h2.threshold, ← h2.totalPower] at this
    exact this
  · intro hsp
    rw [Expiration.isExpired_mono (Block.le_trans h1 hb) h4] at hsp
    have hx : q.expiration.isExpired b0 = true := by rw [← h2.expiration]; exact h4
    have := C10_pass_complete q b0 hq.valid hq.u128 hq.fits
      ⟨fun _ => hx, fun m hm => ((ruleInv_reach h id p hp).1 m (by rw [h2.minVotingPeriod]; exact hm) b0 h4)⟩
      (by rw [hx, ← h2.threshold, ← h2.totalPower, h3]; exact hsp)
    rw [h5] at this; cases this

end Verif.Single
