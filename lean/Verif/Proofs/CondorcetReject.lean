import Verif.Props.Condorcet
import Verif.Proofs.WholeCondorcet
/-!
# A condorcet proposal recorded as rejected or closed could not win any more
-/

namespace Verif.Condorcet
open Verif Verif.Voting Verif.Spec.Condorcet

/-- No choice of the proposal wins: none ever can, or voting is over and none did. -/
def Lost (p : Proposal) (t : Tally) (b : Block) : Prop :=
  t.winner = .never ∨ (t.expiration.isExpired b = true ∧
    decideStatus t.winner true (passB (p.totalPower - t.outstanding) p.totalPower p.quorum) = .rejected)

theorem Lost.later {p : Proposal} {t : Tally} {b b' : Block} (h : Lost p t b) (hb : b.le b') : Lost p t b' := by
  rcases h with h | ⟨h1, h2⟩
  · exact Or.inl h
  · exact Or.inr ⟨Expiration.isExpired_mono hb h1, h2⟩

theorem voted_eq {p : Proposal} {t : Tally} {id : Nat} {bs : List Ballot} (hi : PropInv p t id bs) :
    p.totalPower - t.outstanding = castPower bs := by
  have := hi.tally.out; omega

/-- What an open proposal reported as rejected looks like. -/
theorem lost_of_rejected {p : Proposal} {t : Tally} {id : Nat} {bs : List Ballot} {b : Block} (hi : PropInv p t id bs)
    (ho : p.lastStatus = .opened) (h : p.status t b = .ok .rejected) : Lost p t b := by
  rw [status_eq hi ho, ← voted_eq hi] at h
  injection h with h
  unfold Lost
  split at h
  · cases h
  · cases he : t.expiration.isExpired b with
    | true => rw [he] at h; exact Or.inr ⟨rfl, h⟩
    | false =>
      rw [he] at h
      unfold decideStatus at h
      simp only [Bool.false_and, Bool.false_eq_true, if_false] at h
      cases hw : t.winner with
      | never => exact Or.inl rfl
      | none => rw [hw] at h; cases h
      | some c => rw [hw] at h; cases h
      | undisputed c => rw [hw] at h; simp only at h; split at h <;> cases h

/-- Proposals recorded as rejected or closed are lost. -/
def LostInv (s : State) (b : Block) : Prop :=
  ∀ id p t, s.proposals.get id = some p → s.tallies.get id = some t →
    p.lastStatus = .rejected ∨ p.lastStatus = .closed → Lost p t b

theorem lost_step {s s' : State} {b : Block} {log : List Event} (h : Reach s b log) (ih : LostInv s b) {env : Env}
    {call : Call} {out : Out} (hb : b.le env.block) (hs : step s env call = .ok (s', out)) : LostInv s' env.block := by
  intro id p' t' hp' ht' hl
  rcases WholeCondorcet.tally_step hs ht' with ⟨t, ht, _, _⟩ | ⟨⟨c, rfl⟩, rfl, _⟩
  · have hsome := ((inv_reach h).both id).1 (by rw [ht]; rfl)
    obtain ⟨p, hp⟩ := Option.isSome_iff_exists.1 hsome
    obtain ⟨p1, t1, hp1, ht1, hsame, hc⟩ := step_keeps h hs hp ht
    rw [hp'] at hp1; injection hp1 with hp1
    rw [ht'] at ht1; injection ht1 with ht1
    rw [← hp1] at hc hsame
    rw [← ht1] at hc
    have hpi := reach_prop h hp ht
    rcases hc with ⟨rfl, rfl⟩ | ⟨rfl, _, hexp, r, pw, hrk, hpw, hadd⟩ | ⟨_, _, _, hst⟩ | ⟨rfl, _, hrej, _⟩
    · exact (ih id _ _ hp ht hl).later hb
    · rcases ih id _ _ hp ht hl with hn | ⟨hx, _⟩
      · exact Or.inl ((addVote_keeps hpi.tally hrk hpw hadd).2 hn)
      · rw [Expiration.isExpired_mono hb hx] at hexp; cases hexp
    · rcases hst with hst | hst <;> rw [hst] at hl <;> rcases hl with hl | hl <;> cases hl
    · have key : Lost p t' env.block := by
        by_cases ho : p.lastStatus = .opened
        · exact lost_of_rejected hpi ho hrej
        · rw [status_other ho] at hrej
          injection hrej with hrej
          exact (ih id _ _ hp ht (Or.inl hrej)).later hb
      rw [hsame]
      exact key
  · simp only [step] at hs
    obtain ⟨t, st, total, htot, hT, _, hne, _, hnew, hst, rfl, _⟩ := propose_inv hs
    simp only [AMap.get_set_self] at hp' ht'
    injection hp' with hp'
    injection ht' with ht'
    subst ht'
    have hlen : 2 ≤ (c ++ [[]]).length := by
      cases c with
      | nil => exact absurd rfl hne
      | cons x c => simp
    have hi : PropInv (freshProposal env.block s.config env.sender (top s + 1) (c ++ [[]]) total) t (top s + 1) [] :=
      ⟨(newTally_of hlen hT hnew).1, (inv_reach h).config, rfl, by intro w; simp [freshProposal]⟩
    rw [← hp'] at hl ⊢
    have hl' : st = .rejected := by
      rcases hl with hl | hl
      · exact hl
      · have hl : st = .closed := hl
        rw [hl, status_eq hi rfl] at hst
        injection hst with hst
        unfold decideStatus at hst
        split at hst
        · cases hst
        · split at hst
          · cases hst
          · cases hw : t.winner <;> rw [hw] at hst <;> simp only at hst
            · cases hst
            · split at hst <;> cases hst
            · split at hst <;> cases hst
            · split at hst <;> cases hst
    rw [hl'] at hst
    have key := lost_of_rejected hi rfl hst
    exact key

theorem lost_reach {s : State} {b : Block} {log : List Event} (h : Reach s b log) : LostInv s b := by
  obtain ⟨env, c, s0, h0, hr⟩ := h
  induction hr with
  | refl =>
    simp only [instantiate, bind_ok, Except.ok.injEq] at h0
    obtain ⟨_, _, rfl⟩ := h0
    intro id p t hp; cases hp
  | step hr hb hs ih => exact lost_step ⟨env, c, s0, h0, hr⟩ ih hb hs

/-- A lost proposal would not be reported as passed even if it were open. -/
theorem lost_not_passed {s : State} {b : Block} {log : List Event} (h : Reach s b log) {id : Nat} {p : Proposal}
    {t : Tally} (hp : s.proposals.get id = some p) (ht : s.tallies.get id = some t)
    (hl : p.lastStatus = .rejected ∨ p.lastStatus = .closed) {b' : Block} (hb : b.le b') {w : Nat}
    (hq : passB (castPower (ballotsOn id log)) p.totalPower p.quorum = true) :
    ¬ (if t.expiration.isExpired b' then CondorcetWinner p.choices.length (ballotsOn id log) w
       else ∀ extra, Allowed p.choices.length t.outstanding extra →
        CondorcetWinner p.choices.length (ballotsOn id log ++ extra) w) := by
  intro hw
  have hi := reach_prop h hp ht
  have hwin : CondorcetWinner p.choices.length (ballotsOn id log) w := by
    split at hw
    · exact hw
    · have := hw [] ⟨by simp, by simp [castPower]⟩
      rwa [List.append_nil] at this
  have hc := C23_winner_complete h hp ht hwin
  rcases (lost_reach h id p t hp ht hl).later hb with hn | ⟨hx, hd⟩
  · rw [hn] at hc; rcases hc with hc | hc <;> cases hc
  · rw [voted_eq hi, hq] at hd
    rcases hc with hc | hc <;> rw [hc] at hd <;> cases hd

/-! ### The minimum voting period ends with the voting period -/

theorem min_fresh {c : Config} (h2 : validateVotingPeriod c.minVotingPeriod c.votingPeriod = .ok ()) (b : Block)
    {m : Expiration} (hm : c.minVotingPeriod.map (·.after b) = some m) {b' : Block}
    (hx : (c.votingPeriod.after b).isExpired b' = true) : m.isExpired b' = true := by
  unfold validateVotingPeriod at h2
  cases hmin : c.minVotingPeriod with
  | none => rw [hmin] at hm; cases hm
  | some d =>
    rw [hmin] at hm h2
    simp only [Option.map_some, Option.some.injEq] at hm
    subst hm
    cases d <;> cases hmax : c.votingPeriod <;> rw [hmax] at h2 hx <;> simp only at h2
    · split at h2
      · simp only [Duration.after, Expiration.isExpired, decide_eq_true_eq] at hx ⊢; omega
      · cases h2
    · cases h2
    · cases h2
    · split at h2
      · rename_i hle
        have := Nat.mul_le_mul_right NANOS hle
        simp only [Duration.after, Expiration.isExpired, decide_eq_true_eq] at hx ⊢; omega
      · cases h2

structure PeriodInv (s : State) : Prop where
  config : validateVotingPeriod s.config.minVotingPeriod s.config.votingPeriod = .ok ()
  min : ∀ id p t, s.proposals.get id = some p → s.tallies.get id = some t → ∀ m, p.minVotingPeriod = some m →
    ∀ b, t.expiration.isExpired b = true → m.isExpired b = true

theorem checked_period {c c' : Config} (h : c.intoChecked = .ok c') :
    c' = c ∧ validateVotingPeriod c.minVotingPeriod c.votingPeriod = .ok () := by
  simp only [Config.intoChecked, bind_ok, Except.ok.injEq] at h
  obtain ⟨_, _, ⟨⟩, hv, rfl⟩ := h
  exact ⟨rfl, hv⟩

theorem period_reach {s : State} {b : Block} {log : List Event} (h : Reach s b log) : PeriodInv s := by
  obtain ⟨env, c, s0, h0, hr⟩ := h
  induction hr with
  | refl =>
    simp only [instantiate, bind_ok, Except.ok.injEq] at h0
    obtain ⟨c', hc, rfl⟩ := h0
    obtain ⟨rfl, hv⟩ := checked_period hc
    exact ⟨hv, fun id p t hp => by cases hp⟩
  | @step s1 s2 b1 log e call out hr hb hs ih =>
    have hreach : Reach s1 b1 log := ⟨env, c, s0, h0, hr⟩
    refine ⟨?_, ?_⟩
    · cases call with
      | propose c => simp only [step] at hs; obtain ⟨_, _, _, _, _, _, _, _, _, _, rfl, _⟩ := propose_inv hs; exact ih.config
      | vote i v => simp only [step] at hs; obtain ⟨_, _, _, _, _, _, _, _, _, rfl, _⟩ := vote_inv hs; exact ih.config
      | execute i f =>
        simp only [step] at hs; obtain ⟨_, _, _, _, _, _, _, _, _, _, _, rfl, _⟩ := execute_inv hs; exact ih.config
      | close i => simp only [step] at hs; obtain ⟨_, _, _, _, _, rfl, _⟩ := close_inv hs; exact ih.config
      | setConfig c =>
        simp only [step, execSetConfig, bind_ok, require_ok, Except.ok.injEq, Prod.mk.injEq] at hs
        obtain ⟨_, _, c', hc, rfl, _⟩ := hs
        obtain ⟨rfl, hv⟩ := checked_period hc
        exact hv
    · intro id p' t' hp' ht' m hm b' hx
      rcases WholeCondorcet.tally_step hs ht' with ⟨t, ht, _, hexp⟩ | ⟨⟨c, rfl⟩, rfl, _⟩
      · have hsome := ((inv_reach hreach).both id).1 (by rw [ht]; rfl)
        obtain ⟨p, hp⟩ := Option.isSome_iff_exists.1 hsome
        obtain ⟨p1, t1, hp1, ht1, hsame, _⟩ := step_keeps hreach hs hp ht
        rw [hp'] at hp1; injection hp1 with hp1
        rw [← hp1] at hsame
        rw [hsame] at hm
        rw [hexp] at hx
        exact ih.min id p t hp ht m hm b' hx
      · simp only [step] at hs
        obtain ⟨t, st, total, htot, hT, _, hne, _, hnew, hst, rfl, _⟩ := propose_inv hs
        simp only [AMap.get_set_self] at hp' ht'
        injection hp' with hp'
        injection ht' with ht'
        rw [← hp'] at hm
        have he : t'.expiration = s1.config.votingPeriod.after e.block := by
          rw [← ht']
          simp only [newTally, bind_ok, Except.ok.injEq] at hnew
          obtain ⟨_, _, _, _, rfl⟩ := hnew
          rfl
        rw [he] at hx
        exact min_fresh ih.config e.block hm hx

end Verif.Condorcet
