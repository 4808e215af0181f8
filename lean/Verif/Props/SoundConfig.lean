import Verif.Spec.SoundConfig
import Verif.Props.Multiple
import Verif.Props.Condorcet
import Verif.Props.SettingsProposals
/-!
# C101: proposal modules accept exactly the sound configurations
-/

namespace Verif.Voting
open Verif

theorem percentage_ok {p : PercentageThreshold} {u : Unit} : validatePercentage p = .ok u ↔ SoundShare p := by
  cases p with
  | majority => simp [validatePercentage, SoundShare]
  | percent a =>
    have hd : DEC_ONE = 10 ^ 18 := by decide +kernel
    simp only [validatePercentage, SoundShare, hd]
    by_cases h0 : a = 0
    · simp [h0]
    · by_cases h1 : a > 10 ^ 18
      · simp only [h0, h1, if_true, if_false]; simp; omega
      · simp only [h0, h1, if_false, true_iff]; omega

theorem quorum_ok {p : PercentageThreshold} {u : Unit} : validateQuorum p = .ok u ↔ SoundQuorum p := by
  cases p with
  | majority => simp [validateQuorum, SoundQuorum]
  | percent a =>
    have hd : DEC_ONE = 10 ^ 18 := by decide +kernel
    simp only [validateQuorum, SoundQuorum, hd]
    by_cases h1 : a > 10 ^ 18
    · simp only [h1, if_true]; simp; omega
    · simp only [h1, if_false, true_iff]; omega

theorem threshold_ok {t : Threshold} {u : Unit} : t.validate = .ok u ↔ SoundThreshold t := by
  cases t with
  | absolutePercentage p => exact percentage_ok
  | thresholdQuorum t q =>
    simp only [Threshold.validate, SoundThreshold, bind_ok, percentage_ok, quorum_ok]
    exact ⟨fun ⟨_, h⟩ => h, fun h => ⟨(), h⟩⟩
  | absoluteCount n =>
    simp only [Threshold.validate, SoundThreshold]
    by_cases h0 : n = 0
    · simp [h0]
    · simp only [h0, if_false, true_iff]; omega

theorem period_ok {min : Option Duration} {max : Duration} {u : Unit} :
    validateVotingPeriod min max = .ok u ↔ ∀ d, min = some d → SameUnit d max ∧ length d ≤ length max := by
  cases min with
  | none => simp [validateVotingPeriod]
  | some d =>
    simp only [Option.some.injEq, forall_eq']
    cases d <;> cases max <;> simp only [validateVotingPeriod, SameUnit, length] <;> try simp
    all_goals split <;> simp_all

theorem veto_ok {v : VetoConfig} {max : Duration} {u : Unit} :
    v.validate max = .ok u ↔ SameUnit v.timelockDuration max := by
  unfold VetoConfig.validate SameUnit
  cases v.timelockDuration <;> cases max <;> simp

end Verif.Voting

namespace Verif

namespace Single
open Verif.Voting

theorem sound_ok {c : Config} {u : Unit} : validateConfig c = .ok u ↔ Sound c := by
  simp only [validateConfig, bind_ok, threshold_ok, period_ok, Sound, SoundPeriods]
  cases hv : c.veto with
  | none => simp
  | some v =>
    simp only [veto_ok, Option.some.injEq, forall_eq']
    exact ⟨fun ⟨_, h1, _, h2, h3⟩ => ⟨h1, h2, h3⟩, fun ⟨h1, h2, h3⟩ => ⟨(), h1, (), h2, h3⟩⟩

/-- **C101.** dao-proposal-single can be instantiated with exactly the sound configurations; the instantiator is the
DAO. -/
theorem C101_instantiate {env : Env} {c : Config} {i : PreProposeInfo} :
    ((∃ r, instantiate env c i = .ok r) ↔ Sound c) ∧
    ∀ s out, instantiate env c i = .ok (s, out) → s.config = { c with dao := env.sender } := by
  refine ⟨?_, fun s out h => ?_⟩
  · simp only [instantiate, bind_ok, sound_ok]
    exact ⟨fun ⟨_, _, h, _⟩ => h, fun h => ⟨_, (), h, rfl⟩⟩
  · simp only [instantiate, bind_ok, Except.ok.injEq, Prod.mk.injEq] at h
    obtain ⟨_, _, rfl, _⟩ := h; rfl

/-- **C101.** The DAO, and nobody else, can set exactly the sound configurations. -/
theorem C101_update {s : State} {env : Env} {c : Config} :
    (∃ r, step s env (.updateConfig c) = .ok r) ↔ env.sender = s.config.dao ∧ Sound c := by
  simp only [step, execUpdateConfig, bind_ok, sound_ok, require_ok, decide_eq_true_eq]
  exact ⟨fun ⟨_, _, h1, _, h2, _⟩ => ⟨h1, h2⟩, fun ⟨h1, h2⟩ => ⟨_, (), h1, (), h2, rfl⟩⟩

/-- **C101.** In every reachable state the configuration is sound. -/
theorem C101_always {s : State} {b : Block} {log : List Event} (h : Reach s b log) : Sound s.config :=
  sound_ok.1 (inv_reach h).cfg

/-! ## A voting period of nothing -/

/-- An expiration that is over from the start. -/
theorem after_zero {d : Duration} (h : length d = 0) (b : Block) : (d.after b).isExpired b = true := by
  cases d <;> simp only [length] at h <;> subst h <;> simp [Duration.after, Expiration.isExpired]

theorem fullMul_ok {a b c : Nat} : fullMul a b = .ok c ↔ a * b < U256 ∧ a * b = c := by
  unfold fullMul; split <;> simp <;> omega

/-- Nobody voted, and more than a billionth of the power is asked for: the count does not pass. -/
theorem nothing_fails {n : Nat} {p : PercentageThreshold} {r : Bool} (hp : ∀ a, p = .percent a → 10 ^ 9 ≤ a)
    (h : doesVoteCountPass 0 n p = .ok r) : r = false := by
  unfold doesVoteCountPass at h
  split at h
  · injection h with h; exact h.symm
  rename_i hn
  cases p with
  | majority =>
    simp only [bind_ok, pure, Except.pure, Except.ok.injEq, fullMul_ok] at h
    obtain ⟨w, ⟨_, rfl⟩, rfl⟩ := h
    simp
  | percent a =>
    simp only [compareVoteCount, bind_ok, pure, Except.pure, Except.ok.injEq, fullMul_ok] at h
    obtain ⟨v, ⟨_, rfl⟩, t, ⟨_, rfl⟩, thr, ht, rfl⟩ := h
    have hd : DEC_ONE = 10 ^ 18 := by decide +kernel
    have hf : PRECISION_FACTOR = 10 ^ 9 := by decide +kernel
    unfold mulRatio256 at ht
    rw [hd, hf] at ht
    split at ht
    · simp at ht
    · split at ht
      · injection ht with ht
        have ha := hp a rfl
        have h1 : 1 ≤ n * 10 ^ 9 * a / 10 ^ 18 := by
          rw [Nat.le_div_iff_mul_le (by decide)]
          calc 1 * 10 ^ 18 = 1 * 10 ^ 9 * 10 ^ 9 := by decide
            _ ≤ n * 10 ^ 9 * a := Nat.mul_le_mul (Nat.mul_le_mul_right _ (by omega)) ha
        rw [decide_eq_false_iff_not]
        omega
      · simp at ht

/-- Without a vote nothing passes, unless less than a billionth of all power is asked for. -/
theorem no_votes {p : Proposal} {b : Block} {r : Bool} (hv : p.votes = .zero) (he : p.expiration.isExpired b = true)
    (hs : SoundThreshold p.threshold) (ht : ∀ a, p.threshold = .absolutePercentage (.percent a) → 10 ^ 9 ≤ a)
    (h : p.isPassed b = .ok r) : r = false := by
  unfold Proposal.isPassed at h
  simp only [he, Bool.not_true, Bool.and_false, Bool.false_eq_true, if_false, if_true] at h
  split at h
  · injection h with h; exact h.symm
  split at h
  · rename_i p' hp'
    simp only [bind_ok, hv] at h
    obtain ⟨o, _, h⟩ := h
    exact nothing_fails (fun a ha => ht a (by rw [hp', ha])) h
  · simp only [bind_ok, hv] at h
    obtain ⟨tot, h1, q, _, h⟩ := h
    split at h
    · injection h with h; exact h.symm
    · simp only [bind_ok] at h
      obtain ⟨o, h2, h⟩ := h
      have h3 : tot = 0 := by
        simp only [Votes.total, Votes.zero, bind_ok, add128_ok] at h1
        obtain ⟨_, _, _, h1⟩ := h1
        omega
      rw [sub128_ok, h3] at h2
      rw [← h2.2, Nat.zero_sub] at h
      unfold doesVoteCountPass at h
      rw [if_pos rfl] at h
      injection h with h; exact h.symm
  · rename_i t hp'
    rw [hp'] at hs
    simp only [SoundThreshold] at hs
    simp only [hv, Votes.zero, Except.ok.injEq] at h
    rw [← h, decide_eq_false_iff_not]; omega

/-- **C101, finding.** A voting period of nothing is sound. A proposal created under it is over before anybody can vote:
whatever happens later, it is rejected or closed, nobody has voted on it and its messages are never sent, unless less than
a billionth of all power is asked for. -/
theorem C101_no_period {s s' s'' : State} {b b'' : Block} {log log' : List Event} {env : Env} {g : Option Addr} {c : Nat}
    {ms : List Nat} {vo : Option (Vote × Option Nat)} {z : Bool} {out : Out} (hr : Reach s b log)
    (hz : length s.config.maxVotingPeriod = 0)
    (ht : ∀ a, s.config.threshold = .absolutePercentage (.percent a) → 10 ^ 9 ≤ a)
    (h : step s env (.propose g c ms vo z) = .ok (s', out)) (hl : Run s' env.block log' s'' b'') :
    ∃ p, s''.proposals.get (s.count + 1) = some p ∧ p.content = c ∧ p.msgs = ms ∧
      (p.status = .rejected ∨ p.status = .closed) ∧ p.votes = .zero ∧
      ∀ a, s''.ballots.get (s.count + 1, a) = none := by
  have hs := C101_always hr
  have hi := inv_reach hr
  suffices H : (∃ p, s''.proposals.get (s.count + 1) = some p ∧ p.content = c ∧ p.msgs = ms ∧
      (p.status = .rejected ∨ p.status = .closed) ∧ p.votes = .zero ∧ p.expiration.isExpired b'' = true ∧
      ∀ a, s''.ballots.get (s.count + 1, a) = none) ∧ s.count + 1 ≤ s''.count by
    obtain ⟨⟨p, h1, h2, h3, h4, h5, _, h6⟩, _⟩ := H
    exact ⟨p, h1, h2, h3, h4, h5, h6⟩
  refine run_micro (P := fun (x : State) (y : Block) => (∃ p, x.proposals.get (s.count + 1) = some p ∧ p.content = c ∧
      p.msgs = ms ∧ (p.status = .rejected ∨ p.status = .closed) ∧ p.votes = .zero ∧ p.expiration.isExpired y = true ∧
      ∀ a, x.ballots.get (s.count + 1, a) = none) ∧ s.count + 1 ≤ x.count) hl ?_ ?_ ?_
  · obtain ⟨proposer, total, st, s1, _, _, _, _, _, h6, _, h8, _, h9⟩ := execPropose_inv h
    have he : (freshProposal s.config env.block proposer c ms total).expiration.isExpired env.block = true :=
      after_zero hz _
    have hst : st = .rejected := by
      unfold Proposal.currentStatus at h6
      rw [show (freshProposal s.config env.block proposer c ms total).status = .opened from rfl] at h6
      simp only [bind_ok] at h6
      obtain ⟨r, hr', h6⟩ := h6
      rw [no_votes rfl he hs.1 ht hr', he] at h6
      simp only [Bool.false_eq_true, if_false, if_true] at h6
      injection h6 with h6; exact h6.symm
    subst hst
    have hb : ∀ a, s.ballots.get (s.count + 1, a) = none := by
      intro a
      cases hg : s.ballots.get (s.count + 1, a) with
      | none => rfl
      | some bl => have := ((hi.ids _).1 (hi.bal _ _ _ hg)).2; omega
    rcases h9 with ⟨_, rfl, _⟩ | ⟨v, r, o, _, hx, _⟩
    · subst h8
      exact ⟨⟨_, AMap.get_set_self _ _ _, rfl, rfl, Or.inl rfl, rfl, he, hb⟩, Nat.le_refl _⟩
    · obtain ⟨p, _, _, _, _, hp, hex, _⟩ := execVote_inv hx
      rw [h8] at hp
      simp only [AMap.get_set_self, Option.some.injEq] at hp
      rw [← hp] at hex
      exact absurd (he.symm.trans hex) (by simp)
  · rintro x y y' ⟨⟨p, h1, h2, h3, h4, h5, h6, h7⟩, h8⟩ hb
    exact ⟨⟨p, h1, h2, h3, h4, h5, Expiration.isExpired_mono hb h6, h7⟩, h8⟩
  · rintro e x x' ⟨⟨p, h1, h2, h3, h4, h5, h6, h7⟩, h8⟩ hm
    cases hm with
    | other e1 e2 e3 _ => exact ⟨⟨p, by rw [e1]; exact h1, h2, h3, h4, h5, h6, by rw [e3]; exact h7⟩, by rw [e2]; exact h8⟩
    | @rationale i bl r hb =>
      refine ⟨⟨p, h1, h2, h3, h4, h5, h6, fun a => ?_⟩, h8⟩
      by_cases hk : (i, e.sender) = (s.count + 1, a)
      · rw [hk] at hb; rw [h7 a] at hb; simp at hb
      · simp only [AMap.get_set_ne _ _ hk]; exact h7 a
    | @vote voter i v r q power w votes st hp hexp _ _ _ _ _ _ =>
      have hne : i ≠ s.count + 1 := by
        intro hk; rw [hk, h1] at hp; injection hp with hp; rw [← hp, h6] at hexp; simp at hexp
      refine ⟨⟨p, by simp only [AMap.get_set_ne _ _ hne]; exact h1, h2, h3, h4, h5, h6, fun a => ?_⟩, h8⟩
      have : (i, voter) ≠ (s.count + 1, a) := by intro hk; injection hk with hk _; exact hne hk
      simp only [AMap.get_set_ne _ _ this]; exact h7 a
    | @create proposer content msgs total st _ _ _ _ =>
      have hne : x.count + 1 ≠ s.count + 1 := by omega
      exact ⟨⟨p, by simp only [AMap.get_set_ne _ _ hne]; exact h1, h2, h3, h4, h5, h6, h7⟩, by simp only; omega⟩
    | @status i q st st' hp hcur hm =>
      by_cases hk : i = s.count + 1
      · subst hk
        rw [h1] at hp; injection hp with hp; subst hp
        have hc : st = p.status := by
          unfold Proposal.currentStatus at hcur
          rcases h4 with h4 | h4 <;> rw [h4] at hcur ⊢ <;> injection hcur with hcur <;> exact hcur.symm
        refine ⟨⟨_, AMap.get_set_self _ _ _, h2, h3, ?_, h5, h6, h7⟩, h8⟩
        rw [← hc] at h4
        cases hm with
        | close => exact Or.inr rfl
        | veto _ _ _ h' => rcases h4 with h4 | h4 <;> rw [h4] at h' <;> simp at h'
        | exec h' _ => rcases h4 with h4 | h4 <;> rw [h4] at h' <;> simp at h'
      · exact ⟨⟨p, by simp only [AMap.get_set_ne _ _ hk]; exact h1, h2, h3, h4, h5, h6, h7⟩, h8⟩

end Single

namespace Multiple
open Verif.Voting

theorem sound_ok {c : Config} {u : Unit} : validateConfig c = .ok u ↔ Sound c := by
  simp only [validateConfig, bind_ok, quorum_ok, period_ok, Sound, SoundPeriods]
  cases hv : c.veto with
  | none => simp
  | some v =>
    simp only [veto_ok, Option.some.injEq, forall_eq']
    exact ⟨fun ⟨_, h1, _, h2, h3⟩ => ⟨h1, h2, h3⟩, fun ⟨h1, h2, h3⟩ => ⟨(), h1, (), h2, h3⟩⟩

/-- **C101.** dao-proposal-multiple can be instantiated with exactly the sound configurations; the instantiator is the
DAO. -/
theorem C101_instantiate {env : Env} {c : Config} {i : PreProposeInfo} :
    ((∃ r, instantiate env c i = .ok r) ↔ Sound c) ∧
    ∀ s out, instantiate env c i = .ok (s, out) → s.config = { c with dao := env.sender } := by
  refine ⟨?_, fun s out h => ?_⟩
  · simp only [instantiate, bind_ok, sound_ok]
    exact ⟨fun ⟨_, _, h, _⟩ => h, fun h => ⟨_, (), h, rfl⟩⟩
  · simp only [instantiate, bind_ok, Except.ok.injEq, Prod.mk.injEq] at h
    obtain ⟨_, _, rfl, _⟩ := h; rfl

/-- **C101.** The DAO, and nobody else, can set exactly the sound configurations. -/
theorem C101_update {s : State} {env : Env} {c : Config} :
    (∃ r, step s env (.updateConfig c) = .ok r) ↔ env.sender = s.config.dao ∧ Sound c := by
  simp only [step, execUpdateConfig, bind_ok, sound_ok, require_ok, decide_eq_true_eq]
  exact ⟨fun ⟨_, _, h1, _, h2, _⟩ => ⟨h1, h2⟩, fun ⟨h1, h2⟩ => ⟨_, (), h1, (), h2, rfl⟩⟩

/-- **C101.** In every reachable state the configuration is sound. -/
theorem C101_always {s : State} {b : Block} {log : List Event} (h : Reach s b log) : Sound s.config :=
  sound_ok.1 (inv_reach h).cfg

/-! ## A voting period of nothing -/

theorem after_zero {d : Duration} (h : length d = 0) (b : Block) : (d.after b).isExpired b = true :=
  Single.after_zero h b

theorem zero_total (n : Nat) : (Votes.zero n).weights.sum = 0 := by
  simp [Votes.zero]

/-- Without a vote no option wins. -/
theorem no_votes {p : Proposal} {st : Status} {b : Block} {r : Bool} (hv : p.votes = .zero p.choices.length)
    (hs : Proposal.Shape { p with status := st }) (h : p.isPassed b = .ok r) : r = false := by
  have hs' : p.Shape := ⟨hs.len, hs.three, hs.index, hs.none_⟩
  have ht : p.voteResult = .ok .tie := by
    rcases voteResult_spec hs' with ⟨i, _, hw, _⟩ | ⟨_, h⟩
    · exfalso
      have h0 : ∀ j, Verif.Spec.Multi.weight p.votes j = 0 := by
        intro j
        rw [Verif.Spec.Multi.weight, hv, Votes.zero, List.getD_eq_getElem?_getD, List.getElem?_replicate]
        split <;> rfl
      have hl := hs'.len
      have h3 := hs'.three
      by_cases hi : i = 0
      · have := hw.2 1 (by omega) (by omega)
        rw [h0, h0] at this; omega
      · have := hw.2 0 (by omega) (by omega)
        rw [h0, h0] at this; omega
    · exact h
  unfold Proposal.isPassed at h
  split at h
  · injection h with h; exact h.symm
  split at h
  · injection h with h; exact h.symm
  simp only [bind_ok] at h
  obtain ⟨q, _, h⟩ := h
  split at h
  · simp only [Proposal.winnerPasses, ht, ok_bind, Except.ok.injEq] at h
    exact h.symm
  · injection h with h; exact h.symm

/-- **C101, finding.** The same for dao-proposal-multiple: a proposal created under it is over before anybody can vote:
whatever happens later, it is rejected or closed, nobody has voted on it and its messages are never sent. -/
theorem C101_no_period {s s' s'' : State} {b b'' : Block} {log log' : List Event} {env : Env} {g : Option Addr} {c : Nat}
    {ms : List (Nat × List Nat)} {vo : Option (Vote × Option Nat)} {z : Bool} {out : Out} (hr : Reach s b log)
    (hz : length s.config.maxVotingPeriod = 0)
    (h : step s env (.propose g c ms vo z) = .ok (s', out)) (hl : Run s' env.block log' s'' b'') :
    ∃ p, s''.proposals.get (s.count + 1) = some p ∧ p.content = c ∧
      (p.status = .rejected ∨ p.status = .closed) ∧ p.votes.weights.sum = 0 ∧
      ∀ a, s''.ballots.get (s.count + 1, a) = none := by
  have hi := inv_reach hr
  suffices H : (∃ p, s''.proposals.get (s.count + 1) = some p ∧ p.content = c ∧
      (p.status = .rejected ∨ p.status = .closed) ∧ p.votes.weights.sum = 0 ∧ p.expiration.isExpired b'' = true ∧
      ∀ a, s''.ballots.get (s.count + 1, a) = none) ∧ s.count + 1 ≤ s''.count by
    obtain ⟨⟨p, h1, h2, h4, h5, _, h6⟩, _⟩ := H
    exact ⟨p, h1, h2, h4, h5, h6⟩
  refine run_micro (P := fun (x : State) (y : Block) => (∃ p, x.proposals.get (s.count + 1) = some p ∧ p.content = c ∧
      (p.status = .rejected ∨ p.status = .closed) ∧ p.votes.weights.sum = 0 ∧ p.expiration.isExpired y = true ∧
      ∀ a, x.ballots.get (s.count + 1, a) = none) ∧ s.count + 1 ≤ x.count) hl ?_ ?_ ?_
  · obtain ⟨proposer, choices, total, st, s1, _, _, _, h3, h4, h5, h6, h7, h8, _, h9⟩ := execPropose_inv h
    have he : (freshProposal s.config env.block proposer c choices total).expiration.isExpired env.block = true :=
      after_zero hz _
    have hi1 := inv_micro hi (Micro.create (env := env) (s := s) h3 h4 h5 h6 h7)
    have hsh := ((hi1.prop (s.count + 1) _ (AMap.get_set_self _ _ _)).shape)
    have hst : st = .rejected := by
      unfold Proposal.currentStatus at h6
      rw [show (freshProposal s.config env.block proposer c choices total).status = .opened from rfl] at h6
      simp only [bind_ok] at h6
      obtain ⟨r, hr', h6⟩ := h6
      rw [no_votes rfl hsh hr', he] at h6
      simp only [Bool.false_eq_true, if_false, if_true] at h6
      injection h6 with h6; exact h6.symm
    subst hst
    have hb : ∀ a, s.ballots.get (s.count + 1, a) = none := by
      intro a
      cases hg : s.ballots.get (s.count + 1, a) with
      | none => rfl
      | some bl => have := ((hi.ids _).1 (hi.bal _ _ _ hg)).2; omega
    rcases h9 with ⟨_, rfl, _⟩ | ⟨v, r, o, _, hx, _⟩
    · subst h8
      exact ⟨⟨_, AMap.get_set_self _ _ _, rfl, Or.inl rfl, zero_total _, he, hb⟩, Nat.le_refl _⟩
    · obtain ⟨p, _, _, _, _, hp, _, hex, _⟩ := execVote_inv hx
      rw [h8] at hp
      simp only [AMap.get_set_self, Option.some.injEq] at hp
      rw [← hp] at hex
      exact absurd (he.symm.trans hex) (by simp)
  · rintro x y y' ⟨⟨p, h1, h2, h4, h5, h6, h7⟩, h8⟩ hb
    exact ⟨⟨p, h1, h2, h4, h5, Expiration.isExpired_mono hb h6, h7⟩, h8⟩
  · rintro e x x' ⟨⟨p, h1, h2, h4, h5, h6, h7⟩, h8⟩ hm
    cases hm with
    | other e1 e2 e3 _ => exact ⟨⟨p, by rw [e1]; exact h1, h2, h4, h5, h6, by rw [e3]; exact h7⟩, by rw [e2]; exact h8⟩
    | @rationale i bl r hb =>
      refine ⟨⟨p, h1, h2, h4, h5, h6, fun a => ?_⟩, h8⟩
      by_cases hk : (i, e.sender) = (s.count + 1, a)
      · rw [hk] at hb; rw [h7 a] at hb; simp at hb
      · simp only [AMap.get_set_ne _ _ hk]; exact h7 a
    | @vote voter i v r q power w votes st hp _ hexp _ _ _ _ _ _ =>
      have hne : i ≠ s.count + 1 := by
        intro hk; rw [hk, h1] at hp; injection hp with hp; rw [← hp, h6] at hexp; simp at hexp
      refine ⟨⟨p, by simp only [AMap.get_set_ne _ _ hne]; exact h1, h2, h4, h5, h6, fun a => ?_⟩, h8⟩
      have : (i, voter) ≠ (s.count + 1, a) := by intro hk; injection hk with hk _; exact hne hk
      simp only [AMap.get_set_ne _ _ this]; exact h7 a
    | @create proposer content options choices total st _ _ _ _ _ =>
      have hne : x.count + 1 ≠ s.count + 1 := by omega
      exact ⟨⟨p, by simp only [AMap.get_set_ne _ _ hne]; exact h1, h2, h4, h5, h6, h7⟩, by simp only; omega⟩
    | @status i q st st' hp hcur hm =>
      by_cases hk : i = s.count + 1
      · subst hk
        rw [h1] at hp; injection hp with hp; subst hp
        have hc : st = p.status := by
          unfold Proposal.currentStatus at hcur
          rcases h4 with h4 | h4 <;> rw [h4] at hcur ⊢ <;> injection hcur with hcur <;> exact hcur.symm
        refine ⟨⟨_, AMap.get_set_self _ _ _, h2, ?_, h5, h6, h7⟩, h8⟩
        rw [← hc] at h4
        cases hm with
        | close => exact Or.inr rfl
        | veto _ _ _ h' => rcases h4 with h4 | h4 <;> rw [h4] at h' <;> simp at h'
        | exec h' _ => rcases h4 with h4 | h4 <;> rw [h4] at h' <;> simp at h'
      · exact ⟨⟨p, by simp only [AMap.get_set_ne _ _ hk]; exact h1, h2, h4, h5, h6, h7⟩, h8⟩

end Multiple

namespace Condorcet
open Verif.Voting

theorem sound_ok {c c' : Config} : c.intoChecked = .ok c' ↔ Sound c ∧ c' = c := by
  simp only [Config.intoChecked, bind_ok, quorum_ok, period_ok, Sound, SoundPeriods, Except.ok.injEq]
  constructor
  · rintro ⟨_, h1, _, h2, rfl⟩; exact ⟨⟨h1, h2, by simp⟩, rfl⟩
  · rintro ⟨⟨h1, h2, _⟩, rfl⟩; exact ⟨(), h1, (), h2, rfl⟩

/-- **C101.** dao-proposal-condorcet can be instantiated with exactly the sound configurations; the instantiator is the
DAO. -/
theorem C101_instantiate {env : Env} {c : Config} :
    ((∃ r, instantiate env c = .ok r) ↔ Sound c) ∧
    ∀ s, instantiate env c = .ok s → s.config = c ∧ s.dao = env.sender := by
  refine ⟨?_, fun s h => ?_⟩
  · simp only [instantiate, bind_ok, sound_ok]
    exact ⟨fun ⟨_, _, ⟨h, _⟩, _⟩ => h, fun h => ⟨_, _, ⟨h, rfl⟩, rfl⟩⟩
  · simp only [instantiate, bind_ok, sound_ok, Except.ok.injEq] at h
    obtain ⟨_, ⟨_, rfl⟩, rfl⟩ := h; exact ⟨rfl, rfl⟩

/-- **C101.** The DAO, and nobody else, can set exactly the sound configurations. -/
theorem C101_update {s : State} {env : Env} {c : Config} :
    (∃ r, step s env (.setConfig c) = .ok r) ↔ env.sender = s.dao ∧ Sound c := by
  simp only [step, execSetConfig, bind_ok, sound_ok, require_ok, decide_eq_true_eq]
  exact ⟨fun ⟨_, _, h1, _, ⟨h2, _⟩, _⟩ => ⟨h1, h2⟩, fun ⟨h1, h2⟩ => ⟨_, (), h1, _, ⟨h2, rfl⟩, rfl⟩⟩

/-- **C101.** In every reachable state the configuration is sound. -/
theorem C101_always {s : State} {b : Block} {log : List Event} (h : Reach s b log) : Sound s.config := by
  obtain ⟨env, c, s0, h0, hr⟩ := h
  induction hr with
  | refl =>
    have h1 := (C101_instantiate (env := env) (c := c)).1.1 ⟨_, h0⟩
    rw [((C101_instantiate (env := env) (c := c)).2 _ h0).1]; exact h1
  | @step s1 s2 b1 log env' call out _ _ hs ih =>
    have h2 := step_settings hs
    rw [h2.2]
    cases call with
    | setConfig c' => exact (C101_update.1 ⟨_, hs⟩).2
    | _ => exact ih

end Condorcet
end Verif
