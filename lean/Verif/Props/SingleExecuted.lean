import Verif.Props.Single
import Verif.Spec.SingleNearly
/-!
# C10: what is executed met its threshold, and is what was proposed

`C10_executed_nearly` covers every threshold the contract accepts, whatever its decimals, with no
exception; `C10_executed_met` is the exact form for percentages of at most nine decimals.
-/

namespace Verif.Single
open Verif Verif.Voting Verif.Spec

theorem nearly_of_passB {w n : Nat} {pt : PercentageThreshold} (h : passB w n pt = true) :
    NearlyMeets w n pt := by
  cases pt with
  | majority => simp only [passB, Bool.and_eq_true, decide_eq_true_eq] at h; exact h.2
  | percent a =>
    simp only [passB, Bool.and_eq_true, decide_eq_true_eq] at h
    show n * a < w * 10 ^ 18 + 10 ^ 9
    rw [pow18, pow9]
    exact (pass_iff_aux w n a).1 h.2

theorem nearly_mono {w w' n n' : Nat} {pt : PercentageThreshold} (h : NearlyMeets w n pt)
    (hw : w ≤ w') (hn : n' ≤ n) : NearlyMeets w' n' pt := by
  cases pt with
  | majority => have h : n < 2 * w := h; show n' < 2 * w'; omega
  | percent a =>
    have h : n * a < w * 10 ^ 18 + 10 ^ 9 := h
    show n' * a < w' * 10 ^ 18 + 10 ^ 9
    exact Nat.lt_of_le_of_lt (Nat.mul_le_mul_right a hn)
      (Nat.lt_of_lt_of_le h (Nat.add_le_add_right (Nat.mul_le_mul_right _ hw) _))

theorem nearly_of_passedB {p : Proposal} {b : Block} (h : passedB p b = true) :
    MayPass p b ∧ NearlyPasses p.threshold p.totalPower p.votes (p.expiration.isExpired b) := by
  unfold passedB at h
  split at h
  · cases h
  rename_i h1
  split at h
  · cases h
  rename_i h2
  refine ⟨mayPass_iff.2 ⟨h1, h2⟩, ?_⟩
  unfold NearlyPasses
  cases hth : p.threshold with
  | absolutePercentage pct => rw [hth] at h; exact nearly_of_passB h
  | thresholdQuorum t q =>
    rw [hth] at h
    simp only [Bool.and_eq_true] at h
    refine ⟨nearly_of_passB h.1, nearly_mono (nearly_of_passB h.2) (Nat.le_refl _) ?_⟩
    simp only [vsum]; split <;> omega
  | absoluteCount n => rw [hth] at h; exact of_decide_eq_true h

theorem MayPass.mono {p : Proposal} {b b' : Block} (h : MayPass p b) (hb : b.le b') : MayPass p b' :=
  ⟨fun hr => Expiration.isExpired_mono hb (h.1 hr), fun m hm => Expiration.isExpired_mono hb (h.2 m hm)⟩

theorem nearly_of_was {p : Proposal} {b : Block} (h : WasPassed p b)
    (hfit : vsum p.votes ≤ p.totalPower) :
    MayPass p b ∧ NearlyPasses p.threshold p.totalPower p.votes (p.expiration.isExpired b) := by
  obtain ⟨b0, q, h1, h2, h3, h4, h5⟩ := h
  obtain ⟨hm, hn⟩ := nearly_of_passedB h4
  have hmp : MayPass p b0 := by
    unfold MayPass at hm ⊢
    rw [h2.allowRevoting, h2.expiration, h2.minVotingPeriod]; exact hm
  refine ⟨hmp.mono h1, ?_⟩
  rw [← h2.threshold, ← h2.totalPower, ← h2.expiration] at hn
  unfold NearlyPasses at hn ⊢
  obtain ⟨hy, hno, hab⟩ := h3
  unfold vsum at hfit
  cases hth : p.threshold with
  | absolutePercentage pct => rw [hth] at hn; exact nearly_mono (pt := pct) hn hy (by omega)
  | thresholdQuorum t qm =>
    rw [hth] at hn
    refine ⟨nearly_mono (pt := qm) hn.1 (by omega) (Nat.le_refl _), nearly_mono (pt := t) hn.2 hy ?_⟩
    rcases h5 with ⟨_, hx⟩ | ⟨hv, hx⟩
    · rw [hx]; split <;> simp <;> omega
    · rw [Expiration.isExpired_mono h1 hx, hx, hv]
      simp
  | absoluteCount n => rw [hth] at hn; exact Nat.le_trans hn hy

/-- **C10.** Whenever a proposal is executed, whatever the decimals of its threshold: the minimum voting
period is over, with revoting the voting period is over, and the tally at that moment meets the
threshold, or is short of it by less than a billionth of a vote. -/
theorem C10_executed_nearly {P : Addr → Nat → Nat} {T : Nat → Nat} {s : State} {b : Block}
    {log : List Event} (h : Reach s b log) (hpow : StablePowers log P T) {e : Event} (he : e ∈ log)
    {id : Nat} {f : Bool} (hc : e.call = .execute id f) :
    ∃ p, e.pre.proposals.get id = some p ∧ MayPass p e.env.block ∧
      NearlyPasses p.threshold p.totalPower p.votes (p.expiration.isExpired e.env.block) := by
  obtain ⟨l1, l2, b1, hl, h1, hb, h3, h4⟩ := reach_split h he
  have hpow' : StablePowers l2 P T :=
    ⟨fun e' he' => hpow.power e' (by rw [hl]; simp [he']),
     fun e' he' => hpow.total e' (by rw [hl]; simp [he']), hpow.bounded⟩
  have hi := inv_reach h1
  have hpi := powInv_reach h1 hpow'
  have hpass := passInv_reach h1 hpow'
  obtain ⟨p, st, p', hp, hst, hx, _⟩ := step_execute (id := id) h3 (by rw [hc]; simp [isExecuteOf])
  have hs := sane_prop hi hpi hpow.bounded hp
  have hl : PassedLike st := by rcases hx with rfl | ⟨_, _, rfl, _⟩ <;> trivial
  have hw := wasPassed_current hs (fun hpl => wasPassed_mono (hpass id p hp hpl) hb) hst hl
  exact ⟨p, hp, nearly_of_was hw hs.fits⟩

theorem newId_propose {s s' : State} {env : Env} {call : Call} {out : Out} {id : Nat}
    (h : step s env call = .ok (s', out)) (hn : out.newId = some id) :
    ∃ g c ms vo z, call = .propose g c ms vo z := by
  cases call with
  | propose g c m v z => exact ⟨g, c, m, v, z, rfl⟩
  | vote id v r =>
    obtain ⟨p, power, w, votes, st, _, _, _, _, _, _, _, _, rfl, rfl⟩ := execVote_inv h
    cases hn
  | updateRationale id' r =>
    unfold step execUpdateRationale at h
    simp only [bind_ok, orErr_ok, Except.ok.injEq, Prod.mk.injEq] at h
    obtain ⟨b, hb, rfl, rfl⟩ := h
    cases hn
  | execute id' f =>
    obtain ⟨p, st, st', hp, hst, hm, _, _, rfl, _, hn'⟩ := execExecute_inv h
    rw [hn'] at hn; cases hn
  | close id' =>
    obtain ⟨p, hp, hst, rfl, rfl⟩ := execClose_inv h
    cases hn
  | veto id' =>
    obtain ⟨p, st, hp, hst, hm, rfl, rfl⟩ := execVeto_inv h
    cases hn
  | updateConfig c =>
    unfold step execUpdateConfig at h
    simp only [bind_ok, require_ok, Except.ok.injEq, Prod.mk.injEq] at h
    obtain ⟨_, _, _, hv, rfl, rfl⟩ := h
    cases hn
  | updatePreProposeInfo i =>
    unfold step execUpdatePolicy at h
    simp only [bind_ok, require_ok, Except.ok.injEq, Prod.mk.injEq] at h
    obtain ⟨_, _, rfl, rfl⟩ := h
    cases hn
  | addProposalHook a =>
    unfold step execAddProposalHook at h
    simp only [bind_ok, require_ok, Except.ok.injEq, Prod.mk.injEq] at h
    obtain ⟨_, _, _, _, rfl, rfl⟩ := h
    cases hn
  | removeProposalHook a =>
    unfold step execRemoveProposalHook at h
    simp only [bind_ok, require_ok, Except.ok.injEq, Prod.mk.injEq] at h
    obtain ⟨_, _, _, _, rfl, rfl⟩ := h
    cases hn
  | addVoteHook a =>
    unfold step execAddVoteHook at h
    simp only [bind_ok, require_ok, Except.ok.injEq, Prod.mk.injEq] at h
    obtain ⟨_, _, _, _, rfl, rfl⟩ := h
    cases hn
  | removeVoteHook a =>
    unfold step execRemoveVoteHook at h
    simp only [bind_ok, require_ok, Except.ok.injEq, Prod.mk.injEq] at h
    obtain ⟨_, _, _, _, rfl, rfl⟩ := h
    cases hn
  | replyFailedProposalHook i =>
    unfold step replyProposalHook at h
    simp only [bind_ok, Except.ok.injEq, Prod.mk.injEq, Prod.exists] at h
    obtain ⟨_, _, _, rfl, rfl⟩ := h
    cases hn
  | replyFailedVoteHook i =>
    unfold step replyVoteHook at h
    simp only [bind_ok, Except.ok.injEq, Prod.mk.injEq, Prod.exists] at h
    obtain ⟨_, _, _, rfl, rfl⟩ := h
    cases hn
  | replyPreProposeInstantiated a =>
    simp only [step, Except.ok.injEq, Prod.mk.injEq] at h
    obtain ⟨rfl, rfl⟩ := h
    cases hn
  | replyFailedPreProposeHook =>
    simp only [step, replyPreProposeFailed] at h
    split at h
    · simp at h
    · simp only [Except.ok.injEq, Prod.mk.injEq] at h
      obtain ⟨rfl, rfl⟩ := h
      cases hn

/-- **C10.** Whatever the DAO is asked to execute was proposed: every request over a whole history comes
from the execution of a proposal, and what it asks for are the very messages given in the earlier call
that made this proposal. -/
theorem C10_sends_what_was_proposed {s : State} {b : Block} {log : List Event} (h : Reach s b log)
    {e : Event} (he : e ∈ log) {m : SubMsg} (hm : m ∈ e.out.msgs) (hx : isExecuteOnDao m.msg = true) :
    ∃ id f l1 l2, e.call = .execute id f ∧ log = l1 ++ e :: l2 ∧
      ∃ e0 ∈ l2, ∃ g c ms vo z, e0.call = .propose g c ms vo z ∧ e0.out.newId = some id ∧
        m.msg = .executeOnDao e.pre.config.dao ms := by
  obtain ⟨l1, l2, b1, hl, h1, hb, h3, h4⟩ := reach_split h he
  obtain ⟨id, p, f, hcall, hp, hmsg, _⟩ := C10_only_execute_sends h3 hm hx
  refine ⟨id, f, l1, l2, hcall, hl, ?_⟩
  have hids := C13_ids_consecutive h1
  have hin : id ∈ List.range' 1 e.pre.count := by
    have := ((inv_reach h1).ids id).1 (by rw [hp]; rfl)
    simp only [List.mem_range'_1]; omega
  rw [← hids] at hin
  obtain ⟨e0, he0, hn⟩ := List.mem_filterMap.1 hin
  have he0 := List.mem_reverse.1 he0
  obtain ⟨_, _, _, _, _, _, h5, _⟩ := reach_split h1 he0
  obtain ⟨g, c, ms, vo, z, hc⟩ := newId_propose h5 hn
  obtain ⟨id', p', hn', hp', hms, _⟩ := C10_messages_unaltered h1 he0 hc
  rw [hn, Option.some.injEq] at hn'
  subst hn'
  rw [hp, Option.some.injEq] at hp'
  subst hp'
  exact ⟨e0, he0, g, c, ms, vo, z, hc, hn, by rw [hmsg, hms]⟩

end Verif.Single
