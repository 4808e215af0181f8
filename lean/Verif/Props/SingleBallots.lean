import Verif.Props.Single
import Verif.Spec.SingleBallots
/-!
# C07: the ballots are the last votes; the tally is their power
-/

namespace Verif.Single
open Verif Verif.Voting Verif.Spec

theorem step_ballots {s s' : State} {env : Env} {call : Call} {out : Out} (h : step s env call = .ok (s', out))
    (a : Addr) (id : Nat) :
    (s'.ballots.get (id, a)).map (·.vote) =
      match ballotCast ⟨s, env, call, out, s'⟩ with
      | some (a', id', v) => if a' = a ∧ id' = id then some v else (s.ballots.get (id, a)).map (·.vote)
      | none => (s.ballots.get (id, a)).map (·.vote) := by
  have hv : ∀ {s1 : State} {voter : Addr} {id' : Nat} {v : Vote} {r : Option Nat} {o : Out},
      s1.ballots = s.ballots → execVote s1 env voter id' v r = .ok (s', o) →
      (s'.ballots.get (id, a)).map (·.vote) =
        if voter = a ∧ id' = id then some v else (s.ballots.get (id, a)).map (·.vote) := by
    intro s1 voter id' v r o hs hx
    obtain ⟨p, power, w, votes, st, hp, hexp, hpow, _, h0, _, _, _, rfl, _⟩ := execVote_inv hx
    simp only [AMap.get_set, hs]
    by_cases he : (id', voter) = (id, a)
    · injection he with e1 e2
      rw [if_pos (by rw [e1, e2]), if_pos ⟨e2, e1⟩]; rfl
    · rw [if_neg he, if_neg (fun hh => he (by rw [hh.1, hh.2]))]
  cases call with
  | vote id' v r => exact hv rfl h
  | propose g c m vo z =>
    obtain ⟨proposer, total, st, s1, h1, h2, _, _, _, _, _, h8, _, h9⟩ := execPropose_inv h
    rcases h9 with ⟨rfl, rfl, _⟩ | ⟨v, r, o, rfl, hx, _⟩
    · rw [h8]; rfl
    · have hpr : proposer = g.getD env.sender := by
        unfold resolveProposer at h2
        split at h2
        · injection h2 with h2; exact h2.symm
        · injection h2 with h2; exact h2.symm
        · cases h2
      subst hpr
      exact hv (by rw [h8]) hx
  | updateRationale id' r =>
    unfold step execUpdateRationale at h
    simp only [bind_ok, orErr_ok, Except.ok.injEq, Prod.mk.injEq] at h
    obtain ⟨b, hb, rfl, _⟩ := h
    simp only [AMap.get_set, ballotCast]
    split
    · rename_i he; rw [← he, hb]; rfl
    · rfl
  | execute id' f =>
    obtain ⟨p, st, st', hp, hst, hm, _, _, rfl, _⟩ := execExecute_inv h
    rfl
  | close id' =>
    obtain ⟨p, hp, hst, rfl, _⟩ := execClose_inv h
    rfl
  | veto id' =>
    obtain ⟨p, st, hp, hst, hm, rfl, _⟩ := execVeto_inv h
    rfl
  | updateConfig c =>
    unfold step execUpdateConfig at h
    simp only [bind_ok, require_ok, Except.ok.injEq, Prod.mk.injEq] at h
    obtain ⟨_, _, _, hv, rfl, _⟩ := h
    rfl
  | updatePreProposeInfo i =>
    unfold step execUpdatePolicy at h
    simp only [bind_ok, require_ok, Except.ok.injEq, Prod.mk.injEq] at h
    obtain ⟨_, _, rfl, _⟩ := h
    rfl
  | addProposalHook a =>
    unfold step execAddProposalHook at h
    simp only [bind_ok, require_ok, Except.ok.injEq, Prod.mk.injEq] at h
    obtain ⟨_, _, _, _, rfl, _⟩ := h
    rfl
  | removeProposalHook a =>
    unfold step execRemoveProposalHook at h
    simp only [bind_ok, require_ok, Except.ok.injEq, Prod.mk.injEq] at h
    obtain ⟨_, _, _, _, rfl, _⟩ := h
    rfl
  | addVoteHook a =>
    unfold step execAddVoteHook at h
    simp only [bind_ok, require_ok, Except.ok.injEq, Prod.mk.injEq] at h
    obtain ⟨_, _, _, _, rfl, _⟩ := h
    rfl
  | removeVoteHook a =>
    unfold step execRemoveVoteHook at h
    simp only [bind_ok, require_ok, Except.ok.injEq, Prod.mk.injEq] at h
    obtain ⟨_, _, _, _, rfl, _⟩ := h
    rfl
  | replyFailedProposalHook i =>
    unfold step replyProposalHook at h
    simp only [bind_ok, Except.ok.injEq, Prod.mk.injEq, Prod.exists] at h
    obtain ⟨_, _, _, rfl, _⟩ := h
    rfl
  | replyFailedVoteHook i =>
    unfold step replyVoteHook at h
    simp only [bind_ok, Except.ok.injEq, Prod.mk.injEq, Prod.exists] at h
    obtain ⟨_, _, _, rfl, _⟩ := h
    rfl
  | replyPreProposeInstantiated a =>
    simp only [step, Except.ok.injEq, Prod.mk.injEq] at h
    obtain ⟨rfl, _⟩ := h
    rfl
  | replyFailedPreProposeHook =>
    simp only [step, replyPreProposeFailed] at h
    split at h
    · simp at h
    · simp only [Except.ok.injEq, Prod.mk.injEq] at h
      obtain ⟨rfl, _⟩ := h
      rfl

/-- **C07.** The recorded vote of an address on a proposal is its last vote in the history. -/
theorem C07_last_vote {s : State} {b : Block} {log : List Event} (h : Reach s b log) (a : Addr) (id : Nat) :
    (s.ballots.get (id, a)).map (·.vote) = lastVote a id log := by
  obtain ⟨env, c, i, s0, out, h0, hr⟩ := h
  induction hr with
  | refl =>
    unfold instantiate at h0
    simp only [bind_ok, Except.ok.injEq, Prod.mk.injEq] at h0
    obtain ⟨_, hv, rfl, _⟩ := h0
    rfl
  | step hr hb hs ih =>
    rw [step_ballots hs a id, ih]
    rfl

/-- The entries of one proposal and vote, as a list of distinct addresses. -/
theorem sum_vote {m : AMap (Nat × Addr) Ballot} (hwf : m.WF) (id : Nat) (v : Vote) (f : Addr → Nat)
    (hf : ∀ a b, m.get (id, a) = some b → b.power = f a) :
    ∃ l : List Addr, l.Nodup ∧ (∀ a, a ∈ l ↔ (m.get (id, a)).map (·.vote) = some v) ∧
      AMap.sum (fun k b => if k.1 = id ∧ b.vote = v then b.power else 0) m = (l.map f).sum := by
  have key : ∀ m : AMap (Nat × Addr) Ballot, m.WF → (∀ a b, ((id, a), b) ∈ m → b.power = f a) →
      ∃ l : List Addr, l.Nodup ∧ (∀ a, a ∈ l ↔ ∃ b, ((id, a), b) ∈ m ∧ b.vote = v) ∧
      AMap.sum (fun k b => if k.1 = id ∧ b.vote = v then b.power else 0) m = (l.map f).sum := by
    intro m hwf hf
    induction m with
    | nil => exact ⟨[], List.nodup_nil, by simp, rfl⟩
    | cons e m ih =>
      obtain ⟨⟨id', a⟩, b⟩ := e
      simp only [AMap.WF, List.map_cons, List.nodup_cons] at hwf
      obtain ⟨l, h1, h2, h3⟩ := ih hwf.2 (fun a b h => hf a b (List.mem_cons_of_mem _ h))
      by_cases he : id' = id ∧ b.vote = v
      · obtain ⟨rfl, rfl⟩ := he
        refine ⟨a :: l, List.nodup_cons.2 ⟨?_, h1⟩, ?_, ?_⟩
        · intro ha
          obtain ⟨b', hb', _⟩ := (h2 a).1 ha
          exact hwf.1 (List.mem_map.2 ⟨_, hb', rfl⟩)
        · intro x
          rw [List.mem_cons, h2]
          constructor
          · rintro (rfl | ⟨b', hb', hv'⟩)
            · exact ⟨b, by simp, rfl⟩
            · exact ⟨b', List.mem_cons_of_mem _ hb', hv'⟩
          · rintro ⟨b', hb', hv'⟩
            rcases List.mem_cons.1 hb' with heq | hb'
            · injection heq with e1 _; injection e1 with _ e2; exact Or.inl e2
            · exact Or.inr ⟨b', hb', hv'⟩
        · simp only [AMap.sum, and_self, if_true, h3, List.map_cons, List.sum_cons]
          rw [hf a b (by simp)]
      · refine ⟨l, h1, ?_, ?_⟩
        · intro x
          rw [h2]
          constructor
          · rintro ⟨b', hb', hv'⟩; exact ⟨b', List.mem_cons_of_mem _ hb', hv'⟩
          · rintro ⟨b', hb', hv'⟩
            rcases List.mem_cons.1 hb' with heq | hb'
            · injection heq with e1 e3; injection e1 with e1 _
              subst e3; exact absurd ⟨e1.symm, hv'⟩ he
            · exact ⟨b', hb', hv'⟩
        · simp only [AMap.sum, he, if_false, h3, Nat.zero_add]
  obtain ⟨l, h1, h2, h3⟩ := key m hwf (fun a b h => hf a b (AMap.get_of_mem hwf h))
  refine ⟨l, h1, fun a => (h2 a).trans ?_, h3⟩
  constructor
  · rintro ⟨b, hb, rfl⟩; rw [AMap.get_of_mem hwf hb]; rfl
  · intro h
    cases hg : m.get (id, a) with
    | none => rw [hg] at h; cases h
    | some b =>
      rw [hg] at h
      injection h with h
      exact ⟨b, AMap.mem_of_get hg, h⟩

/-- **C06, C07.** With a consistent voting module: for every vote there is the list of exactly the addresses whose
last vote on the proposal it is, without repetition; the counter of the tally is the sum of their powers at the
proposal's start height, and the total power the one at that height. -/
theorem C07_tally_is_last_votes {P : Addr → Nat → Nat} {T : Nat → Nat} {s : State} {b : Block}
    {log : List Event} (h : Reach s b log) (hpow : StablePowers log P T) {id : Nat} {p : Proposal}
    (hp : s.proposals.get id = some p) :
    p.totalPower = T p.startHeight ∧ ∀ v : Vote, ∃ l : List Addr, l.Nodup ∧ (∀ a, a ∈ l ↔ lastVote a id log = some v) ∧
      countOf p.votes v = (l.map (fun a => P a p.startHeight)).sum := by
  have hi := inv_reach h
  have hpi := powInv_reach h hpow
  refine ⟨hpi.tot id p hp, fun v => ?_⟩
  obtain ⟨l, h1, h2, h3⟩ := sum_vote hi.wfB id v (fun a => P a p.startHeight) (fun a b hb => hpi.bal id a b p hp hb)
  refine ⟨l, h1, fun a => ?_, ?_⟩
  · rw [h2, C07_last_vote h]
  · rw [(hi.prop id p hp).tally v]; exact h3

end Verif.Single
