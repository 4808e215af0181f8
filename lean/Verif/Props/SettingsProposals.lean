import Verif.Spec.SettingsOf
import Verif.Proofs.Settings
import Verif.Props.Multiple
import Verif.Props.Condorcet
/-!
# C100: settings of the proposal modules are what the DAO said last
-/

namespace Verif

namespace Single
open Verif.Settings Verif.Hooks Verif.Voting

/-- What a step does to the settings. -/
theorem step_settings {s s' : State} {env : Env} {call : Call} {out : Out} (h : step s env call = .ok (s', out)) :
    items s'.proposalHooks = (editsProposalHooks call).apply (items s.proposalHooks) ∧
    items s'.voteHooks = (editsVoteHooks call).apply (items s.voteHooks) ∧
    s'.config = (setsConfig call).getD s.config ∧ s'.policy = (setsPolicy call).getD s.policy := by
  have hvote : ∀ {s : State} {voter : Addr} {id' : Nat} {v : Vote} {r : Option Nat} {o : Out},
      execVote s env voter id' v r = .ok (s', o) → s'.config = s.config ∧ s'.policy = s.policy ∧
        s'.proposalHooks = s.proposalHooks ∧ s'.voteHooks = s.voteHooks := by
    intro s voter id' v r o hx
    obtain ⟨p, power, w, votes, st, _, _, _, _, _, _, _, _, rfl, _⟩ := execVote_inv hx
    exact ⟨rfl, rfl, rfl, rfl⟩
  cases call with
  | propose g c m v z =>
    obtain ⟨proposer, total, st, s1, h1, h2, _, _, _, _, _, h8, _, h9⟩ := execPropose_inv h
    rcases h9 with ⟨_, rfl, _⟩ | ⟨v, r, o, hvo, hx, _⟩
    · subst h8; exact ⟨rfl, rfl, rfl, rfl⟩
    · obtain ⟨e1, e2, e3, e4⟩ := hvote hx
      subst h8; rw [e1, e2, e3, e4]; exact ⟨rfl, rfl, rfl, rfl⟩
  | vote id v r => obtain ⟨e1, e2, e3, e4⟩ := hvote h; rw [e1, e2, e3, e4]; exact ⟨rfl, rfl, rfl, rfl⟩
  | updateRationale id' r =>
    unfold step execUpdateRationale at h
    simp only [bind_ok, orErr_ok, Except.ok.injEq, Prod.mk.injEq] at h
    obtain ⟨b, hb, rfl, rfl⟩ := h
    exact ⟨rfl, rfl, rfl, rfl⟩
  | execute id' f =>
    obtain ⟨p, st, st', hp, hst, hm, _, _, rfl, _, hn⟩ := execExecute_inv h
    exact ⟨rfl, rfl, rfl, rfl⟩
  | close id' =>
    obtain ⟨p, hp, hst, rfl, rfl⟩ := execClose_inv h
    exact ⟨rfl, rfl, rfl, rfl⟩
  | veto id' =>
    obtain ⟨p, st, hp, hst, hm, rfl, rfl⟩ := execVeto_inv h
    exact ⟨rfl, rfl, rfl, rfl⟩
  | updateConfig c =>
    simp only [step, execUpdateConfig, bind_ok, Except.ok.injEq, Prod.mk.injEq] at h
    obtain ⟨_, _, _, _, rfl, _⟩ := h
    exact ⟨rfl, rfl, rfl, rfl⟩
  | updatePreProposeInfo i =>
    simp only [step, execUpdatePolicy, bind_ok, Except.ok.injEq, Prod.mk.injEq] at h
    obtain ⟨_, _, rfl, _⟩ := h
    refine ⟨rfl, rfl, rfl, ?_⟩
    cases i <;> rfl
  | addProposalHook a =>
    simp only [step, execAddProposalHook, bind_ok, Except.ok.injEq, Prod.mk.injEq] at h
    obtain ⟨_, _, _, hx, rfl, _⟩ := h
    exact ⟨edit_add hx, rfl, rfl, rfl⟩
  | removeProposalHook a =>
    simp only [step, execRemoveProposalHook, bind_ok, Except.ok.injEq, Prod.mk.injEq] at h
    obtain ⟨_, _, _, hx, rfl, _⟩ := h
    exact ⟨edit_remove hx, rfl, rfl, rfl⟩
  | addVoteHook a =>
    simp only [step, execAddVoteHook, bind_ok, Except.ok.injEq, Prod.mk.injEq] at h
    obtain ⟨_, _, _, hx, rfl, _⟩ := h
    exact ⟨rfl, edit_add hx, rfl, rfl⟩
  | removeVoteHook a =>
    simp only [step, execRemoveVoteHook, bind_ok, Except.ok.injEq, Prod.mk.injEq] at h
    obtain ⟨_, _, _, hx, rfl, _⟩ := h
    exact ⟨rfl, edit_remove hx, rfl, rfl⟩
  | replyFailedProposalHook i =>
    simp only [step, replyProposalHook, bind_ok, Except.ok.injEq, Prod.mk.injEq, Prod.exists] at h
    obtain ⟨_, _, hx, rfl, _⟩ := h
    exact ⟨edit_drop hx, rfl, rfl, rfl⟩
  | replyFailedVoteHook i =>
    simp only [step, replyVoteHook, bind_ok, Except.ok.injEq, Prod.mk.injEq, Prod.exists] at h
    obtain ⟨_, _, hx, rfl, _⟩ := h
    exact ⟨rfl, edit_drop hx, rfl, rfl⟩
  | replyPreProposeInstantiated a =>
    simp only [step, Except.ok.injEq, Prod.mk.injEq] at h
    obtain ⟨rfl, _⟩ := h
    exact ⟨rfl, rfl, rfl, rfl⟩
  | replyFailedPreProposeHook =>
    simp only [step, replyPreProposeFailed] at h
    split at h
    · cases h
    · simp only [Except.ok.injEq, Prod.mk.injEq] at h
      obtain ⟨rfl, _⟩ := h
      exact ⟨rfl, rfl, rfl, rfl⟩

/-- **C100.** In every reachable state of dao-proposal-single the receivers told of proposals, and those told of votes,
are those the DAO added and neither removed nor lost by a failed delivery, in the order of adding. -/
theorem C100_hooks {s : State} {b : Block} {log : List Event} (h : Reach s b log) :
    s.proposalHooks.getD [] = receivers editsProposalHooks (log.map (·.call)) ∧
    s.voteHooks.getD [] = receivers editsVoteHooks (log.map (·.call)) := by
  obtain ⟨env, c, i, s0, out, h0, hr⟩ := h
  induction hr with
  | refl =>
    simp only [instantiate, bind_ok, Except.ok.injEq, Prod.mk.injEq] at h0
    obtain ⟨_, _, rfl, _⟩ := h0
    exact ⟨rfl, rfl⟩
  | step _ _ hs ih =>
    obtain ⟨h1, h2, _, _⟩ := step_settings hs
    refine ⟨h1.trans ?_, h2.trans ?_⟩
    · rw [show items _ = _ from ih.1]; rfl
    · rw [show items _ = _ from ih.2]; rfl

/-- **C100.** The configuration is the one set last; the creation policy what was said last about it. -/
theorem C100_last {s0 s : State} {b0 b : Block} {log : List Event} (h : Run s0 b0 log s b) :
    s.config = value setsConfig s0.config (log.map (·.call)) ∧
    s.policy = value setsPolicy s0.policy (log.map (·.call)) := by
  induction h with
  | refl => exact ⟨rfl, rfl⟩
  | step _ _ hs ih =>
    obtain ⟨_, _, h1, h2⟩ := step_settings hs
    rw [List.map_cons, value_cons, value_cons, ← ih.1, ← ih.2]
    exact ⟨h1, h2⟩

/-- **C100.** The DAO, and nobody else, can add any receiver not there, remove any receiver there, and choose who may
propose. -/
theorem C100_can {s : State} {env : Env} :
    (∀ a, (∃ r, step s env (.addProposalHook a) = .ok r) ↔ env.sender = s.config.dao ∧ a ∉ s.proposalHooks.getD []) ∧
    (∀ a, (∃ r, step s env (.removeProposalHook a) = .ok r) ↔ env.sender = s.config.dao ∧ a ∈ s.proposalHooks.getD []) ∧
    (∀ a, (∃ r, step s env (.addVoteHook a) = .ok r) ↔ env.sender = s.config.dao ∧ a ∉ s.voteHooks.getD []) ∧
    (∀ a, (∃ r, step s env (.removeVoteHook a) = .ok r) ↔ env.sender = s.config.dao ∧ a ∈ s.voteHooks.getD []) ∧
    (∀ i, (∃ r, step s env (.updatePreProposeInfo i) = .ok r) ↔ env.sender = s.config.dao) := by
  refine ⟨fun a => ?_, fun a => ?_, fun a => ?_, fun a => ?_, fun i => ?_⟩
  · rw [show s.proposalHooks.getD [] = items s.proposalHooks from rfl, ← add_iff]
    simp only [step, execAddProposalHook, bind_ok, require_ok, decide_eq_true_eq]
    exact ⟨fun ⟨_, _, h1, h', h2, _⟩ => ⟨h1, h', h2⟩, fun ⟨h1, h', h2⟩ => ⟨_, (), h1, h', h2, rfl⟩⟩
  · rw [show s.proposalHooks.getD [] = items s.proposalHooks from rfl, ← remove_iff]
    simp only [step, execRemoveProposalHook, bind_ok, require_ok, decide_eq_true_eq]
    exact ⟨fun ⟨_, _, h1, h', h2, _⟩ => ⟨h1, h', h2⟩, fun ⟨h1, h', h2⟩ => ⟨_, (), h1, h', h2, rfl⟩⟩
  · rw [show s.voteHooks.getD [] = items s.voteHooks from rfl, ← add_iff]
    simp only [step, execAddVoteHook, bind_ok, require_ok, decide_eq_true_eq]
    exact ⟨fun ⟨_, _, h1, h', h2, _⟩ => ⟨h1, h', h2⟩, fun ⟨h1, h', h2⟩ => ⟨_, (), h1, h', h2, rfl⟩⟩
  · rw [show s.voteHooks.getD [] = items s.voteHooks from rfl, ← remove_iff]
    simp only [step, execRemoveVoteHook, bind_ok, require_ok, decide_eq_true_eq]
    exact ⟨fun ⟨_, _, h1, h', h2, _⟩ => ⟨h1, h', h2⟩, fun ⟨h1, h', h2⟩ => ⟨_, (), h1, h', h2, rfl⟩⟩
  · simp only [step, execUpdatePolicy, bind_ok, require_ok, decide_eq_true_eq]
    exact ⟨fun ⟨_, _, h1, _⟩ => h1, fun h1 => ⟨_, (), h1, rfl⟩⟩

end Single

namespace Multiple
open Verif.Settings Verif.Hooks Verif.Voting

/-- What a step does to the settings. -/
theorem step_settings {s s' : State} {env : Env} {call : Call} {out : Out} (h : step s env call = .ok (s', out)) :
    items s'.proposalHooks = (editsProposalHooks call).apply (items s.proposalHooks) ∧
    items s'.voteHooks = (editsVoteHooks call).apply (items s.voteHooks) ∧
    s'.config = (setsConfig call).getD s.config ∧ s'.policy = (setsPolicy call).getD s.policy := by
  have hvote : ∀ {s : State} {voter : Addr} {id' : Nat} {v : Vote} {r : Option Nat} {o : Out},
      execVote s env voter id' v r = .ok (s', o) → s'.config = s.config ∧ s'.policy = s.policy ∧
        s'.proposalHooks = s.proposalHooks ∧ s'.voteHooks = s.voteHooks := by
    intro s voter id' v r o hx
    obtain ⟨p, power, w, votes, st, _, _, _, _, _, _, _, _, _, rfl, _⟩ := execVote_inv hx
    exact ⟨rfl, rfl, rfl, rfl⟩
  cases call with
  | propose g c m v z =>
    obtain ⟨proposer, choices, total, st, s1, h1, h2, _, hch, _, _, _, _, h8, _, h9⟩ := execPropose_inv h
    rcases h9 with ⟨_, rfl, _⟩ | ⟨v, r, o, hvo, hx, _⟩
    · subst h8; exact ⟨rfl, rfl, rfl, rfl⟩
    · obtain ⟨e1, e2, e3, e4⟩ := hvote hx
      subst h8; rw [e1, e2, e3, e4]; exact ⟨rfl, rfl, rfl, rfl⟩
  | vote id v r => obtain ⟨e1, e2, e3, e4⟩ := hvote h; rw [e1, e2, e3, e4]; exact ⟨rfl, rfl, rfl, rfl⟩
  | updateRationale id' r =>
    unfold step execUpdateRationale at h
    simp only [bind_ok, orErr_ok, Except.ok.injEq, Prod.mk.injEq] at h
    obtain ⟨b, hb, rfl, rfl⟩ := h
    exact ⟨rfl, rfl, rfl, rfl⟩
  | execute id' f =>
    obtain ⟨p, st, st', msgs, hp, hst, hwm, hm, _, _, rfl, _, hn⟩ := execExecute_inv h
    exact ⟨rfl, rfl, rfl, rfl⟩
  | close id' =>
    obtain ⟨p, hp, hst, rfl, rfl⟩ := execClose_inv h
    exact ⟨rfl, rfl, rfl, rfl⟩
  | veto id' =>
    obtain ⟨p, st, hp, hst, hm, rfl, rfl⟩ := execVeto_inv h
    exact ⟨rfl, rfl, rfl, rfl⟩
  | updateConfig c =>
    simp only [step, execUpdateConfig, bind_ok, Except.ok.injEq, Prod.mk.injEq] at h
    obtain ⟨_, _, _, _, rfl, _⟩ := h
    exact ⟨rfl, rfl, rfl, rfl⟩
  | updatePreProposeInfo i =>
    simp only [step, execUpdatePolicy, bind_ok, Except.ok.injEq, Prod.mk.injEq] at h
    obtain ⟨_, _, rfl, _⟩ := h
    refine ⟨rfl, rfl, rfl, ?_⟩
    cases i <;> rfl
  | addProposalHook a =>
    simp only [step, execAddProposalHook, bind_ok, Except.ok.injEq, Prod.mk.injEq] at h
    obtain ⟨_, _, _, hx, rfl, _⟩ := h
    exact ⟨edit_add hx, rfl, rfl, rfl⟩
  | removeProposalHook a =>
    simp only [step, execRemoveProposalHook, bind_ok, Except.ok.injEq, Prod.mk.injEq] at h
    obtain ⟨_, _, _, hx, rfl, _⟩ := h
    exact ⟨edit_remove hx, rfl, rfl, rfl⟩
  | addVoteHook a =>
    simp only [step, execAddVoteHook, bind_ok, Except.ok.injEq, Prod.mk.injEq] at h
    obtain ⟨_, _, _, hx, rfl, _⟩ := h
    exact ⟨rfl, edit_add hx, rfl, rfl⟩
  | removeVoteHook a =>
    simp only [step, execRemoveVoteHook, bind_ok, Except.ok.injEq, Prod.mk.injEq] at h
    obtain ⟨_, _, _, hx, rfl, _⟩ := h
    exact ⟨rfl, edit_remove hx, rfl, rfl⟩
  | replyFailedProposalHook i =>
    simp only [step, replyProposalHook, bind_ok, Except.ok.injEq, Prod.mk.injEq, Prod.exists] at h
    obtain ⟨_, _, hx, rfl, _⟩ := h
    exact ⟨edit_drop hx, rfl, rfl, rfl⟩
  | replyFailedVoteHook i =>
    simp only [step, replyVoteHook, bind_ok, Except.ok.injEq, Prod.mk.injEq, Prod.exists] at h
    obtain ⟨_, _, hx, rfl, _⟩ := h
    exact ⟨rfl, edit_drop hx, rfl, rfl⟩
  | replyPreProposeInstantiated a =>
    simp only [step, Except.ok.injEq, Prod.mk.injEq] at h
    obtain ⟨rfl, _⟩ := h
    exact ⟨rfl, rfl, rfl, rfl⟩
  | replyFailedPreProposeHook =>
    simp only [step, replyPreProposeFailed] at h
    split at h
    · cases h
    · simp only [Except.ok.injEq, Prod.mk.injEq] at h
      obtain ⟨rfl, _⟩ := h
      exact ⟨rfl, rfl, rfl, rfl⟩

/-- **C100.** In every reachable state of dao-proposal-multiple the receivers told of proposals, and those told of votes,
are those the DAO added and neither removed nor lost by a failed delivery, in the order of adding. -/
theorem C100_hooks {s : State} {b : Block} {log : List Event} (h : Reach s b log) :
    s.proposalHooks.getD [] = receivers editsProposalHooks (log.map (·.call)) ∧
    s.voteHooks.getD [] = receivers editsVoteHooks (log.map (·.call)) := by
  obtain ⟨env, c, i, s0, out, h0, hr⟩ := h
  induction hr with
  | refl =>
    simp only [instantiate, bind_ok, Except.ok.injEq, Prod.mk.injEq] at h0
    obtain ⟨_, _, rfl, _⟩ := h0
    exact ⟨rfl, rfl⟩
  | step _ _ hs ih =>
    obtain ⟨h1, h2, _, _⟩ := step_settings hs
    refine ⟨h1.trans ?_, h2.trans ?_⟩
    · rw [show items _ = _ from ih.1]; rfl
    · rw [show items _ = _ from ih.2]; rfl

/-- **C100.** The configuration is the one set last; the creation policy what was said last about it. -/
theorem C100_last {s0 s : State} {b0 b : Block} {log : List Event} (h : Run s0 b0 log s b) :
    s.config = value setsConfig s0.config (log.map (·.call)) ∧
    s.policy = value setsPolicy s0.policy (log.map (·.call)) := by
  induction h with
  | refl => exact ⟨rfl, rfl⟩
  | step _ _ hs ih =>
    obtain ⟨_, _, h1, h2⟩ := step_settings hs
    rw [List.map_cons, value_cons, value_cons, ← ih.1, ← ih.2]
    exact ⟨h1, h2⟩

/-- **C100.** The DAO, and nobody else, can add any receiver not there, remove any receiver there, and choose who may
propose. -/
theorem C100_can {s : State} {env : Env} :
    (∀ a, (∃ r, step s env (.addProposalHook a) = .ok r) ↔ env.sender = s.config.dao ∧ a ∉ s.proposalHooks.getD []) ∧
    (∀ a, (∃ r, step s env (.removeProposalHook a) = .ok r) ↔ env.sender = s.config.dao ∧ a ∈ s.proposalHooks.getD []) ∧
    (∀ a, (∃ r, step s env (.addVoteHook a) = .ok r) ↔ env.sender = s.config.dao ∧ a ∉ s.voteHooks.getD []) ∧
    (∀ a, (∃ r, step s env (.removeVoteHook a) = .ok r) ↔ env.sender = s.config.dao ∧ a ∈ s.voteHooks.getD []) ∧
    (∀ i, (∃ r, step s env (.updatePreProposeInfo i) = .ok r) ↔ env.sender = s.config.dao) := by
  refine ⟨fun a => ?_, fun a => ?_, fun a => ?_, fun a => ?_, fun i => ?_⟩
  · rw [show s.proposalHooks.getD [] = items s.proposalHooks from rfl, ← add_iff]
    simp only [step, execAddProposalHook, bind_ok, require_ok, decide_eq_true_eq]
    exact ⟨fun ⟨_, _, h1, h', h2, _⟩ => ⟨h1, h', h2⟩, fun ⟨h1, h', h2⟩ => ⟨_, (), h1, h', h2, rfl⟩⟩
  · rw [show s.proposalHooks.getD [] = items s.proposalHooks from rfl, ← remove_iff]
    simp only [step, execRemoveProposalHook, bind_ok, require_ok, decide_eq_true_eq]
    exact ⟨fun ⟨_, _, h1, h', h2, _⟩ => ⟨h1, h', h2⟩, fun ⟨h1, h', h2⟩ => ⟨_, (), h1, h', h2, rfl⟩⟩
  · rw [show s.voteHooks.getD [] = items s.voteHooks from rfl, ← add_iff]
    simp only [step, execAddVoteHook, bind_ok, require_ok, decide_eq_true_eq]
    exact ⟨fun ⟨_, _, h1, h', h2, _⟩ => ⟨h1, h', h2⟩, fun ⟨h1, h', h2⟩ => ⟨_, (), h1, h', h2, rfl⟩⟩
  · rw [show s.voteHooks.getD [] = items s.voteHooks from rfl, ← remove_iff]
    simp only [step, execRemoveVoteHook, bind_ok, require_ok, decide_eq_true_eq]
    exact ⟨fun ⟨_, _, h1, h', h2, _⟩ => ⟨h1, h', h2⟩, fun ⟨h1, h', h2⟩ => ⟨_, (), h1, h', h2, rfl⟩⟩
  · simp only [step, execUpdatePolicy, bind_ok, require_ok, decide_eq_true_eq]
    exact ⟨fun ⟨_, _, h1, _⟩ => h1, fun h1 => ⟨_, (), h1, rfl⟩⟩

end Multiple

namespace Condorcet
open Verif.Settings

theorem step_settings {s s' : State} {env : Env} {call : Call} {out : Out} (h : step s env call = .ok (s', out)) :
    s'.dao = s.dao ∧ s'.config = (setsConfig call).getD s.config := by
  cases call with
  | propose c =>
    simp only [step, execPropose, bind_ok, Except.ok.injEq, Prod.mk.injEq] at h
    obtain ⟨_, _, _, _, _, _, _, _, _, _, _, _, _, _, rfl, _⟩ := h; exact ⟨rfl, rfl⟩
  | vote id v =>
    simp only [step, execVote, bind_ok, Except.ok.injEq, Prod.mk.injEq] at h
    obtain ⟨_, _, _, _, _, _, _, _, _, _, _, _, _, _, rfl, _⟩ := h; exact ⟨rfl, rfl⟩
  | execute id f =>
    obtain ⟨_, _, _, _, _, _, _, _, _, _, _, rfl, _⟩ := execute_inv h; exact ⟨rfl, rfl⟩
  | close id =>
    simp only [step, execClose, bind_ok, Except.ok.injEq, Prod.mk.injEq] at h
    obtain ⟨_, _, _, _, _, _, _, _, rfl, _⟩ := h; exact ⟨rfl, rfl⟩
  | setConfig c =>
    simp only [step, execSetConfig, Config.intoChecked, bind_ok, Except.ok.injEq, Prod.mk.injEq] at h
    obtain ⟨_, _, _, ⟨_, _, _, _, rfl⟩, rfl, _⟩ := h; exact ⟨rfl, rfl⟩

/-- **C100.** The DAO of dao-proposal-condorcet stays, its configuration is the one set last. -/
theorem C100_last {s0 s : State} {b0 b : Block} {log : List Event} (h : Run s0 b0 log s b) :
    s.dao = s0.dao ∧ s.config = value setsConfig s0.config (log.map (·.call)) := by
  induction h with
  | refl => exact ⟨rfl, rfl⟩
  | step _ _ hs ih =>
    obtain ⟨h1, h2⟩ := step_settings hs
    rw [List.map_cons, value_cons, ← ih.2]
    exact ⟨h1.trans ih.1, h2⟩

end Condorcet
end Verif
