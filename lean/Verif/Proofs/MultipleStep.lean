import Verif.Proofs.MultipleDecision
/-! Every successful call of dao-proposal-multiple as one or two elementary changes. -/

namespace Verif.Multiple
open Verif
open Verif.Voting hiding Vote Votes

/-- Why a status is overwritten by close, veto or execute. -/
inductive StatusMove (env : Env) (p : Proposal) : Status → Status → Prop where
  | close : StatusMove env p .rejected .closed
  | veto {st : Status} (v : VetoConfig) (hv : p.veto = some v) (hs : env.sender = v.vetoer)
      (h : (st = .opened ∧ v.vetoBeforePassed = true) ∨
        (∃ e, st = .vetoTimelock e ∧ e.isExpired env.block = false)) : StatusMove env p st .vetoed
  | exec {st st' : Status}
      (h : st = .passed ∨ ∃ e v, st = .vetoTimelock e ∧ p.veto = some v ∧ v.vetoer = env.sender ∧
        v.earlyExecute = true)
      (h' : st' = .executed ∨ st' = .executionFailed) : StatusMove env p st st'

/-- Elementary changes of the state. -/
inductive Micro (env : Env) (s : State) : State → Prop where
  | other {s' : State} (h1 : s'.proposals = s.proposals) (h2 : s'.count = s.count)
      (h3 : s'.ballots = s.ballots) (h4 : validateConfig s.config = .ok () →
        validateConfig s'.config = .ok ()) : Micro env s s'
  | rationale {id : Nat} {b : Ballot} {r : Option Nat}
      (hb : s.ballots.get (id, env.sender) = some b) :
      Micro env s { s with ballots := s.ballots.set (id, env.sender) { b with rationale := r } }
  | vote {voter : Addr} {id : Nat} {v : Vote} {r : Option Nat} {p : Proposal} {power : Nat}
      {w votes : Votes} {st : Status}
      (hp : s.proposals.get id = some p) (hv : v < p.choices.length)
      (hexp : p.expiration.isExpired env.block = false)
      (hpow : power = env.power s.config.dao voter p.startHeight) (hlt : power < U128)
      (h0 : power ≠ 0) (hw : withdrawBallot p (s.ballots.get (id, voter)) v = .ok w)
      (hadd : w.addVote v power = .ok votes)
      (hst : Proposal.currentStatus { p with votes := votes } env.block = .ok st) :
      Micro env s { s with
        proposals := s.proposals.set id { p with votes := votes, status := st }
        ballots := s.ballots.set (id, voter) ⟨power, v, r⟩ }
  | create {proposer : Addr} {content : Nat} {options : List (Nat × List Nat)}
      {choices : List Choice} {total : Nat} {st : Status}
      (hch : intoChecked options = .ok choices)
      (ht : total = env.totalNow s.config.dao) (hlt : total < U128)
      (hst : (freshProposal s.config env.block proposer content choices total).currentStatus env.block
        = .ok st) (hc : s.count + 1 < U64) :
      Micro env s { s with
        count := s.count + 1
        proposals := s.proposals.set (s.count + 1)
          { freshProposal s.config env.block proposer content choices total with status := st } }
  | status {id : Nat} {p : Proposal} {st st' : Status} (hp : s.proposals.get id = some p)
      (hcur : p.currentStatus env.block = .ok st) (hm : StatusMove env p st st') :
      Micro env s { s with proposals := s.proposals.set id { p with status := st' } }

theorem updateStatus_ok {p p' : Proposal} {b : Block} :
    p.updateStatus b = .ok p' ↔ ∃ st, p.currentStatus b = .ok st ∧ p' = { p with status := st } := by
  unfold Proposal.updateStatus
  simp only [bind_ok, Except.ok.injEq, @eq_comm _ p']

theorem queryPower_ok {env : Env} {d a : Addr} {h n : Nat} (hq : queryPower env d a h = .ok n) :
    n = env.power d a h ∧ n < U128 := by
  unfold queryPower at hq
  split at hq
  · injection hq with hq; subst hq; exact ⟨rfl, by assumption⟩
  · simp at hq

theorem queryTotal_ok {env : Env} {d : Addr} {n : Nat} (hq : queryTotal env d = .ok n) :
    n = env.totalNow d ∧ n < U128 := by
  unfold queryTotal at hq
  split at hq
  · injection hq with hq; subst hq; exact ⟨rfl, by assumption⟩
  · simp at hq

theorem execVote_inv {s s' : State} {env : Env} {voter : Addr} {id : Nat} {v : Vote}
    {r : Option Nat} {out : Out} (h : execVote s env voter id v r = .ok (s', out)) :
    ∃ (p : Proposal) (power : Nat) (w votes : Votes) (st : Status),
      s.proposals.get id = some p ∧ v < p.choices.length ∧
      p.expiration.isExpired env.block = false ∧ power = env.power s.config.dao voter p.startHeight ∧ power < U128 ∧ power ≠ 0 ∧
      withdrawBallot p (s.ballots.get (id, voter)) v = .ok w ∧ w.addVote v power = .ok votes ∧
      Proposal.currentStatus { p with votes := votes } env.block = .ok st ∧
      s' = { s with
        proposals := s.proposals.set id { p with votes := votes, status := st }
        ballots := s.ballots.set (id, voter) ⟨power, v, r⟩ } ∧
      out = { msgs := statusChangedHooks s.proposalHooks id p.status st
                  ++ newVoteHooks s.voteHooks id voter v } := by
  unfold execVote at h
  simp only [bind_ok, orErr_ok, require_ok, Bool.not_eq_true', decide_eq_true_eq,
    updateStatus_ok, Except.ok.injEq, Prod.mk.injEq] at h
  obtain ⟨p, hp, _, hv, _, hexp, power, hpow, _, h0, w, hw, votes, hadd, p', ⟨st, hst, rfl⟩, h1, h2⟩ := h
  obtain ⟨h3, h4⟩ := queryPower_ok hpow
  exact ⟨p, power, w, votes, st, hp, hv, hexp, h3, h4, h0, hw, hadd, hst, h1.symm, h2.symm⟩

theorem execVote_micro {s s' : State} {env : Env} {voter : Addr} {id : Nat} {v : Vote}
    {r : Option Nat} {out : Out} (h : execVote s env voter id v r = .ok (s', out)) :
    Micro env s s' := by
  obtain ⟨p, power, w, votes, st, hp, hv, hexp, h3, h4, h0, hw, hadd, hst, rfl, _⟩ := execVote_inv h
  exact .vote hp hv hexp h3 h4 h0 hw hadd hst

theorem execPropose_inv {s s' : State} {env : Env} {g : Option Addr} {content : Nat}
    {options : List (Nat × List Nat)} {vote : Option (Vote × Option Nat)} {z : Bool} {out : Out}
    (h : execPropose s env g content options vote z = .ok (s', out)) :
    ∃ (proposer : Addr) (choices : List Choice) (total : Nat) (st : Status) (s1 : State),
      s.policy.isPermitted env.sender = true ∧ resolveProposer g s.policy env.sender = .ok proposer ∧
      env.active = true ∧ intoChecked options = .ok choices ∧ total = env.totalNow s.config.dao ∧ total < U128 ∧
      (freshProposal s.config env.block proposer content choices total).currentStatus env.block
        = .ok st ∧ s.count + 1 < U64 ∧
      s1 = { s with
        count := s.count + 1
        proposals := s.proposals.set (s.count + 1)
          { freshProposal s.config env.block proposer content choices total with status := st } } ∧
      out.newId = some (s.count + 1) ∧
      ((vote = none ∧ s' = s1 ∧ out.msgs = newProposalHooks s.proposalHooks (s.count + 1) proposer) ∨
       (∃ v r out', vote = some (v, r) ∧ execVote s1 env proposer (s.count + 1) v r = .ok (s', out') ∧
          out.msgs = newProposalHooks s.proposalHooks (s.count + 1) proposer ++ out'.msgs)) := by
  unfold execPropose at h
  simp only [bind_ok, require_ok, updateStatus_ok, add64_ok] at h
  obtain ⟨_, h1, proposer, h2, _, h3, choices, h3a, total, h4, p, ⟨st, h5, rfl⟩, id, ⟨h6, rfl⟩, _, h7, h8⟩ := h
  obtain ⟨h4a, h4b⟩ := queryTotal_ok h4
  refine ⟨proposer, choices, total, st, _, h1, h2, h3, h3a, h4a, h4b, h5, h6, rfl, ?_⟩
  cases vote with
  | none =>
    simp only [Except.ok.injEq, Prod.mk.injEq] at h8
    obtain ⟨rfl, rfl⟩ := h8
    exact ⟨rfl, Or.inl ⟨rfl, rfl, rfl⟩⟩
  | some vr =>
    obtain ⟨v, r⟩ := vr
    simp only [bind_ok, Except.ok.injEq, Prod.mk.injEq, Prod.exists] at h8
    obtain ⟨s2, out', h9, rfl, rfl⟩ := h8
    exact ⟨rfl, Or.inr ⟨v, r, out', rfl, h9, rfl⟩⟩

theorem execVeto_inv {s s' : State} {env : Env} {id : Nat} {out : Out}
    (h : execVeto s env id = .ok (s', out)) :
    ∃ (p : Proposal) (st : Status), s.proposals.get id = some p ∧
      p.currentStatus env.block = .ok st ∧ StatusMove env p st .vetoed ∧
      s' = { s with proposals := s.proposals.set id { p with status := .vetoed } } ∧
      out = { msgs := statusChangedHooks s.proposalHooks id st .vetoed
                  ++ completedHooks s.policy id .vetoed } := by
  unfold execVeto at h
  simp only [bind_ok, orErr_ok, require_ok, updateStatus_ok, decide_eq_true_eq] at h
  obtain ⟨p, hp, p', ⟨st, hst, rfl⟩, v, hv, _, hs, _, hm, h⟩ := h
  simp only [Except.ok.injEq, Prod.mk.injEq] at h
  obtain ⟨h1, h2⟩ := h
  refine ⟨p, st, hp, hst, .veto v hv hs ?_, h1.symm, h2.symm⟩
  unfold vetoCheck at hm
  cases st with
  | opened => left; simpa using hm
  | vetoTimelock e => right; exact ⟨e, rfl, by simpa using hm⟩
  | _ => simp at hm

/-- The conditions of a successful `execute`. -/
theorem execExecute_inv {s s' : State} {env : Env} {id : Nat} {f : Bool} {out : Out}
    (h : execExecute s env id f = .ok (s', out)) :
    ∃ (p : Proposal) (st st' : Status) (msgs : List Nat), s.proposals.get id = some p ∧
      p.currentStatus env.block = .ok st ∧ winningMsgs p = .ok msgs ∧ StatusMove env p st st' ∧
      (st' = .executed ∨ st' = .executionFailed) ∧
      (st = .passed → senderCanExecute s env p = .ok true) ∧
      s' = { s with proposals := s.proposals.set id { p with status := st' } } ∧
      ((msgs = [] ∧ st' = .executed ∧
          out.msgs = statusChangedHooks s.proposalHooks id st .executed
                ++ completedHooks s.policy id .executed) ∨
       (msgs ≠ [] ∧ (st' = .executionFailed ↔ f = true) ∧ (f = true → s.config.closeOnExecutionFailure = true) ∧
        ∃ rid, out.msgs = ⟨.executeOnDao s.config.dao msgs, rid⟩ ::
              (statusChangedHooks s.proposalHooks id st .executed
                ++ completedHooks s.policy id .executed))) ∧ out.newId = none := by
  unfold execExecute at h
  simp only [bind_ok, orErr_ok, updateStatus_ok] at h
  obtain ⟨p, hp, can, hcan, p', ⟨st, hst, rfl⟩, _, hm, msgs, hwm, h⟩ := h
  have hcanp : st = .passed → senderCanExecute s env p = .ok true := by
    intro hs; subst hs
    simp only [executeCheck, require_ok] at hm
    rw [hm] at hcan; exact hcan
  have hmove : st = .passed ∨ ∃ e v, st = .vetoTimelock e ∧ p.veto = some v ∧
      v.vetoer = env.sender ∧ v.earlyExecute = true := by
    cases st with
    | passed => exact Or.inl rfl
    | vetoTimelock e =>
      simp only [executeCheck, bind_ok, orErr_ok, require_ok, decide_eq_true_eq] at hm
      obtain ⟨v, hv, _, h1, h2⟩ := hm
      exact Or.inr ⟨e, v, rfl, hv, h1, h2⟩
    | _ => simp [executeCheck] at hm
  by_cases hmsgs : msgs = []
  · rw [if_pos hmsgs] at h
    simp only [Except.ok.injEq, Prod.mk.injEq] at h
    obtain ⟨h1, h2⟩ := h
    refine ⟨p, st, .executed, msgs, hp, hst, hwm, .exec hmove (Or.inl rfl), Or.inl rfl, hcanp, h1.symm, ?_, ?_⟩
    · left; subst h2; exact ⟨hmsgs, rfl, rfl⟩
    · subst h2; rfl
  · rw [if_neg hmsgs] at h
    split at h
    · rename_i hclose
      simp only [Except.ok.injEq, Prod.mk.injEq] at h
      obtain ⟨h1, h2⟩ := h
      refine ⟨p, st, if f then .executionFailed else .executed, msgs, hp, hst, hwm,
        .exec hmove ?_, ?_, hcanp, h1.symm, ?_, ?_⟩
      · cases f <;> simp
      · cases f <;> simp
      · right; subst h2
        refine ⟨hmsgs, ?_, fun _ => hclose, _, rfl⟩
        cases f <;> simp
      · subst h2; rfl
    · split at h
      · simp at h
      · rename_i hf
        simp only [Except.ok.injEq, Prod.mk.injEq] at h
        obtain ⟨h1, h2⟩ := h
        refine ⟨p, st, .executed, msgs, hp, hst, hwm, .exec hmove (Or.inl rfl), Or.inl rfl, hcanp, h1.symm, ?_, ?_⟩
        · right; subst h2
          refine ⟨hmsgs, ?_, ?_, _, rfl⟩
          · simp [hf]
          · intro hf'; exact absurd hf' hf
        · subst h2; rfl

theorem execClose_inv {s s' : State} {env : Env} {id : Nat} {out : Out}
    (h : execClose s env id = .ok (s', out)) :
    ∃ (p : Proposal), s.proposals.get id = some p ∧
      p.currentStatus env.block = .ok .rejected ∧
      s' = { s with proposals := s.proposals.set id { p with status := .closed } } ∧
      out = { msgs := statusChangedHooks s.proposalHooks id .rejected .closed
                  ++ completedHooks s.policy id .closed } := by
  unfold execClose at h
  simp only [bind_ok, orErr_ok, require_ok, updateStatus_ok, decide_eq_true_eq, Except.ok.injEq,
    Prod.mk.injEq] at h
  obtain ⟨p, hp, p', ⟨st, hst, rfl⟩, _, hs, h1, h2⟩ := h
  simp only at hs
  subst hs
  exact ⟨p, hp, hst, h1.symm, h2.symm⟩

/-- The elementary changes a successful call makes. -/
theorem step_micro {s s' : State} {env : Env} {call : Call} {out : Out}
    (h : step s env call = .ok (s', out)) :
    Micro env s s' ∨ ∃ s1, s1.config = s.config ∧ Micro env s s1 ∧ Micro env s1 s' := by
  cases call with
  | propose g c m v z =>
    obtain ⟨proposer, choices, total, st, s1, _, _, _, h3, h4, h5, h6, h7, rfl, _, h9⟩ := execPropose_inv h
    have hm := Micro.create (env := env) (s := s) h3 h4 h5 h6 h7
    rcases h9 with ⟨_, rfl, _⟩ | ⟨v, r, out', _, hv, _⟩
    · exact Or.inl hm
    · refine Or.inr ⟨_, ?_, hm, execVote_micro hv⟩
      rfl
  | vote id v r => exact Or.inl (execVote_micro h)
  | updateRationale id r =>
    unfold step execUpdateRationale at h
    simp only [bind_ok, orErr_ok, Except.ok.injEq, Prod.mk.injEq] at h
    obtain ⟨b, hb, rfl, _⟩ := h
    exact Or.inl (.rationale hb)
  | execute id f =>
    obtain ⟨p, st, st', msgs, hp, hst, _, hm, _, _, rfl, _⟩ := execExecute_inv h
    exact Or.inl (.status hp hst hm)
  | close id =>
    obtain ⟨p, hp, hst, rfl, _⟩ := execClose_inv h
    exact Or.inl (.status hp hst .close)
  | veto id =>
    obtain ⟨p, st, hp, hst, hm, rfl, _⟩ := execVeto_inv h
    exact Or.inl (.status hp hst hm)
  | updateConfig c =>
    unfold step execUpdateConfig at h
    simp only [bind_ok, require_ok, Except.ok.injEq, Prod.mk.injEq] at h
    obtain ⟨_, _, _, hv, rfl, _⟩ := h
    exact Or.inl (.other rfl rfl rfl (fun _ => hv))
  | updatePreProposeInfo i =>
    unfold step execUpdatePolicy at h
    simp only [bind_ok, require_ok, Except.ok.injEq, Prod.mk.injEq] at h
    obtain ⟨_, _, rfl, _⟩ := h
    exact Or.inl (.other rfl rfl rfl id)
  | addProposalHook a =>
    unfold step execAddProposalHook at h
    simp only [bind_ok, require_ok, Except.ok.injEq, Prod.mk.injEq] at h
    obtain ⟨_, _, _, _, rfl, _⟩ := h
    exact Or.inl (.other rfl rfl rfl id)
  | removeProposalHook a =>
    unfold step execRemoveProposalHook at h
    simp only [bind_ok, require_ok, Except.ok.injEq, Prod.mk.injEq] at h
    obtain ⟨_, _, _, _, rfl, _⟩ := h
    exact Or.inl (.other rfl rfl rfl id)
  | addVoteHook a =>
    unfold step execAddVoteHook at h
    simp only [bind_ok, require_ok, Except.ok.injEq, Prod.mk.injEq] at h
    obtain ⟨_, _, _, _, rfl, _⟩ := h
    exact Or.inl (.other rfl rfl rfl id)
  | removeVoteHook a =>
    unfold step execRemoveVoteHook at h
    simp only [bind_ok, require_ok, Except.ok.injEq, Prod.mk.injEq] at h
    obtain ⟨_, _, _, _, rfl, _⟩ := h
    exact Or.inl (.other rfl rfl rfl id)
  | replyFailedProposalHook i =>
    unfold step replyProposalHook at h
    simp only [bind_ok, Except.ok.injEq, Prod.mk.injEq, Prod.exists] at h
    obtain ⟨_, _, _, rfl, _⟩ := h
    exact Or.inl (.other rfl rfl rfl id)
  | replyFailedVoteHook i =>
    unfold step replyVoteHook at h
    simp only [bind_ok, Except.ok.injEq, Prod.mk.injEq, Prod.exists] at h
    obtain ⟨_, _, _, rfl, _⟩ := h
    exact Or.inl (.other rfl rfl rfl id)
  | replyPreProposeInstantiated a =>
    simp only [step, Except.ok.injEq, Prod.mk.injEq] at h
    obtain ⟨rfl, _⟩ := h
    exact Or.inl (.other rfl rfl rfl id)
  | replyFailedPreProposeHook =>
    simp only [step, replyPreProposeFailed] at h
    split at h
    · simp at h
    · simp only [Except.ok.injEq, Prod.mk.injEq] at h
      obtain ⟨rfl, _⟩ := h
      exact Or.inl (.other rfl rfl rfl id)

/-- Induction over histories for properties kept by every elementary change. -/
theorem run_micro {P : State → Block → Prop} {s s' : State} {b b' : Block} {log : List Event}
    (hr : Run s b log s' b') (h0 : P s b)
    (hmono : ∀ s b b', P s b → b.le b' → P s b')
    (hstep : ∀ env s s', P s env.block → Micro env s s' → P s' env.block) : P s' b' := by
  induction hr with
  | refl => exact h0
  | step hr hb h ih =>
    have h1 := hmono _ _ _ ih hb
    rcases step_micro h with hm | ⟨s1, _, hm1, hm2⟩
    · exact hstep _ _ _ h1 hm
    · exact hstep _ _ _ (hstep _ _ _ h1 hm1) hm2

theorem run_block_le {s s' : State} {b b' : Block} {log : List Event} (hr : Run s b log s' b') :
    b.le b' := by
  induction hr with
  | refl => exact Block.le_refl _
  | step _ hb _ ih => exact Block.le_trans ih hb

end Verif.Multiple
