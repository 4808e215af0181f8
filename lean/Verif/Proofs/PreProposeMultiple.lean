import Verif.Model.PreProposeModules
import Verif.Proofs.PreProposeLaws
import Verif.Props.Multiple
/-! dao-proposal-multiple obeys the laws of a proposal module. -/

namespace Verif.Multiple
open Verif
open Verif.Voting hiding Vote Votes
open Verif.Spec (Edge Path Final)
open Verif.PrePropose (Reports multipleCompleted hookOf)

theorem currentStatus_of_final {p : Proposal} {b : Block} {st : Status}
    (h : p.currentStatus b = .ok st) (hf : Final st) : p.status = st := by
  unfold Proposal.currentStatus at h
  split at h
  · simp only [bind_ok] at h
    obtain ⟨x, _, h⟩ := h
    split at h
    · split at h
      · simp only [bind_ok] at h
        obtain ⟨e, _, h⟩ := h
        split at h <;> (injection h with h; subst h; exact False.elim hf)
      · injection h with h; subst h; exact False.elim hf
    · split at h
      · injection h with h; subst h; exact False.elim hf
      · simp only [bind_ok] at h
        obtain ⟨e, _, h⟩ := h
        split at h <;> (injection h with h; subst h; exact False.elim hf)
  · split at h <;> (injection h with h; subst h; exact False.elim hf)
  · injection h

/-- No proposal became final. -/
def NoNew (s s' : State) : Prop :=
  ∀ id p', s'.proposals.get id = some p' → Final p'.status →
    ∃ p, s.proposals.get id = some p ∧ p.status = p'.status

theorem NoNew.same {s s' : State} (h : s'.proposals = s.proposals) : NoNew s s' := by
  intro id p' hp hf
  rw [h] at hp
  exact ⟨p', hp, rfl⟩

theorem noNew_vote {s s' : State} {env : Env} {voter : Addr} {id : Nat} {v : Vote} {r : Option Nat} {out : Out}
    (h : execVote s env voter id v r = .ok (s', out)) : NoNew s s' := by
  obtain ⟨p, power, w, votes, st, hp, _, _, _, _, _, _, _, hst, rfl, _⟩ := execVote_inv h
  intro id' p' hp' hf
  simp only [AMap.get_set] at hp'
  split at hp'
  · rename_i he; subst he
    injection hp' with hp'; subst hp'
    have he := currentStatus_of_final hst hf
    exact ⟨p, hp, he⟩
  · exact ⟨p', hp', rfl⟩

theorem completed_hooks {h : Hooks.HookList} {id : Nat} {x : Addr} :
    multipleCompleted (newProposalHooks h id x) = [] := by
  apply List.filterMap_eq_nil_iff.2
  intro m hm
  simp only [newProposalHooks, Hooks.prepareHooks, List.mem_map] at hm
  obtain ⟨y, _, rfl⟩ := hm; rfl

theorem completed_status {h : Hooks.HookList} {id : Nat} {a b : Status} :
    multipleCompleted (statusChangedHooks h id a b) = [] := by
  apply List.filterMap_eq_nil_iff.2
  intro m hm
  unfold statusChangedHooks at hm
  split at hm
  · simp at hm
  · simp only [Hooks.prepareHooks, List.mem_map] at hm
    obtain ⟨y, _, rfl⟩ := hm; rfl

theorem completed_vote {h : Hooks.HookList} {id : Nat} {a : Addr} {v : Vote} :
    multipleCompleted (newVoteHooks h id a v) = [] := by
  apply List.filterMap_eq_nil_iff.2
  intro m hm
  simp only [newVoteHooks, Hooks.prepareHooks, List.mem_map] at hm
  obtain ⟨y, _, rfl⟩ := hm; rfl

theorem completed_completed {p : CreationPolicy} {id : Nat} {st : Status} :
    multipleCompleted (completedHooks p id st) = hookOf p id st := by
  cases p <;> rfl

theorem completed_append (l l' : List SubMsg) :
    multipleCompleted (l ++ l') = multipleCompleted l ++ multipleCompleted l' := by
  simp [multipleCompleted, List.filterMap_append]

theorem completed_initial {i : PreProposeInfo} : multipleCompleted (initialPolicy i).2 = [] := by
  cases i <;> rfl

theorem completed_execVote {s s' : State} {env : Env} {voter : Addr} {id : Nat} {v : Vote}
    {r : Option Nat} {out : Out} (h : execVote s env voter id v r = .ok (s', out)) :
    multipleCompleted out.msgs = [] := by
  obtain ⟨p, power, w, votes, st, _, _, _, _, _, _, _, _, _, rfl, rfl⟩ := execVote_inv h
  rw [completed_append, completed_status, completed_vote]; rfl

/-- What a call completes. -/
theorem step_completed {s s' : State} {env : Env} {call : Call} {out : Out}
    (h : step s env call = .ok (s', out)) :
    (multipleCompleted out.msgs = [] ∧ NoNew s s') ∨
      ∃ id st st' p, multipleCompleted out.msgs = hookOf s.policy id st ∧ s.proposals.get id = some p ∧
        ¬ Final p.status ∧ Reports st st' ∧
        s'.proposals = s.proposals.set id { p with status := st' } := by
  cases call with
  | propose g c m v z =>
    left
    obtain ⟨proposer, choices, total, st, s1, _, _, _, _, h4, h5, h6, h7, rfl, _, h9⟩ := execPropose_inv h
    have hn : NoNew s { s with
        count := s.count + 1
        proposals := s.proposals.set (s.count + 1)
          { freshProposal s.config env.block proposer c choices total with status := st } } := by
      intro id' p' hp' hf
      simp only [AMap.get_set] at hp'
      split at hp'
      · injection hp' with hp'; subst hp'
        have := currentStatus_of_final h6 hf
        simp only at hf
        rw [← this] at hf
        exact False.elim hf
      · exact ⟨p', hp', rfl⟩
    rcases h9 with ⟨_, rfl, hm⟩ | ⟨v, r, out', _, hv, hm⟩
    · exact ⟨by rw [hm]; exact completed_hooks, hn⟩
    · refine ⟨by rw [hm, completed_append, completed_hooks, completed_execVote hv]; rfl, ?_⟩
      intro id' p' hp' hf
      obtain ⟨q, hq, hst⟩ := noNew_vote hv id' p' hp' hf
      obtain ⟨q', hq', hst'⟩ := hn id' q hq (by rw [hst]; exact hf)
      exact ⟨q', hq', hst'.trans hst⟩
  | vote id v r => exact Or.inl ⟨completed_execVote h, noNew_vote h⟩
  | execute id f =>
    right
    obtain ⟨p, st, st', msgs, hp, hst, hwm, hm, hst', _, rfl, hms, _⟩ := execExecute_inv h
    refine ⟨id, .executed, st', p, ?_, hp, ?_, ?_, rfl⟩
    · rcases hms with ⟨_, _, hms⟩ | ⟨_, _, _, rid, hms⟩
      · rw [hms, completed_append, completed_status, completed_completed]; rfl
      · rw [hms]
        have : ∀ (x : Msg) (y : Option Nat) (l : List SubMsg), multipleCompleted (⟨x, y⟩ :: l) =
            multipleCompleted [⟨x, y⟩] ++ multipleCompleted l := fun x y l => completed_append [_] l
        rw [this, completed_append, completed_status, completed_completed]; rfl
    · intro hf
      have := currentStatus_final hst hf
      rw [← this] at hf
      cases hm with
      | close => exact hf
      | veto => rcases hst' with h | h <;> cases h
      | exec h _ => rcases h with rfl | ⟨_, _, rfl, _⟩ <;> exact hf
    · rcases hst' with rfl | rfl
      · exact .executed
      · exact .failed
  | close id =>
    right
    obtain ⟨p, hp, hst, rfl, rfl⟩ := execClose_inv h
    refine ⟨id, .closed, .closed, p, ?_, hp, ?_, .closed, rfl⟩
    · simp only
      rw [completed_append, completed_status, completed_completed]; rfl
    · intro hf
      have := currentStatus_final hst hf
      rw [← this] at hf; exact hf
  | veto id =>
    right
    obtain ⟨p, st, hp, hst, hm, rfl, rfl⟩ := execVeto_inv h
    refine ⟨id, .vetoed, .vetoed, p, ?_, hp, ?_, .vetoed, rfl⟩
    · simp only
      rw [completed_append, completed_status, completed_completed]; rfl
    · intro hf
      have := currentStatus_final hst hf
      rw [← this] at hf
      cases hm with
      | veto v hv hs h => rcases h with ⟨rfl, _⟩ | ⟨_, rfl, _⟩ <;> exact hf
      | exec _ h' => rcases h' with h | h <;> cases h
  | updateRationale id' r =>
    unfold step execUpdateRationale at h
    simp only [bind_ok, orErr_ok, Except.ok.injEq, Prod.mk.injEq] at h
    obtain ⟨b, hb, rfl, rfl⟩ := h
    exact Or.inl ⟨rfl, .same rfl⟩
  | updateConfig c =>
    unfold step execUpdateConfig at h
    simp only [bind_ok, require_ok, Except.ok.injEq, Prod.mk.injEq] at h
    obtain ⟨_, _, _, hv, rfl, rfl⟩ := h
    exact Or.inl ⟨rfl, .same rfl⟩
  | updatePreProposeInfo i =>
    unfold step execUpdatePolicy at h
    simp only [bind_ok, require_ok, Except.ok.injEq, Prod.mk.injEq] at h
    obtain ⟨_, _, rfl, rfl⟩ := h
    exact Or.inl ⟨completed_initial, .same rfl⟩
  | addProposalHook a =>
    unfold step execAddProposalHook at h
    simp only [bind_ok, require_ok, Except.ok.injEq, Prod.mk.injEq] at h
    obtain ⟨_, _, _, _, rfl, rfl⟩ := h
    exact Or.inl ⟨rfl, .same rfl⟩
  | removeProposalHook a =>
    unfold step execRemoveProposalHook at h
    simp only [bind_ok, require_ok, Except.ok.injEq, Prod.mk.injEq] at h
    obtain ⟨_, _, _, _, rfl, rfl⟩ := h
    exact Or.inl ⟨rfl, .same rfl⟩
  | addVoteHook a =>
    unfold step execAddVoteHook at h
    simp only [bind_ok, require_ok, Except.ok.injEq, Prod.mk.injEq] at h
    obtain ⟨_, _, _, _, rfl, rfl⟩ := h
    exact Or.inl ⟨rfl, .same rfl⟩
  | removeVoteHook a =>
    unfold step execRemoveVoteHook at h
    simp only [bind_ok, require_ok, Except.ok.injEq, Prod.mk.injEq] at h
    obtain ⟨_, _, _, _, rfl, rfl⟩ := h
    exact Or.inl ⟨rfl, .same rfl⟩
  | replyFailedProposalHook i =>
    unfold step replyProposalHook at h
    simp only [bind_ok, Except.ok.injEq, Prod.mk.injEq, Prod.exists] at h
    obtain ⟨_, _, _, rfl, rfl⟩ := h
    exact Or.inl ⟨rfl, .same rfl⟩
  | replyFailedVoteHook i =>
    unfold step replyVoteHook at h
    simp only [bind_ok, Except.ok.injEq, Prod.mk.injEq, Prod.exists] at h
    obtain ⟨_, _, _, rfl, rfl⟩ := h
    exact Or.inl ⟨rfl, .same rfl⟩
  | replyPreProposeInstantiated a =>
    simp only [step, Except.ok.injEq, Prod.mk.injEq] at h
    obtain ⟨rfl, rfl⟩ := h
    exact Or.inl ⟨rfl, .same rfl⟩
  | replyFailedPreProposeHook =>
    simp only [step, replyPreProposeFailed] at h
    split at h
    · simp at h
    · simp only [Except.ok.injEq, Prod.mk.injEq] at h
      obtain ⟨rfl, rfl⟩ := h
      exact Or.inl ⟨rfl, .same rfl⟩

/-- Only who the creation policy permits creates a proposal. -/
theorem newId_by {s s' : State} {env : Env} {call : Call} {out : Out}
    (h : step s env call = .ok (s', out)) :
    (out.newId = none ∨ s.policy.isPermitted env.sender = true) := by
  cases call with
  | propose g c m v z =>
    obtain ⟨_, _, _, _, _, h2, _⟩ := execPropose_inv h
    exact Or.inr h2
  | vote id v r =>
    obtain ⟨p, power, w, votes, st, _, _, _, _, _, _, _, _, _, rfl, rfl⟩ := execVote_inv h
    exact Or.inl rfl
  | updateRationale id' r =>
    unfold step execUpdateRationale at h
    simp only [bind_ok, orErr_ok, Except.ok.injEq, Prod.mk.injEq] at h
    obtain ⟨b, hb, rfl, rfl⟩ := h
    exact Or.inl rfl
  | execute id' f =>
    obtain ⟨p, st, st', msgs, hp, hst, hwm, hm, _, _, rfl, _, hn⟩ := execExecute_inv h
    exact Or.inl hn
  | close id' =>
    obtain ⟨p, hp, hst, rfl, rfl⟩ := execClose_inv h
    exact Or.inl rfl
  | veto id' =>
    obtain ⟨p, st, hp, hst, hm, rfl, rfl⟩ := execVeto_inv h
    exact Or.inl rfl
  | updateConfig c =>
    unfold step execUpdateConfig at h
    simp only [bind_ok, require_ok, Except.ok.injEq, Prod.mk.injEq] at h
    obtain ⟨_, _, _, hv, rfl, rfl⟩ := h
    exact Or.inl rfl
  | updatePreProposeInfo i =>
    unfold step execUpdatePolicy at h
    simp only [bind_ok, require_ok, Except.ok.injEq, Prod.mk.injEq] at h
    obtain ⟨_, _, rfl, rfl⟩ := h
    exact Or.inl rfl
  | addProposalHook a =>
    unfold step execAddProposalHook at h
    simp only [bind_ok, require_ok, Except.ok.injEq, Prod.mk.injEq] at h
    obtain ⟨_, _, _, _, rfl, rfl⟩ := h
    exact Or.inl rfl
  | removeProposalHook a =>
    unfold step execRemoveProposalHook at h
    simp only [bind_ok, require_ok, Except.ok.injEq, Prod.mk.injEq] at h
    obtain ⟨_, _, _, _, rfl, rfl⟩ := h
    exact Or.inl rfl
  | addVoteHook a =>
    unfold step execAddVoteHook at h
    simp only [bind_ok, require_ok, Except.ok.injEq, Prod.mk.injEq] at h
    obtain ⟨_, _, _, _, rfl, rfl⟩ := h
    exact Or.inl rfl
  | removeVoteHook a =>
    unfold step execRemoveVoteHook at h
    simp only [bind_ok, require_ok, Except.ok.injEq, Prod.mk.injEq] at h
    obtain ⟨_, _, _, _, rfl, rfl⟩ := h
    exact Or.inl rfl
  | replyFailedProposalHook i =>
    unfold step replyProposalHook at h
    simp only [bind_ok, Except.ok.injEq, Prod.mk.injEq, Prod.exists] at h
    obtain ⟨_, _, _, rfl, rfl⟩ := h
    exact Or.inl rfl
  | replyFailedVoteHook i =>
    unfold step replyVoteHook at h
    simp only [bind_ok, Except.ok.injEq, Prod.mk.injEq, Prod.exists] at h
    obtain ⟨_, _, _, rfl, rfl⟩ := h
    exact Or.inl rfl
  | replyPreProposeInstantiated a =>
    simp only [step, Except.ok.injEq, Prod.mk.injEq] at h
    obtain ⟨rfl, rfl⟩ := h
    exact Or.inl rfl
  | replyFailedPreProposeHook =>
    simp only [step, replyPreProposeFailed] at h
    split at h
    · simp at h
    · simp only [Except.ok.injEq, Prod.mk.injEq] at h
      obtain ⟨rfl, rfl⟩ := h
      exact Or.inl rfl

theorem module_step {s s' : State} {e : Env} {c : Call} {o : PrePropose.ModOut}
    (h : PrePropose.multiple.step s e c = .ok (s', o)) :
    ∃ o1, step s e c = .ok (s', o1) ∧ o = ⟨o1.newId, multipleCompleted o1.msgs⟩ := by
  obtain ⟨⟨s1, o1⟩, h1, h2⟩ := (bind_ok _ _ _).mp h
  have h3 : ((s1, (⟨o1.newId, multipleCompleted o1.msgs⟩ : PrePropose.ModOut)) : State × PrePropose.ModOut) = (s', o) := by
    injection h2
  injection h3 with h3 h4
  subst h3
  exact ⟨o1, h1, h4.symm⟩

theorem lawful : PrePropose.LawfulBy PrePropose.multiple Inv where
  init_inv := by
    rintro b s ⟨env, c, i, out, _, h⟩
    exact inv_init h
  step_inv := by
    intro s s' e c o hi h
    obtain ⟨o1, h1, _⟩ := module_step h
    exact inv_run (.step .refl (b1 := e.block) (Block.le_refl _) h1) hi
  called := fun _ _ => ⟨rfl, rfl⟩
  count_step := by
    intro s s' e c o hi h
    obtain ⟨o1, h1, rfl⟩ := module_step h
    exact newId_step hi h1
  propose_new := by
    intro s s' e a p o h
    obtain ⟨o1, h1, rfl⟩ := module_step h
    obtain ⟨proposer, choices, total, st, s1, h2, h3, _, _, _, _, _, _, _, h8, _⟩ := execPropose_inv h1
    refine ⟨h8, ?_⟩
    change s.policy = _
    unfold resolveProposer at h3
    unfold CreationPolicy.isPermitted at h2
    cases hp : s.policy with
    | anyone => rw [hp] at h3; cases h3
    | module x =>
      rw [hp] at h2
      have h2 : e.sender = x := by simpa using h2
      rw [← h2]; rfl
  new_by := by
    intro s s' e c o h hne
    obtain ⟨o1, h1, rfl⟩ := module_step h
    have hper : s.policy.isPermitted e.sender = true := by
      rcases newId_by h1 with h2 | h2
      · exact absurd h2 hne
      · exact h2
    change s.policy = _ ∨ s.policy = _
    unfold CreationPolicy.isPermitted at hper
    cases hp : s.policy with
    | anyone => exact .inl rfl
    | module x =>
      rw [hp] at hper
      have hper : e.sender = x := by simpa using hper
      right; rw [← hper]; rfl
  status_count := by
    intro s id st hi h
    change (s.proposals.get id).map _ = _ at h
    have : (s.proposals.get id).isSome = true := by
      cases hg : s.proposals.get id with
      | none => rw [hg] at h; cases h
      | some p => rfl
    exact ((hi.ids id).1 this).2
  final_stays := by
    intro s s' e c o id st hi h hs hf
    obtain ⟨o1, h1, _⟩ := module_step h
    change (s.proposals.get id).map _ = _ at hs
    change (AMap.get (State.proposals s') id).map _ = _
    cases hg : s.proposals.get id with
    | none => rw [hg] at hs; cases hs
    | some p =>
      rw [hg] at hs
      injection hs with hs; subst hs
      obtain ⟨p', h3, _, h4⟩ := run_prop (.step .refl (b1 := e.block) (Block.le_refl _) h1) hi hg
      rw [h3, Option.map_some, h4.final hf]
  completed := by
    intro s s' e c o hi h
    obtain ⟨o1, h1, rfl⟩ := module_step h
    rcases step_completed h1 with ⟨h2, h3⟩ | ⟨id, st, st', p, h2, h3, h4, h5, h6⟩
    · left
      refine ⟨h2, ?_⟩
      intro id st hst hf
      change (AMap.get (State.proposals s') id).map _ = _ at hst
      change (s.proposals.get id).map _ = _
      cases hg : AMap.get (State.proposals s') id with
      | none => rw [hg] at hst; cases hst
      | some p' =>
        rw [hg] at hst
        injection hst with hst; subst hst
        obtain ⟨p, hp, he⟩ := h3 id p' hg hf
        rw [hp, Option.map_some, he]
    · right
      refine ⟨id, st, st', p.status, ?_, ?_, h4, ?_, h5, ?_⟩
      · change multipleCompleted o1.msgs = _
        rw [h2]; rfl
      · change (s.proposals.get id).map _ = _
        rw [h3]; rfl
      · change (AMap.get (State.proposals s') id).map _ = _
        rw [h6, AMap.get_set_self]; rfl
      · intro id' hne
        change (AMap.get (State.proposals s') id').map _ = (s.proposals.get id').map _
        rw [h6, AMap.get_set_ne _ _ (Ne.symm hne)]
  failed := by
    intro s s' hi h
    obtain ⟨⟨s1, o1⟩, h1, h2⟩ := (bind_ok _ _ _).mp h
    injection h2 with h2
    subst h2
    have hi' := inv_run (.step .refl (env := ⟨⟨0, 0⟩, 0, fun _ _ _ => 0, fun _ => 0, true⟩)
      (b1 := ⟨0, 0⟩) (call := .replyFailedPreProposeHook) (Block.le_refl _) h1) hi
    unfold replyPreProposeFailed at h1
    split at h1
    · cases h1
    · simp only [Except.ok.injEq, Prod.mk.injEq] at h1
      obtain ⟨rfl, _⟩ := h1
      exact ⟨hi', rfl, rfl, rfl⟩
  failed_live := by
    intro s a h
    change s.policy = _ at h
    refine ⟨{ s with policy := .anyone }, ?_⟩
    change (replyPreProposeFailed s >>= fun x => .ok x.1) = _
    unfold replyPreProposeFailed
    rw [h]
    rfl

end Verif.Multiple
