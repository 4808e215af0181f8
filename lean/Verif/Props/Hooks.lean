import Verif.Props.Single
import Verif.Spec.Hooks
/-!
# C17 and C60: hook lists
-/

namespace Verif.Hooks
open Verif Verif.Spec

/-- **C60.** Adding appends, and is refused for a receiver already registered. -/
theorem C60_add {h : HookList} {a : Addr} :
    (a ∈ items h → ∀ h', addHook h a ≠ .ok h') ∧
    (a ∉ items h → addHook h a = .ok (some (items h ++ [a]))) := by
  unfold addHook
  constructor
  · intro ha h'
    rw [if_pos (by simp [List.any_eq_true]; exact ha)]; simp
  · intro ha
    rw [if_neg (by simp [List.any_eq_true]; exact ha)]

theorem removeFirst_spec {a : Addr} {l l' : List Addr} (h : removeFirst a l = some l') :
    ∃ l1 l2, l = l1 ++ a :: l2 ∧ l' = l1 ++ l2 ∧ a ∉ l1 := by
  induction l generalizing l' with
  | nil => simp [removeFirst] at h
  | cons x xs ih =>
    simp only [removeFirst] at h
    by_cases hx : x = a
    · subst hx
      simp at h; subst h
      exact ⟨[], xs, rfl, rfl, by simp⟩
    · simp only [beq_iff_eq, hx, if_false, Option.map_eq_some_iff] at h
      obtain ⟨l'', h1, rfl⟩ := h
      obtain ⟨l1, l2, rfl, rfl, hn⟩ := ih h1
      exact ⟨x :: l1, l2, rfl, rfl, by simp [hn]; exact fun h => hx h.symm⟩

theorem removeFirst_none {a : Addr} {l : List Addr} (h : removeFirst a l = none) : a ∉ l := by
  induction l with
  | nil => simp
  | cons x xs ih =>
    simp only [removeFirst] at h
    by_cases hx : x = a
    · simp [hx] at h
    · simp only [beq_iff_eq, hx, if_false, Option.map_eq_none_iff] at h
      simp [ih h]; exact fun h => hx h.symm

/-- **C60.** Removing succeeds exactly for registered receivers and takes out that one, keeping the
order of the others. -/
theorem C60_remove {h : HookList} {a : Addr} :
    (a ∉ items h → ∀ h', removeHook h a ≠ .ok h') ∧
    (a ∈ items h → ∃ l', removeHook h a = .ok (some l') ∧ WithoutOne (items h) l' a) := by
  cases h with
  | none =>
    refine ⟨fun _ h' => ?_, fun ha => by simp [items] at ha⟩
    simp [removeHook, orErr]
  | some l =>
    simp only [items, Option.getD_some]
    cases hr : removeFirst a l with
    | none =>
      refine ⟨fun _ h' => ?_, fun ha => absurd ha (removeFirst_none hr)⟩
      simp only [removeHook, orErr, hr, ok_bind, error_bind]; simp
    | some l' =>
      obtain ⟨l1, l2, e1, e2, _⟩ := removeFirst_spec hr
      refine ⟨fun ha => ?_, fun _ => ⟨l', ?_, l1, l2, e1, e2⟩⟩
      · exact absurd (by rw [e1]; simp) ha
      · simp [removeHook, orErr, hr, pure_eq]

/-- **C60.** With no duplicates in the list, removing leaves exactly the other receivers. -/
theorem C60_remove_exact {h : HookList} {a : Addr} {h' : HookList} (hn : (items h).Nodup)
    (hr : removeHook h a = .ok h') : items h' = (items h).filter (fun x => decide (x ≠ a)) := by
  have ha : a ∈ items h := by
    by_cases ha : a ∈ items h
    · exact ha
    · exact absurd hr (C60_remove.1 ha h')
  obtain ⟨l', h1, l1, l2, e1, rfl⟩ := C60_remove.2 ha
  rw [h1] at hr; injection hr with hr; subst hr
  rw [e1] at hn ⊢
  simp only [items, Option.getD_some]
  have hn' := List.nodup_append.1 hn
  have hn2 := List.nodup_cons.1 hn'.2.1
  have f1 : l1.filter (fun x => decide (x ≠ a)) = l1 :=
    List.filter_eq_self.2 (fun x hx => by
      simp; intro he; subst he; exact hn'.2.2 x hx x (by simp) rfl)
  have f2 : l2.filter (fun x => decide (x ≠ a)) = l2 :=
    List.filter_eq_self.2 (fun x hx => by
      simp; intro he; subst he; exact hn2.1 hx)
  rw [List.filter_append, List.filter_cons, f1, f2]; simp

/-- **C60.** Every event notifies each registered receiver exactly once, in order of registration. -/
theorem C60_notified_in_order {α : Type} (h : HookList) (prep : Nat → Addr → α) (to : α → Addr)
    (hto : ∀ i a, to (prep i a) = a) : (prepareHooks h prep).map to = items h := by
  unfold prepareHooks
  rw [List.map_map]
  have : (to ∘ fun p : Addr × Nat => prep p.2 p.1) = Prod.fst := by
    funext p; simp [hto]
  rw [this, List.zipIdx_map_fst]

/-- Delivery failures of one event: the receivers get their index at sending time; each failure, in
order, triggers `reply`, which removes by that index from the list as it then is. -/
def replies (h : HookList) : List Nat → Res HookList
  | [] => .ok h
  | i :: is => do
    let (h', _) ← removeHookByIndex h i
    replies h' is

/-- The indices of the failing receivers, in order. -/
def failing (l : List Addr) (fails : Addr → Bool) : List Nat :=
  (l.zipIdx.filter (fun p => fails p.1)).map Prod.snd

theorem eraseIdx_append_cons {α : Type} (l1 : List α) (x : α) (l2 : List α) :
    (l1 ++ x :: l2).eraseIdx l1.length = l1 ++ l2 := by
  induction l1 with
  | nil => rfl
  | cons a l ih => simp [ih]

theorem filter_zipIdx_false {l : List Addr} {fails : Addr → Bool} (n : Nat)
    (h : ∀ a ∈ l, fails a = false) : (l.zipIdx n).filter (fun p => fails p.1) = [] := by
  rw [List.filter_eq_nil_iff]
  rintro ⟨a, i⟩ hm
  have := List.mem_zipIdx hm
  have ha : a ∈ l := by
    obtain ⟨_, _, h3⟩ := this
    rw [h3]; exact List.getElem_mem _
  simp [h a ha]

/-- **C17**, one failure (the full claim is false for several: `C17_false_two_failures`,
`C17_false_wrong_one`). If at most one receiver fails, the message succeeds and exactly that receiver
is removed. -/
theorem C17_one_failure_partial {l1 l2 : List Addr} {a : Addr} {fails : Addr → Bool}
    (hf : fails a = true) (h1 : ∀ x ∈ l1, fails x = false) (h2 : ∀ x ∈ l2, fails x = false) :
    replies (some (l1 ++ a :: l2)) (failing (l1 ++ a :: l2) fails)
      = .ok (some (survivors (l1 ++ a :: l2) fails)) := by
  have hs : survivors (l1 ++ a :: l2) fails = l1 ++ l2 := by
    unfold survivors
    have f1 : l1.filter (fun a => !fails a) = l1 :=
      List.filter_eq_self.2 (fun x hx => by simp [h1 x hx])
    have f2 : l2.filter (fun a => !fails a) = l2 :=
      List.filter_eq_self.2 (fun x hx => by simp [h2 x hx])
    rw [List.filter_append, List.filter_cons, f1, f2]; simp [hf]
  have hfail : failing (l1 ++ a :: l2) fails = [l1.length] := by
    unfold failing
    rw [List.zipIdx_append, List.filter_append, filter_zipIdx_false 0 h1, List.zipIdx_cons,
      List.filter_cons]
    simp only [hf, if_true]
    rw [filter_zipIdx_false _ h2]
    simp
  rw [hs, hfail]
  simp only [replies, removeHookByIndex, orErr, ok_bind]
  have : (l1 ++ a :: l2)[l1.length]? = some a := by simp
  simp only [this, pure_eq, ok_bind, eraseIdx_append_cons]

/-- **C17**: with no failure nothing changes. -/
theorem C17_no_failure {l : List Addr} {fails : Addr → Bool} (h : ∀ x ∈ l, fails x = false) :
    replies (some l) (failing l fails) = .ok (some l) := by
  unfold failing
  rw [filter_zipIdx_false 0 h]; rfl

/-- **C17 is false.** Two receivers that both fail: the second reply addresses an index that no longer
exists and the whole message aborts. -/
theorem C17_false_two_failures (a b : Addr) :
    replies (some [a, b]) (failing [a, b] (fun _ => true)) = .error .panic := by
  rfl

/-- **C17 is false.** Three receivers, the first two fail: the first and the third are removed; the
innocent third is evicted and the failing second stays. -/
theorem C17_false_wrong_one :
    replies (some [1, 2, 3]) (failing [1, 2, 3] (fun a => decide (a ≠ 3))) = .ok (some [2]) ∧
      survivors [1, 2, 3] (fun a => decide (a ≠ 3)) = [3] := by
  decide

/-- **C17.** What happens in general to the two-failure case: with a first failure at position `i` and a
second at `j > i`, the entry removed second is the one after the failing one. -/
theorem C17_second_removal_is_next {l1 l2 l3 : List Addr} {a b c : Addr} :
    replies (some (l1 ++ a :: (l2 ++ b :: c :: l3))) [l1.length, l1.length + 1 + l2.length]
      = .ok (some (l1 ++ (l2 ++ b :: l3))) := by
  simp only [replies, removeHookByIndex, orErr, ok_bind]
  have h1 : (l1 ++ a :: (l2 ++ b :: c :: l3))[l1.length]? = some a := by simp
  simp only [h1, pure_eq, ok_bind, eraseIdx_append_cons]
  have e : l1 ++ (l2 ++ b :: c :: l3) = (l1 ++ l2 ++ [b]) ++ c :: l3 := by simp
  have hl : l1.length + 1 + l2.length = (l1 ++ l2 ++ [b]).length := by simp; omega
  have h2 : ((l1 ++ l2 ++ [b]) ++ c :: l3)[(l1 ++ l2 ++ [b]).length]? = some c := by simp
  rw [e, hl]
  simp only [h2, ok_bind, eraseIdx_append_cons]
  simp

end Verif.Hooks

namespace Verif.Single
open Verif Verif.Spec Verif.Hooks

theorem addHook_nodup {h h' : HookList} {a : Addr} (hn : (items h).Nodup)
    (hr : addHook h a = .ok h') : (items h').Nodup := by
  by_cases ha : a ∈ items h
  · exact absurd hr (C60_add.1 ha h')
  · rw [C60_add.2 ha] at hr
    injection hr with hr; subst hr
    simp only [items, Option.getD_some]
    refine List.nodup_append.2 ⟨hn, by simp, ?_⟩
    intro x hx y hy; simp at hy; subst hy; intro he; subst he; exact ha hx

theorem removeHook_nodup {h h' : HookList} {a : Addr} (hn : (items h).Nodup)
    (hr : removeHook h a = .ok h') : (items h').Nodup := by
  rw [C60_remove_exact hn hr]
  exact hn.filter _

theorem removeIdx_nodup {h h' : HookList} {i : Nat} {a : Addr} (hn : (items h).Nodup)
    (hr : removeHookByIndex h i = .ok (h', a)) : (items h').Nodup := by
  unfold removeHookByIndex at hr
  simp only [bind_ok, orErr_ok] at hr
  obtain ⟨l, rfl, hr⟩ := hr
  split at hr
  · cases hr
  · simp only [pure_ok, Prod.mk.injEq] at hr
    obtain ⟨rfl, _⟩ := hr
    exact hn.sublist (List.eraseIdx_sublist _ _)

/-- **C60.** In every reachable state of dao-proposal-single both hook lists are free of duplicates. -/
theorem C60_no_duplicates {s : State} {b : Block} {log : List Event} (h : Reach s b log) :
    (items s.proposalHooks).Nodup ∧ (items s.voteHooks).Nodup := by
  obtain ⟨env, c, i, s0, out, h0, hr⟩ := h
  induction hr with
  | refl =>
    unfold instantiate at h0
    simp only [bind_ok, Except.ok.injEq, Prod.mk.injEq] at h0
    obtain ⟨_, hv, rfl, _⟩ := h0
    exact ⟨List.nodup_nil, List.nodup_nil⟩
  | @step s1 s2 b1 log env' call out' hr hb h ih =>
    obtain ⟨ih1, ih2⟩ := ih
    cases call with
    | addProposalHook a =>
      unfold step execAddProposalHook at h
      simp only [bind_ok, require_ok, Except.ok.injEq, Prod.mk.injEq] at h
      obtain ⟨_, _, _, hx, rfl, _⟩ := h
      exact ⟨addHook_nodup ih1 hx, ih2⟩
    | removeProposalHook a =>
      unfold step execRemoveProposalHook at h
      simp only [bind_ok, require_ok, Except.ok.injEq, Prod.mk.injEq] at h
      obtain ⟨_, _, _, hx, rfl, _⟩ := h
      exact ⟨removeHook_nodup ih1 hx, ih2⟩
    | addVoteHook a =>
      unfold step execAddVoteHook at h
      simp only [bind_ok, require_ok, Except.ok.injEq, Prod.mk.injEq] at h
      obtain ⟨_, _, _, hx, rfl, _⟩ := h
      exact ⟨ih1, addHook_nodup ih2 hx⟩
    | removeVoteHook a =>
      unfold step execRemoveVoteHook at h
      simp only [bind_ok, require_ok, Except.ok.injEq, Prod.mk.injEq] at h
      obtain ⟨_, _, _, hx, rfl, _⟩ := h
      exact ⟨ih1, removeHook_nodup ih2 hx⟩
    | replyFailedProposalHook i =>
      unfold step replyProposalHook at h
      simp only [bind_ok, Except.ok.injEq, Prod.mk.injEq, Prod.exists] at h
      obtain ⟨_, _, hx, rfl, _⟩ := h
      exact ⟨removeIdx_nodup ih1 hx, ih2⟩
    | replyFailedVoteHook i =>
      unfold step replyVoteHook at h
      simp only [bind_ok, Except.ok.injEq, Prod.mk.injEq, Prod.exists] at h
      obtain ⟨_, _, hx, rfl, _⟩ := h
      exact ⟨ih1, removeIdx_nodup ih2 hx⟩
    | updateConfig c =>
      unfold step execUpdateConfig at h
      simp only [bind_ok, require_ok, Except.ok.injEq, Prod.mk.injEq] at h
      obtain ⟨_, _, _, hv, rfl, _⟩ := h
      exact ⟨ih1, ih2⟩
    | updatePreProposeInfo i =>
      unfold step execUpdatePolicy at h
      simp only [bind_ok, require_ok, Except.ok.injEq, Prod.mk.injEq] at h
      obtain ⟨_, _, rfl, _⟩ := h
      exact ⟨ih1, ih2⟩
    | updateRationale id' r =>
      unfold step execUpdateRationale at h
      simp only [bind_ok, orErr_ok, Except.ok.injEq, Prod.mk.injEq] at h
      obtain ⟨b, hb, rfl, rfl⟩ := h
      exact ⟨ih1, ih2⟩
    | execute id' f =>
      obtain ⟨p, st, st', hp, hst, hm, _, _, rfl, _, hn⟩ := execExecute_inv h
      exact ⟨ih1, ih2⟩
    | close id' =>
      obtain ⟨p, hp, hst, rfl, rfl⟩ := execClose_inv h
      exact ⟨ih1, ih2⟩
    | veto id' =>
      obtain ⟨p, st, hp, hst, hm, rfl, rfl⟩ := execVeto_inv h
      exact ⟨ih1, ih2⟩
    | vote id v r =>
      obtain ⟨p, power, w, votes, st, _, _, _, _, _, _, _, _, rfl, rfl⟩ := execVote_inv h
      exact ⟨ih1, ih2⟩
    | propose g c m v z =>
      obtain ⟨proposer, total, st, s1, h1, h2, _, _, _, _, _, h8, _, h9⟩ := execPropose_inv h
      rcases h9 with ⟨_, rfl, _⟩ | ⟨v, r, o, hvo, hx, _⟩
      · subst h8; exact ⟨ih1, ih2⟩
      · obtain ⟨p, power, w, votes, st, _, _, _, _, _, _, _, _, rfl, _⟩ := execVote_inv hx
        subst h8; exact ⟨ih1, ih2⟩
    | replyPreProposeInstantiated a =>
      simp only [step, Except.ok.injEq, Prod.mk.injEq] at h
      obtain ⟨rfl, rfl⟩ := h
      exact ⟨ih1, ih2⟩
    | replyFailedPreProposeHook =>
      simp only [step, replyPreProposeFailed] at h
      split at h
      · simp at h
      · simp only [Except.ok.injEq, Prod.mk.injEq] at h
        obtain ⟨rfl, rfl⟩ := h
        exact ⟨ih1, ih2⟩

end Verif.Single
