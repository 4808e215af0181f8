import Verif.Spec.PreProposeApprover
import Verif.Props.PreProposeApproval
/-! Histories of dao-pre-propose-approver with the contracts of both DAOs. -/

namespace Verif.PrePropose.Approve
open Verif Verif.Voting Verif.PrePropose Verif.Spec.Approver
open Verif.Spec (Final)
open Verif.PrePropose.App (Done)

variable {M1 M2 : PropModule} {inv1 : M1.St → Prop} {inv2 : M2.St → Prop} {f : M1.Payload → M2.Payload}

/-- The approval contract has a history in which these submissions were made. -/
def OneReach (M1 : PropModule) (w : AWorld M1) (b : Block) (ids : List Nat) : Prop :=
  ∃ b1 l, (asys M1).Reach w b1 l ∧ b1.le b ∧ ∀ id ∈ ids, ∃ s, AMap.get (Spec.Approval.submissions l) id = some s

theorem new_submission {w w' : AWorld M1} {e : Env M1} {c : ACall M1} {o : AOut} {id : Nat}
    (hs : astep w e c = .ok (w', o)) (ho : o.approvalId = some id) :
    id = w.app.current + 1 ∧ ∃ p, c = .submit p := by
  cases c with
  | submit p =>
    simp only [astep, stepSubmit, advanceId, bind_ok, Except.ok.injEq, Prod.mk.injEq, add64_ok] at hs
    obtain ⟨_, ha, bal, hb, _, hcan, ts, hts, id', ⟨_, rfl⟩, rfl, rfl⟩ := hs
    simp only [Option.some.injEq] at ho
    exact ⟨ho.symm, p, rfl⟩
  | approve id =>
    simp only [astep, stepApprove, bind_ok] at hs
    obtain ⟨_, ha, bal, hb, _, happ, s, hs0, ⟨mod, mo⟩, hm, hs⟩ := hs
    simp only [Except.ok.injEq, Prod.mk.injEq] at hs
    obtain ⟨rfl, rfl⟩ := hs
    cases ho
  | reject id =>
    simp only [astep, stepReject, bind_ok, Except.ok.injEq, Prod.mk.injEq] at hs
    obtain ⟨_, ha, bal, hb, _, happ, s, hs0, bal', hpay, rfl, rfl⟩ := hs
    cases ho
  | updateApprover a =>
    simp only [astep, stepUpdateApprover, bind_ok, Except.ok.injEq, Prod.mk.injEq] at hs
    obtain ⟨_, ha, bal, hb, _, happ, rfl, rfl⟩ := hs
    cases ho
  | addHook a =>
    simp only [astep, stepHook, bind_ok, Except.ok.injEq, Prod.mk.injEq] at hs
    obtain ⟨_, ha, bal, hb, _, happ, hk, _, rfl, rfl⟩ := hs
    cases ho
  | removeHook a =>
    simp only [astep, stepHook, bind_ok, Except.ok.injEq, Prod.mk.injEq] at hs
    obtain ⟨_, ha, bal, hb, _, happ, hk, _, rfl, rfl⟩ := hs
    cases ho
  | base c =>
    simp only [astep, stepBase, bind_ok] at hs
    obtain ⟨_, hc, ⟨b, o1⟩, hb, hs⟩ := hs
    simp only [Except.ok.injEq, Prod.mk.injEq] at hs
    obtain ⟨rfl, rfl⟩ := hs
    cases ho

theorem OneReach.mono {w : AWorld M1} {b b' : Block} {ids ids' : List Nat} (h : OneReach M1 w b ids) (hb : b.le b')
    (hi : ∀ x ∈ ids', x ∈ ids) : OneReach M1 w b' ids' := by
  obtain ⟨b1, l, h1, h2, h3⟩ := h
  exact ⟨b1, l, h1, Block.le_trans h2 hb, fun x hx => h3 x (hi x hx)⟩

theorem OneReach.step (L : LawfulBy M1 inv1) {w w' : AWorld M1} {b : Block} {ids : List Nat} {e : Env M1} {c : ACall M1}
    {o : AOut} (h : OneReach M1 w b ids) (hb : b.le (M1.block e.mod)) (hs : astep w e c = .ok (w', o)) :
    OneReach M1 w' (M1.block e.mod) (ids ++ o.approvalId.toList) ∧ ∀ id, o.approvalId = some id → id ∉ ids := by
  obtain ⟨b1, l, h1, h2, h3⟩ := h
  have hi := App.inv_reach L h1
  have hr : (asys M1).Reach w' (M1.block e.mod) (⟨w, e, c, o, w'⟩ :: l) := h1.step (Block.le_trans h2 hb) hs
  have hi' := App.inv_reach L hr
  refine ⟨⟨_, _, hr, Block.le_refl _, ?_⟩, ?_⟩
  · intro id hid
    rcases List.mem_append.1 hid with hid | hid
    · obtain ⟨s, hs⟩ := h3 id hid
      refine ⟨s, AMap.get_of_mem hi'.wf ?_⟩
      have := AMap.mem_of_get hs
      rw [App.submissions_cons]
      cases Spec.Approval.submission (M := M1) ⟨w, e, c, o, w'⟩ with
      | none => exact this
      | some x => exact List.mem_cons_of_mem _ this
    · have ho : o.approvalId = some id := by
        cases hx : o.approvalId with
        | none => rw [hx] at hid; simp at hid
        | some j => rw [hx] at hid; simp at hid; rw [hid]
      obtain ⟨_, p, rfl⟩ := new_submission hs ho
      refine ⟨⟨p, M1.sender e.mod, w.base.pre.config.deposit⟩, ?_⟩
      rw [App.submissions_cons]
      simp only [Spec.Approval.submission, ho, AMap.get, if_true]
  · intro id ho hid
    obtain ⟨rfl, _⟩ := new_submission hs ho
    obtain ⟨s, hs⟩ := h3 _ hid
    have := hi.le _ _ (AMap.mem_of_get hs)
    omega

theorem OneReach.inv (L : LawfulBy M1 inv1) {w : AWorld M1} {b : Block} {ids : List Nat} (h : OneReach M1 w b ids) :
    ∃ l, App.Inv M1 inv1 w l := by
  obtain ⟨b1, l, h1, _, _⟩ := h
  exact ⟨l, App.inv_reach L h1⟩

/-- What holds in every state of a history. -/
structure Inv (M1 M2 : PropModule) (inv1 : M1.St → Prop) (inv2 : M2.St → Prop) (w : Two M1 M2) (b : Block)
    (log : List (Event M1 M2)) : Prop where
  one : OneReach M1 w.one b (w.mirrors ++ (mirrored log).map Prod.snd)
  mod : inv2 w.mod
  approval : w.appr.approval = w.one.base.here
  ne : w.here ≠ w.one.base.here
  done : Done M2 w.mod w.queue (log.filterMap delivered)
  toSub : ∀ pid, w.appr.toSub.get pid = AMap.get (mirrored log) pid
  toProp : ∀ id pid, w.appr.toProp.get id = some pid ↔ (pid, id) ∈ mirrored log
  wf : AMap.WF (mirrored log)
  le : ∀ pid id, (pid, id) ∈ mirrored log → pid ≤ M2.count w.mod
  nodup : (w.mirrors ++ (mirrored log).map Prod.snd).Nodup
  subs : ∀ id, id ∈ log.filterMap submitted ↔ id ∈ w.mirrors ++ (mirrored log).map Prod.snd

theorem inv_init (L2 : LawfulBy M2 inv2) {b : Block} {w : Two M1 M2} (h : (tsys M1 M2 f).init b w) :
    Inv M1 M2 inv1 inv2 w b [] := by
  obtain ⟨⟨b1, l, h1, h2⟩, h3, h4, h5, h6, h7, h8, h9⟩ := h
  refine ⟨⟨b1, l, h1, h2, ?_⟩, reachable_inv L2 h3, h8, h9, ⟨?_, ?_, ?_⟩, ?_, ?_, ?_, ?_, ?_, ?_⟩
  · rw [h5]; simp [mirrored]
  · rw [h4]; simp
  · simp
  · rw [h4]; simp
  · intro pid; rw [h6]; simp [mirrored, AMap.get]
  · intro id pid; rw [h7]; simp [mirrored, AMap.get]
  · simp [mirrored, AMap.WF]
  · intro pid id hx; simp [mirrored] at hx
  · rw [h5]; simp [mirrored]
  · rw [h5]; simp [mirrored]

theorem mirrored_cons (e : Event M1 M2) (log : List (Event M1 M2)) :
    mirrored (e :: log) = (match mirror e with | some x => x :: mirrored log | none => mirrored log) := by
  simp only [mirrored, List.filterMap_cons]
  cases mirror e <;> rfl

/-- Steps that tell the approver contract nothing and make no mirror. -/
theorem inv_other {w w' : Two M1 M2} {e : TEnv M1 M2} {c : TCall M1 M2} {o : TOut} {b : Block}
    {log : List (Event M1 M2)} (hi : Inv M1 M2 inv1 inv2 w b log)
    (h1 : submitted (M1 := M1) ⟨w, e, c, o, w'⟩ = none) (h2 : mirror (M1 := M1) ⟨w, e, c, o, w'⟩ = none)
    {b' : Block}
    (k1 : OneReach M1 w'.one b' (w.mirrors ++ (mirrored log).map Prod.snd))
    (k2 : inv2 w'.mod) (k3 : w'.one.base.here = w.one.base.here) (k4 : w'.here = w.here) (k5 : w'.appr = w.appr)
    (k6 : w'.mirrors = w.mirrors) (k7 : M2.count w.mod ≤ M2.count w'.mod)
    (k8 : Done M2 w'.mod w'.queue ((⟨w, e, c, o, w'⟩ :: log).filterMap delivered)) :
    Inv M1 M2 inv1 inv2 w' b' (⟨w, e, c, o, w'⟩ :: log) := by
  have e1 : mirrored (M1 := M1) (⟨w, e, c, o, w'⟩ :: log) = mirrored log := by rw [mirrored_cons, h2]
  refine ⟨?_, k2, ?_, ?_, k8, ?_, ?_, ?_, ?_, ?_, ?_⟩
  · rw [e1, k6]; exact k1
  · rw [k5, k3]; exact hi.approval
  · rw [k4, k3]; exact hi.ne
  · rw [e1, k5]; exact hi.toSub
  · rw [e1, k5]; exact hi.toProp
  · rw [e1]; exact hi.wf
  · rw [e1]; intro pid id hx; exact Nat.le_trans (hi.le pid id hx) k7
  · rw [e1, k6]; exact hi.nodup
  · rw [e1, k6]
    intro id
    rw [← hi.subs id, List.filterMap_cons, h1]

theorem as_block (L : LawfulBy M1 inv1) (e : Env M1) (a : Addr) : M1.block (e.as a).mod = M1.block e.mod := by
  simp only [Env.as]
  exact (L.called e.mod a).2

theorem as_sender (L : LawfulBy M1 inv1) (e : Env M1) (a : Addr) : M1.sender (e.as a).mod = a := by
  simp only [Env.as]
  exact (L.called e.mod a).1

/-- Only submitting is told to hooks. -/
theorem no_submission {w w' : AWorld M1} {e : Env M1} {c : ACall M1} {o : AOut}
    (hs : astep w e c = .ok (w', o)) (hc : ∀ p, c ≠ .submit p) : o.approvalId = none := by
  cases ho : o.approvalId with
  | none => rfl
  | some id =>
    obtain ⟨_, p, rfl⟩ := new_submission hs ho
    exact absurd rfl (hc p)

/-- The invariant is kept. -/
theorem inv_step (L1 : LawfulBy M1 inv1) (L2 : LawfulBy M2 inv2) {w w' : Two M1 M2} {e : TEnv M1 M2} {c : TCall M1 M2}
    {o : TOut} {b : Block} {log : List (Event M1 M2)} (hi : Inv M1 M2 inv1 inv2 w b log)
    (hb : b.le (M1.block e.one.mod)) (hs : tstep f w e c = .ok (w', o)) :
    Inv M1 M2 inv1 inv2 w' (M1.block e.one.mod) (⟨w, e, c, o, w'⟩ :: log) := by
  simp only [tstep, bind_ok] at hs
  obtain ⟨_, _, hs⟩ := hs
  obtain ⟨l0, hi1⟩ := hi.one.inv L1
  cases c with
  | one c =>
    simp only [tcall, tstepOne, bind_ok, require_ok, decide_eq_true_eq] at hs
    obtain ⟨_, hne, ⟨one, o1⟩, hs1, hs⟩ := hs
    simp only [Except.ok.injEq, Prod.mk.injEq] at hs
    obtain ⟨rfl, rfl⟩ := hs
    obtain ⟨hr, hfresh⟩ := hi.one.step L1 hb hs1
    obtain ⟨_, hhere, _, _, _⟩ := App.step_kept L1 hi1.mod hs1
    have hdone : ∀ w', Done M2 w.mod w.queue
        ((⟨w, e, .one c, { one := some o1 }, w'⟩ :: log : List (Event M1 M2)).filterMap delivered) := fun _ => hi.done
    by_cases hm : mirrorsFor w.here o1 = []
    · rw [hm, List.append_nil]
      refine inv_other hi ?_ rfl (hr.mono (Block.le_refl _) (fun x hx => List.mem_append_left _ hx)) hi.mod hhere rfl rfl
        rfl (Nat.le_refl _) (hdone _)
      unfold submitted
      split
      · rename_i p o' hc ho
        simp only [Option.some.injEq] at ho
        subst ho
        unfold mirrorsFor at hm
        cases hid : o1.approvalId with
        | none => rfl
        | some id =>
          rw [hid] at hm
          simp only at hm
          split at hm
          · cases hm
          · rename_i hno
            simp only [if_neg hno]
      · rfl
    · unfold mirrorsFor at hm
      cases hid : o1.approvalId with
      | none => rw [hid] at hm; exact absurd rfl hm
      | some id =>
        rw [hid] at hm
        simp only at hm
        split at hm
        · rename_i hin
          obtain ⟨_, p, rfl⟩ := new_submission hs1 hid
          have hmf : mirrorsFor w.here o1 = [id] := by simp [mirrorsFor, hid, hin]
          have hsub : ∀ w', submitted (M1 := M1) (M2 := M2) ⟨w, e, .one (.submit p), { one := some o1 }, w'⟩ = some id := by
            intro w'; simp [submitted, hid, hin]
          have e1 : ∀ w', mirrored (M1 := M1) (M2 := M2) (⟨w, e, .one (.submit p), { one := some o1 }, w'⟩ :: log) =
              mirrored log := by intro w'; rw [mirrored_cons]; rfl
          rw [hmf]
          have hperm : (w.mirrors ++ [id] ++ (mirrored log).map Prod.snd).Perm
              (id :: (w.mirrors ++ (mirrored log).map Prod.snd)) := by
            rw [List.append_assoc]
            exact List.perm_middle
          refine ⟨?_, hi.mod, ?_, ?_, hdone _, ?_, ?_, ?_, ?_, ?_, ?_⟩
          · rw [e1]
            refine hr.mono (Block.le_refl _) ?_
            intro x hx
            have := hperm.mem_iff.1 hx
            rw [hid]
            rcases List.mem_cons.1 this with rfl | h
            · exact List.mem_append_right _ (by simp)
            · exact List.mem_append_left _ h
          · simp only; rw [hhere]; exact hi.approval
          · simp only; rw [hhere]; exact hi.ne
          · rw [e1]; exact hi.toSub
          · rw [e1]; exact hi.toProp
          · rw [e1]; exact hi.wf
          · rw [e1]; exact hi.le
          · rw [e1]
            exact hperm.nodup_iff.2 (List.nodup_cons.2 ⟨hfresh id hid, hi.nodup⟩)
          · rw [e1]
            intro x
            simp only
            rw [hperm.mem_iff, List.filterMap_cons, hsub]
            simp only [List.mem_cons]
            rw [hi.subs x]
        · exact absurd rfl hm
  | two c =>
    simp only [tcall, tstepTwo, bind_ok, require_ok, decide_eq_true_eq] at hs
    obtain ⟨_, hne, _, hout, ⟨mod, mo⟩, hm, hs⟩ := hs
    simp only [Except.ok.injEq, Prod.mk.injEq] at hs
    obtain ⟨rfl, rfl⟩ := hs
    refine inv_other hi rfl rfl (hi.one.mono hb (fun x hx => hx)) (L2.step_inv hi.mod hm) rfl rfl rfl rfl ?_
      (hi.done.step L2 hi.mod hm w.here)
    rcases L2.count_step hi.mod hm with ⟨_, h⟩ | ⟨_, h⟩ <;> (simp only; omega)
  | mirror i =>
    simp only [tcall, tstepMirror] at hs
    split at hs
    · cases hs
    · rename_i id hq
      simp only [bind_ok, Approver.propose, require_ok, Except.ok.injEq, orErr_ok] at hs
      obtain ⟨pl, hpl, appr, ⟨_, _, rfl⟩, ⟨mod, mo⟩, hm, hs⟩ := hs
      simp only [Prod.mk.injEq] at hs
      obtain ⟨rfl, rfl⟩ := hs
      have hnew := (L2.propose_new hm).1
      have hcnt : M2.count mod = M2.count w.mod + 1 := by
        rcases L2.count_step hi.mod hm with ⟨_, h⟩ | ⟨h, _⟩
        · exact h
        · rw [hnew] at h; cases h
      have e1 : ∀ w', mirrored (M1 := M1) (M2 := M2) (⟨w, e, .mirror i, { newId := mo.newId }, w'⟩ :: log) =
          (M2.count w.mod + 1, id) :: mirrored log := by
        intro w'; rw [mirrored_cons]; simp only [mirror, hq, hnew]
      have hlt : i < w.mirrors.length := (List.getElem?_eq_some_iff.1 hq).1
      have hget : w.mirrors[i] = id := (List.getElem?_eq_some_iff.1 hq).2
      have hperm : (w.mirrors.eraseIdx i ++ id :: (mirrored log).map Prod.snd).Perm
          (w.mirrors ++ (mirrored log).map Prod.snd) := by
        refine List.perm_middle.trans ?_
        have := List.getElem_cons_eraseIdx_perm hlt
        rw [hget] at this
        exact this.append_right _
      have hid : id ∈ w.mirrors := List.mem_of_getElem? hq
      have hnm : ∀ pid, (pid, id) ∉ mirrored log := by
        intro pid hx
        exact (List.nodup_append.1 hi.nodup).2.2 id hid id (List.mem_map.2 ⟨_, hx, rfl⟩) rfl
      have hfresh : ∀ j, (M2.count w.mod + 1, j) ∉ mirrored log := by
        intro j hx
        have := hi.le _ _ hx
        omega
      refine ⟨?_, L2.step_inv hi.mod hm, hi.approval, hi.ne, hi.done.step L2 hi.mod hm w.here, ?_, ?_, ?_, ?_, ?_, ?_⟩
      · rw [e1, List.map_cons]
        exact hi.one.mono hb (fun x hx => hperm.mem_iff.1 hx)
      · rw [e1]; intro pid
        simp only [AMap.get_set, AMap.get, hi.toSub]
      · rw [e1]; intro j pid
        simp only [AMap.get_set, List.mem_cons, Prod.mk.injEq]
        by_cases hj : id = j
        · subst hj
          rw [if_pos rfl]
          constructor
          · intro h; injection h with h; exact .inl ⟨h.symm, rfl⟩
          · rintro (⟨h, _⟩ | h)
            · rw [h]
            · exact absurd h (hnm pid)
        · rw [if_neg hj, hi.toProp]
          constructor
          · intro h; exact .inr h
          · rintro (⟨_, h⟩ | h)
            · exact absurd h.symm hj
            · exact h
      · rw [e1]
        unfold AMap.WF
        rw [List.map_cons, List.nodup_cons]
        refine ⟨?_, hi.wf⟩
        intro hmm
        obtain ⟨⟨p, j⟩, hx, he⟩ := List.mem_map.1 hmm
        simp only at he; subst he
        exact hfresh j hx
      · rw [e1]; intro pid j h
        simp only
        rw [hcnt]
        rcases List.mem_cons.1 h with h | h
        · simp only [Prod.mk.injEq] at h; omega
        · have := hi.le _ _ h; omega
      · rw [e1, List.map_cons]
        exact hperm.nodup_iff.2 hi.nodup
      · rw [e1, List.map_cons]
        intro x
        simp only
        rw [hperm.mem_iff, ← hi.subs x]
        rfl
  | deliver i =>
    simp only [tcall, tstepDeliver] at hs
    split at hs
    · cases hs
    · rename_i pid st hq
      split at hs
      · rename_i one o1 hrun
        simp only [Except.ok.injEq, Prod.mk.injEq] at hs
        obtain ⟨rfl, rfl⟩ := hs
        simp only [runVerdict, bind_ok] at hrun
        obtain ⟨v, hv, hs1⟩ := hrun
        obtain ⟨hr, _⟩ := hi.one.step L1 (by rw [as_block L1]; exact hb) hs1
        rw [as_block L1] at hr
        obtain ⟨_, hhere, _, _, _⟩ := App.step_kept L1 hi1.mod hs1
        refine inv_other hi rfl rfl (hr.mono (Block.le_refl _) (fun x hx => List.mem_append_left _ hx)) hi.mod hhere rfl
          rfl rfl (Nat.le_refl _) ?_
        simp only [List.filterMap_cons, delivered, hq]
        exact hi.done.deliver rfl hq
      · simp only [bind_ok, Except.ok.injEq, Prod.mk.injEq] at hs
        obtain ⟨mod, hm, rfl, rfl⟩ := hs
        obtain ⟨f1, f2, f3, f4⟩ := L2.failed hi.mod hm
        refine inv_other hi rfl rfl (hi.one.mono hb (fun x hx => hx)) f1 rfl rfl rfl rfl (by simp only; omega) ?_
        simp only [List.filterMap_cons, delivered, hq]
        exact hi.done.deliver f3 hq
  | reset =>
    simp only [tcall, tstepReset, bind_ok] at hs
    obtain ⟨_, ha, ⟨one1, o1⟩, hs1, ⟨one, o2⟩, hs2, hs⟩ := hs
    simp only [Except.ok.injEq, Prod.mk.injEq] at hs
    obtain ⟨rfl, rfl⟩ := hs
    obtain ⟨hr, _⟩ := hi.one.step L1 (by rw [as_block L1]; exact hb) hs1
    obtain ⟨k1, hhere, _, _, _⟩ := App.step_kept L1 hi1.mod hs1
    obtain ⟨hr2, _⟩ := hr.step L1 (Block.le_refl _) hs2
    obtain ⟨_, hhere2, _, _, _⟩ := App.step_kept L1 k1 hs2
    rw [as_block L1] at hr2
    refine inv_other hi rfl rfl (hr2.mono (Block.le_refl _)
      (fun x hx => List.mem_append_left _ (List.mem_append_left _ hx))) hi.mod (hhere2.trans hhere) rfl
      rfl rfl (Nat.le_refl _) hi.done

theorem inv_reach (L1 : LawfulBy M1 inv1) (L2 : LawfulBy M2 inv2) {w : Two M1 M2} {b : Block}
    {log : List (Event M1 M2)} (h : (tsys M1 M2 f).Reach w b log) : Inv M1 M2 inv1 inv2 w b log := by
  refine Sys.Reach.induct (P := fun w b log => Inv M1 M2 inv1 inv2 w b log) ?_ ?_ h
  · intro b s h0; exact inv_init L2 h0
  · intro s b l env call out s' _ ih hb hs; exact inv_step L1 L2 ih hb hs

end Verif.PrePropose.Approve
