import Verif.Proofs.PreProposeApprover
/-!
# Properties of dao-pre-propose-approver (C55)

`M1` and `M2` are the proposal modules of the DAO whose submissions are approved and of the approving DAO; any lawful
ones.
-/

namespace Verif.PrePropose.Approve
open Verif Verif.Voting Verif.PrePropose Verif.Spec.Approver
open Verif.Spec (Final)

variable {M1 M2 : PropModule} {inv1 : M1.St → Prop} {inv2 : M2.St → Prop} {f : M1.Payload → M2.Payload}

/-- A step leaves the address alone. -/
theorem here_step {w w' : Two M1 M2} {e : TEnv M1 M2} {c : TCall M1 M2} {o : TOut} (hs : tstep f w e c = .ok (w', o)) :
    w'.here = w.here := by
  simp only [tstep, bind_ok] at hs
  obtain ⟨_, _, hs⟩ := hs
  cases c with
  | one c =>
    simp only [tcall, tstepOne, bind_ok] at hs
    obtain ⟨_, hne, ⟨one, o1⟩, hs1, hs⟩ := hs
    simp only [Except.ok.injEq, Prod.mk.injEq] at hs
    obtain ⟨rfl, rfl⟩ := hs
    rfl
  | two c =>
    simp only [tcall, tstepTwo, bind_ok] at hs
    obtain ⟨_, hne, _, hout, ⟨mod, mo⟩, hm, hs⟩ := hs
    simp only [Except.ok.injEq, Prod.mk.injEq] at hs
    obtain ⟨rfl, rfl⟩ := hs
    rfl
  | mirror i =>
    simp only [tcall, tstepMirror] at hs
    split at hs
    · cases hs
    · simp only [bind_ok] at hs
      obtain ⟨pl, hpl, appr, _, ⟨mod, mo⟩, hm, hs⟩ := hs
      simp only [Except.ok.injEq, Prod.mk.injEq] at hs
      obtain ⟨rfl, rfl⟩ := hs
      rfl
  | deliver i =>
    simp only [tcall, tstepDeliver] at hs
    split at hs
    · cases hs
    · split at hs
      · simp only [Except.ok.injEq, Prod.mk.injEq] at hs
        obtain ⟨rfl, rfl⟩ := hs
        rfl
      · simp only [bind_ok, Except.ok.injEq, Prod.mk.injEq] at hs
        obtain ⟨mod, hm, rfl, rfl⟩ := hs
        rfl
  | reset =>
    simp only [tcall, tstepReset, bind_ok] at hs
    obtain ⟨_, ha, ⟨one1, o1⟩, hs1, ⟨one, o2⟩, hs2, hs⟩ := hs
    simp only [Except.ok.injEq, Prod.mk.injEq] at hs
    obtain ⟨rfl, rfl⟩ := hs
    rfl

theorem here_run {s w : Two M1 M2} {b b' : Block} {l : List (Event M1 M2)} (h : (tsys M1 M2 f).Run s b l w b') :
    w.here = s.here := by
  induction h with
  | refl => rfl
  | step hrr hbb hs ih => exact (here_step hs).trans ih

/-- An event of a history: it is a step, from a state that the history up to it leads to. -/
theorem event (L1 : LawfulBy M1 inv1) (L2 : LawfulBy M2 inv2) {w : Two M1 M2} {b : Block} {log : List (Event M1 M2)}
    (h : (tsys M1 M2 f).Reach w b log) {e : Event M1 M2} (he : e ∈ log) :
    ∃ l1 l2 b1, log = l2 ++ e :: l1 ∧ (tsys M1 M2 f).Reach e.pre b1 l1 ∧ Inv M1 M2 inv1 inv2 e.pre b1 l1 ∧
      tstep f e.pre e.env e.call = .ok (e.post, e.out) ∧
      e.pre.here = w.here ∧ e.post.here = w.here ∧ (∀ x ∈ mirrored l1, x ∈ mirrored log) := by
  obtain ⟨b0, s0, h0, hr⟩ := h
  obtain ⟨l1, l2, b1, rfl, hrun, hb, hs, hrest⟩ := hr.event e he
  have hre : (tsys M1 M2 f).Reach e.pre b1 l1 := ⟨b0, s0, h0, hrun⟩
  refine ⟨l1, l2, b1, rfl, hre, inv_reach L1 L2 hre, hs, ?_, (here_run hrest).symm, ?_⟩
  · rw [here_run hrest, here_step hs]
  · intro x hx
    simp only [mirrored, List.filterMap_append, List.filterMap_cons, List.mem_append] at hx ⊢
    right
    cases mirror e with
    | none => exact hx
    | some y => exact List.mem_cons_of_mem _ hx

/-- What a decision does to the approval contract. -/
theorem decision (L1 : LawfulBy M1 inv1) {one one' : AWorld M1} {e : Env M1} {v : Verdict} {o : AOut}
    (hs : astep one e v.call = .ok (one', o)) :
    one.app.approver = M1.sender e.mod ∧
    match v with
    | .approve id => ∃ s, one.app.pending.get id = some s ∧ one'.app.pending.get id = none ∧
        one'.app.completed.get id = some (s, .approved (M1.count one.base.mod + 1)) ∧
        o.newId = some (M1.count one.base.mod + 1)
    | .reject id => ∃ s, one.app.pending.get id = some s ∧ one'.app.pending.get id = none ∧
        one'.app.completed.get id = some (s, .rejected) := by
  cases v with
  | approve id =>
    simp only [Verdict.call, astep, stepApprove, bind_ok, require_ok, decide_eq_true_eq, orErr_ok] at hs
    obtain ⟨_, ha, bal, hb, _, happ, s, hs0, ⟨mod, mo⟩, hm, hs⟩ := hs
    simp only [Except.ok.injEq, Prod.mk.injEq] at hs
    obtain ⟨rfl, rfl⟩ := hs
    exact ⟨happ, s, hs0, by simp [AMap.get_erase], by simp, (L1.propose_new hm).1⟩
  | reject id =>
    simp only [Verdict.call, astep, stepReject, bind_ok, require_ok, decide_eq_true_eq, orErr_ok, Except.ok.injEq,
      Prod.mk.injEq] at hs
    obtain ⟨_, ha, bal, hb, _, happ, s, hs0, bal', hpay, rfl, rfl⟩ := hs
    exact ⟨happ, s, hs0, by simp [AMap.get_erase], by simp⟩

/-! ## C55 -/

/-- C55: when the completion of a proposal of the approving DAO is told to the approver contract and accepted, the
proposal is the mirror of a submission, and that submission is approved if the mirror was executed and rejected if it
was closed because it did not pass. -/
theorem C55_outcome (L1 : Lawful M1) (L2 : Lawful M2) {w : Two M1 M2} {b : Block} {log : List (Event M1 M2)}
    (h : (tsys M1 M2 f).Reach w b log) {e : Event M1 M2} (he : e ∈ log) {pid : Nat} {st : Status}
    (hd : delivered e = some (pid, st)) (hf : e.out.failed = false) :
    ∃ id, (pid, id) ∈ mirrored log ∧ ((st = .executed ∧ Approves e id) ∨ (st = .closed ∧ Rejects e id)) ∧
      (∃ st', M2.statusOf e.pre.mod pid = some st' ∧ Reports st st') := by
  obtain ⟨inv1, L1⟩ := L1
  obtain ⟨inv2, L2⟩ := L2
  obtain ⟨l1, l2, b1, _, _, hi, hs, _, _, hmono⟩ := event L1 L2 h he
  obtain ⟨w0, env, c, out, w'⟩ := e
  simp only at hs hi hf ⊢
  unfold delivered at hd
  split at hd
  · rename_i i hc
    simp only at hc hd
    subst hc
    simp only [tstep, bind_ok] at hs
    obtain ⟨_, _, hs⟩ := hs
    simp only [tcall, tstepDeliver, hd] at hs
    split at hs
    · rename_i one o1 hrun
      simp only [Except.ok.injEq, Prod.mk.injEq] at hs
      obtain ⟨rfl, rfl⟩ := hs
      simp only [runVerdict, bind_ok] at hrun
      obtain ⟨v, hv, hs1⟩ := hrun
      have hdec := (decision L1 hs1).2
      simp only [Approver.completed, bind_ok, orErr_ok] at hv
      obtain ⟨_, _, id, hid, hv⟩ := hv
      rw [hi.toSub] at hid
      refine ⟨id, hmono _ (AMap.mem_of_get hid), ?_, hi.done.queued _ (List.mem_of_getElem? hd)⟩
      split at hv
      · simp only [Except.ok.injEq] at hv
        subst hv
        exact .inr ⟨rfl, hdec⟩
      · simp only [Except.ok.injEq] at hv
        subst hv
        obtain ⟨s, h1, h2, h3, _⟩ := hdec
        exact .inl ⟨rfl, s, _, h1, h2, h3⟩
      · cases hv
    · simp only [bind_ok, Except.ok.injEq, Prod.mk.injEq] at hs
      obtain ⟨mod, hm, rfl, rfl⟩ := hs
      cases hf
  · cases hd

/-- Exactly one. -/
def OneOf (l : AMap Nat Nat) (id : Nat) : Prop := ∃ pid, (pid, id) ∈ l ∧ ∀ pid', (pid', id) ∈ l → pid' = pid

/-- C55: every submission the approver contract is told of gets exactly one mirror, once no message waits; nothing else
gets one; the contract's lookups give it. -/
theorem C55_mirrored (L1 : Lawful M1) (L2 : Lawful M2) {w : Two M1 M2} {b : Block} {log : List (Event M1 M2)}
    (h : (tsys M1 M2 f).Reach w b log) :
    (∀ id, id ∈ log.filterMap submitted → OneOf (mirrored log) id ∨ id ∈ w.mirrors) ∧
    (∀ pid id, (pid, id) ∈ mirrored log → id ∈ log.filterMap submitted ∧
      w.appr.toSub.get pid = some id ∧ w.appr.toProp.get id = some pid) ∧
    (∀ pid id, w.appr.toSub.get pid = some id → (pid, id) ∈ mirrored log) ∧
    (∀ pid id, w.appr.toProp.get id = some pid → (pid, id) ∈ mirrored log) := by
  obtain ⟨inv1, L1⟩ := L1
  obtain ⟨inv2, L2⟩ := L2
  have hi := inv_reach L1 L2 h
  refine ⟨?_, ?_, ?_, fun pid id => (hi.toProp id pid).1⟩
  · intro id hid
    rcases List.mem_append.1 ((hi.subs id).1 hid) with h1 | h1
    · exact .inr h1
    · obtain ⟨⟨pid, j⟩, hx, he⟩ := List.mem_map.1 h1
      simp only at he; subst he
      refine .inl ⟨pid, hx, ?_⟩
      intro pid' hx'
      have h1 := (hi.toProp _ _).2 hx
      have h2 := (hi.toProp _ _).2 hx'
      rw [h1] at h2
      injection h2 with h2
      exact h2.symm
  · intro pid id hx
    refine ⟨(hi.subs id).2 (List.mem_append_right _ (List.mem_map.2 ⟨_, hx, rfl⟩)), ?_, (hi.toProp _ _).2 hx⟩
    rw [hi.toSub]
    exact AMap.get_of_mem hi.wf hx
  · intro pid id hx
    rw [hi.toSub] at hx
    exact AMap.mem_of_get hx

/-- C55: a mirror is proposed in the name of the approval contract, with what `f` makes of the contents submitted. -/
theorem C55_mirror_contents (L1 : Lawful M1) (L2 : Lawful M2) {w : Two M1 M2} {b : Block} {log : List (Event M1 M2)}
    (h : (tsys M1 M2 f).Reach w b log) {e : Event M1 M2} (he : e ∈ log) {pid id : Nat} (hm : mirror e = some (pid, id)) :
    pid = M2.count e.pre.mod + 1 ∧ ∃ s o, (e.pre.one.app.pending.get id = some s ∨
        ∃ d, e.pre.one.app.completed.get id = some (s, d)) ∧
      M2.step e.pre.mod (M2.calledBy e.env.two w.here) (M2.propose e.pre.one.base.here (f s.payload)) =
        .ok (e.post.mod, o) := by
  obtain ⟨inv1, L1⟩ := L1
  obtain ⟨inv2, L2⟩ := L2
  obtain ⟨l1, l2, b1, _, _, hi, hs, hh, _, hmono⟩ := event L1 L2 h he
  obtain ⟨w0, env, c, out, w'⟩ := e
  simp only at hs hi hh ⊢
  unfold mirror at hm
  split at hm
  · rename_i i hc
    simp only at hc hm
    subst hc
    split at hm
    · rename_i x y hq hn
      simp only [Option.some.injEq, Prod.mk.injEq] at hm
      obtain ⟨rfl, rfl⟩ := hm
      simp only [tstep, bind_ok] at hs
      obtain ⟨_, _, hs⟩ := hs
      simp only [tcall, tstepMirror, hq, bind_ok, orErr_ok] at hs
      obtain ⟨pl, hpl, appr, _, ⟨mod, mo⟩, hstep, hs⟩ := hs
      simp only [Except.ok.injEq, Prod.mk.injEq] at hs
      obtain ⟨rfl, rfl⟩ := hs
      simp only at hn
      rw [(L2.propose_new hstep).1] at hn
      injection hn with hn
      refine ⟨hn.symm, ?_⟩
      unfold payloadOf at hpl
      split at hpl
      · rename_i s hs0
        injection hpl with hpl
        subst hpl
        exact ⟨s, mo, .inl hs0, by rw [← hh]; exact hstep⟩
      · cases hc : w0.one.app.completed.get x with
        | none => rw [hc] at hpl; cases hpl
        | some y =>
          rw [hc] at hpl
          simp only [Option.map_some, Option.some.injEq] at hpl
          subst hpl
          exact ⟨y.1, mo, .inr ⟨y.2, rfl⟩, by rw [← hh]; exact hstep⟩
    · cases hm
  · cases hm

/-- If the proposal is final its completion waits to be told or was told. -/
def Noted (w : Two M1 M2) (log : List (Event M1 M2)) (pid : Nat) : Prop :=
  ∀ st, M2.statusOf w.mod pid = some st → Final st →
    (∃ x ∈ w.queue, x.1 = pid) ∨ ∃ st', (pid, st') ∈ log.filterMap delivered

/-- Nothing gets lost while the approver contract stays attached. -/
theorem noted_step (L2 : LawfulBy M2 inv2) {w w' : Two M1 M2} {e : TEnv M1 M2} {c : TCall M1 M2} {o : TOut}
    {l : List (Event M1 M2)} (hi : inv2 w.mod) (hs : tstep f w e c = .ok (w', o))
    (hp : M2.policy w.mod = .module w.here) {pid : Nat} (hn : Noted w l pid) : Noted w' (⟨w, e, c, o, w'⟩ :: l) pid := by
  simp only [tstep, bind_ok] at hs
  obtain ⟨_, _, hs⟩ := hs
  have hmono : ∀ ev : Event M1 M2, (∃ st', (pid, st') ∈ l.filterMap delivered) →
      ∃ st', (pid, st') ∈ (ev :: l).filterMap delivered := by
    rintro ev ⟨st', h⟩
    refine ⟨st', ?_⟩
    rw [List.filterMap_cons]
    cases delivered ev with
    | none => exact h
    | some x => exact List.mem_cons_of_mem _ h
  intro st hst hf
  cases c with
  | one c =>
    simp only [tcall, tstepOne, bind_ok] at hs
    obtain ⟨_, hne, ⟨one, o1⟩, hs1, hs⟩ := hs
    simp only [Except.ok.injEq, Prod.mk.injEq] at hs
    obtain ⟨rfl, rfl⟩ := hs
    exact (hn st hst hf).imp (fun h => h) (hmono _)
  | two c =>
    simp only [tcall, tstepTwo, bind_ok] at hs
    obtain ⟨_, hne, _, hout, ⟨mod, mo⟩, hm, hs⟩ := hs
    simp only [Except.ok.injEq, Prod.mk.injEq] at hs
    obtain ⟨rfl, rfl⟩ := hs
    rcases noted_module L2 hi hm hp hst hf with h1 | ⟨x, hx, hid⟩
    · rcases hn st h1 hf with ⟨x, hx, hid⟩ | ht
      · exact .inl ⟨x, List.mem_append_left _ hx, hid⟩
      · exact .inr (hmono _ ht)
    · exact .inl ⟨x, List.mem_append_right _ hx, hid⟩
  | mirror i =>
    simp only [tcall, tstepMirror] at hs
    split at hs
    · cases hs
    · simp only [bind_ok] at hs
      obtain ⟨pl, hpl, appr, _, ⟨mod, mo⟩, hm, hs⟩ := hs
      simp only [Except.ok.injEq, Prod.mk.injEq] at hs
      obtain ⟨rfl, rfl⟩ := hs
      rcases noted_module L2 hi hm hp hst hf with h1 | ⟨x, hx, hid⟩
      · rcases hn st h1 hf with ⟨x, hx, hid⟩ | ht
        · exact .inl ⟨x, List.mem_append_left _ hx, hid⟩
        · exact .inr (hmono _ ht)
      · exact .inl ⟨x, List.mem_append_right _ hx, hid⟩
  | deliver i =>
    have hold : M2.statusOf w.mod pid = some st ∧ w'.queue = w.queue.eraseIdx i ∧ ∃ y, w.queue[i]? = some y := by
      simp only [tcall, tstepDeliver] at hs
      split at hs
      · cases hs
      · rename_i id2 st2 hq
        split at hs
        · simp only [Except.ok.injEq, Prod.mk.injEq] at hs
          obtain ⟨rfl, rfl⟩ := hs
          exact ⟨hst, rfl, _, hq⟩
        · simp only [bind_ok, Except.ok.injEq, Prod.mk.injEq] at hs
          obtain ⟨mod, hm, rfl, rfl⟩ := hs
          refine ⟨?_, rfl, _, hq⟩
          rw [← (L2.failed hi hm).2.2.1]; exact hst
    obtain ⟨h1, h2, y, hy⟩ := hold
    rcases hn st h1 hf with ⟨x, hx, hid⟩ | ht
    · by_cases hyx : y.1 = pid
      · right
        refine ⟨y.2, ?_⟩
        rw [List.filterMap_cons]
        simp only [delivered, hy, ← hyx]
        exact List.mem_cons_self ..
      · left
        refine ⟨x, ?_, hid⟩
        rw [h2]
        have hlt : i < w.queue.length := (List.getElem?_eq_some_iff.1 hy).1
        have hget : w.queue[i] = y := (List.getElem?_eq_some_iff.1 hy).2
        have := (List.getElem_cons_eraseIdx_perm hlt).mem_iff.2 hx
        rw [hget] at this
        rcases List.mem_cons.1 this with rfl | h
        · exact absurd hid hyx
        · exact h
    · exact .inr (hmono _ ht)
  | reset =>
    simp only [tcall, tstepReset, bind_ok] at hs
    obtain ⟨_, ha, ⟨one1, o1⟩, hs1, ⟨one, o2⟩, hs2, hs⟩ := hs
    simp only [Except.ok.injEq, Prod.mk.injEq] at hs
    obtain ⟨rfl, rfl⟩ := hs
    exact (hn st hst hf).imp (fun h => h) (hmono _)

/-- A failed hook detaches the approver contract. -/
theorem failed_detaches (L2 : LawfulBy M2 inv2) {w w' : Two M1 M2} {e : TEnv M1 M2} {c : TCall M1 M2} {o : TOut}
    (hi : inv2 w.mod) (hs : tstep f w e c = .ok (w', o)) (ho : o.failed = true) :
    M2.policy w'.mod = .anyone ∧ w'.one = w.one ∧ ∃ i, c = .deliver i := by
  simp only [tstep, bind_ok] at hs
  obtain ⟨_, _, hs⟩ := hs
  cases c with
  | one c =>
    simp only [tcall, tstepOne, bind_ok] at hs
    obtain ⟨_, hne, ⟨one, o1⟩, hs1, hs⟩ := hs
    simp only [Except.ok.injEq, Prod.mk.injEq] at hs
    obtain ⟨rfl, rfl⟩ := hs
    cases ho
  | two c =>
    simp only [tcall, tstepTwo, bind_ok] at hs
    obtain ⟨_, hne, _, hout, ⟨mod, mo⟩, hm, hs⟩ := hs
    simp only [Except.ok.injEq, Prod.mk.injEq] at hs
    obtain ⟨rfl, rfl⟩ := hs
    cases ho
  | mirror i =>
    simp only [tcall, tstepMirror] at hs
    split at hs
    · cases hs
    · simp only [bind_ok] at hs
      obtain ⟨pl, hpl, appr, _, ⟨mod, mo⟩, hm, hs⟩ := hs
      simp only [Except.ok.injEq, Prod.mk.injEq] at hs
      obtain ⟨rfl, rfl⟩ := hs
      cases ho
  | deliver i =>
    simp only [tcall, tstepDeliver] at hs
    split at hs
    · cases hs
    · split at hs
      · simp only [Except.ok.injEq, Prod.mk.injEq] at hs
        obtain ⟨rfl, rfl⟩ := hs
        cases ho
      · simp only [bind_ok, Except.ok.injEq, Prod.mk.injEq] at hs
        obtain ⟨mod, hm, rfl, rfl⟩ := hs
        exact ⟨(L2.failed hi hm).2.2.2, rfl, i, rfl⟩
  | reset =>
    simp only [tcall, tstepReset, bind_ok] at hs
    obtain ⟨_, ha, ⟨one1, o1⟩, hs1, ⟨one, o2⟩, hs2, hs⟩ := hs
    simp only [Except.ok.injEq, Prod.mk.injEq] at hs
    obtain ⟨rfl, rfl⟩ := hs
    cases ho

theorem noted_run (L1 : LawfulBy M1 inv1) (L2 : LawfulBy M2 inv2) {s w : Two M1 M2} {b b' : Block}
    {l : List (Event M1 M2)} (h : (tsys M1 M2 f).Run s b l w b') (hi : inv2 s.mod) {pid : Nat} (hn : Noted s [] pid)
    (hp : ∀ e ∈ l, M2.policy e.pre.mod = .module e.pre.here) : inv2 w.mod ∧ Noted w l pid := by
  induction h with
  | refl => exact ⟨hi, hn⟩
  | step hrr hbb hs ih =>
    rename_i s1 s2 b1 log env call out
    obtain ⟨i1, i2⟩ := ih (fun e he => hp e (List.mem_cons_of_mem _ he))
    refine ⟨?_, noted_step L2 i1 hs (hp _ (List.mem_cons_self ..)) i2⟩
    change tstep f s1 env call = .ok (s2, out) at hs
    simp only [tstep, bind_ok] at hs
    obtain ⟨_, _, hs⟩ := hs
    cases call with
    | one c =>
      simp only [tcall, tstepOne, bind_ok] at hs
      obtain ⟨_, hne, ⟨one, o1⟩, hs1, hs⟩ := hs
      simp only [Except.ok.injEq, Prod.mk.injEq] at hs
      obtain ⟨rfl, rfl⟩ := hs
      exact i1
    | two c =>
      simp only [tcall, tstepTwo, bind_ok] at hs
      obtain ⟨_, hne, _, hout, ⟨mod, mo⟩, hm, hs⟩ := hs
      simp only [Except.ok.injEq, Prod.mk.injEq] at hs
      obtain ⟨rfl, rfl⟩ := hs
      exact L2.step_inv i1 hm
    | mirror i =>
      simp only [tcall, tstepMirror] at hs
      split at hs
      · cases hs
      · simp only [bind_ok] at hs
        obtain ⟨pl, hpl, appr, _, ⟨mod, mo⟩, hm, hs⟩ := hs
        simp only [Except.ok.injEq, Prod.mk.injEq] at hs
        obtain ⟨rfl, rfl⟩ := hs
        exact L2.step_inv i1 hm
    | deliver i =>
      simp only [tcall, tstepDeliver] at hs
      split at hs
      · cases hs
      · split at hs
        · simp only [Except.ok.injEq, Prod.mk.injEq] at hs
          obtain ⟨rfl, rfl⟩ := hs
          exact i1
        · simp only [bind_ok, Except.ok.injEq, Prod.mk.injEq] at hs
          obtain ⟨mod, hm, rfl, rfl⟩ := hs
          exact (L2.failed i1 hm).1
    | reset =>
      simp only [tcall, tstepReset, bind_ok] at hs
      obtain ⟨_, ha, ⟨one1, o1⟩, hs1, ⟨one, o2⟩, hs2, hs⟩ := hs
      simp only [Except.ok.injEq, Prod.mk.injEq] at hs
      obtain ⟨rfl, rfl⟩ := hs
      exact i1

/-- C55, partial: if since the mirror was made the approver contract stayed attached to the approving DAO's proposal
module, the mirror is final and no completion hook waits, then the submission was decided: approved if the mirror was
executed, rejected if it was closed. What is missing: the contract does not stay attached when the mirror is vetoed
(`C55_veto_strands`), or when the approval contract refuses the decision; then the submission is left undecided. -/
theorem C55_decided_partial (L1 : Lawful M1) (L2 : Lawful M2) {w : Two M1 M2} {b : Block}
    {log l1 l2 : List (Event M1 M2)} {e : Event M1 M2} (h : (tsys M1 M2 f).Reach w b log) (hl : log = l2 ++ e :: l1)
    {pid id : Nat} (hm : mirror e = some (pid, id))
    (hatt : ∀ e' ∈ l2 ++ [e], M2.policy e'.post.mod = .module w.here) (hq : w.queue = [])
    {st : Status} (hst : M2.statusOf w.mod pid = some st) (hf : Final st) :
    ∃ e' ∈ l2, ∃ st', delivered e' = some (pid, st') ∧ Reports st' st ∧
      ((st' = .executed ∧ Approves e' id) ∨ (st' = .closed ∧ Rejects e' id)) := by
  have hL1 := L1
  have hL2 := L2
  have hall := h
  obtain ⟨inv1, L1⟩ := L1
  obtain ⟨inv2, L2⟩ := L2
  have hfin := inv_reach L1 L2 h
  obtain ⟨b0, s0, h0, hr⟩ := h
  obtain ⟨bm, sm, hr1, hr2⟩ : ∃ bm, ∃ sm : Two M1 M2, (tsys M1 M2 f).Run s0 b0 (e :: l1) sm bm ∧
      (tsys M1 M2 f).Run sm bm l2 w b := by
    clear hfin hall hst hq
    have : ∀ {w b log}, (tsys M1 M2 f).Run s0 b0 log w b → ∀ l2, log = l2 ++ e :: l1 →
        ∃ bm, ∃ sm : Two M1 M2, (tsys M1 M2 f).Run s0 b0 (e :: l1) sm bm ∧ (tsys M1 M2 f).Run sm bm l2 w b := by
      intro w b log hr
      induction hr with
      | refl => intro l2 hl; simp at hl
      | step hrr hbb hs ih =>
        intro l2 hl
        cases l2 with
        | nil =>
          simp only [List.nil_append] at hl
          rw [← hl]
          exact ⟨_, _, .step hrr hbb hs, .refl⟩
        | cons x l2 =>
          simp only [List.cons_append, List.cons.injEq] at hl
          obtain ⟨rfl, hl⟩ := hl
          obtain ⟨bm, sm, h1, h2⟩ := ih l2 hl
          exact ⟨bm, sm, h1, .step h2 hbb hs⟩
    exact this hr l2 hl
  have hsm : sm = e.post := by
    cases hr1 with
    | step hrr hbb hs => rfl
  subst hsm
  have hre : (tsys M1 M2 f).Reach e.post bm (e :: l1) := ⟨b0, s0, h0, hr1⟩
  have hie := inv_reach L1 L2 hre
  have hpre : ∃ b1, (tsys M1 M2 f).Reach e.pre b1 l1 ∧ tstep f e.pre e.env e.call = .ok (e.post, e.out) := by
    cases hr1 with
    | step hrr hbb hs => exact ⟨_, ⟨b0, s0, h0, hrr⟩, hs⟩
  obtain ⟨b1, hpre, hse⟩ := hpre
  have hip := inv_reach L1 L2 hpre
  have hhere := here_run hr2
  -- the mirror is not final when it is made, or its completion waits
  have hnoted : Noted e.post [] pid := by
    intro st1 h1 h2
    left
    obtain ⟨w0, env, c, out, w'⟩ := e
    simp only at hse hip h1 ⊢
    unfold mirror at hm
    split at hm
    · rename_i i hc
      simp only at hc hm
      subst hc
      split at hm
      · rename_i x y hq hn
        simp only [Option.some.injEq, Prod.mk.injEq] at hm
        obtain ⟨rfl, rfl⟩ := hm
        simp only [tstep, bind_ok] at hse
        obtain ⟨_, _, hse⟩ := hse
        simp only [tcall, tstepMirror, hq, bind_ok, orErr_ok] at hse
        obtain ⟨pl, hpl, appr, _, ⟨mod, mo⟩, hstep, hs⟩ := hse
        simp only [Except.ok.injEq, Prod.mk.injEq] at hs
        obtain ⟨rfl, rfl⟩ := hs
        simp only at hn h1
        have hnew := L2.propose_new hstep
        rw [hnew.1] at hn
        injection hn with hn
        have hpol := hnew.2
        rw [(L2.called _ _).1] at hpol
        rcases noted_module L2 hip.mod hstep hpol h1 h2 with h3 | ⟨x', hx, hid⟩
        · exfalso
          have := L2.status_count hip.mod h3
          omega
        · exact ⟨x', List.mem_append_right _ hx, hid⟩
      · cases hm
    · cases hm
  have hatt' : ∀ e' ∈ l2, M2.policy e'.pre.mod = .module e'.pre.here := by
    have key : ∀ {s w : Two M1 M2} {b b' l}, (tsys M1 M2 f).Run s b l w b' → M2.policy s.mod = .module s.here →
        (∀ e' ∈ l, M2.policy e'.post.mod = .module s.here) → (∀ e' ∈ l, M2.policy e'.pre.mod = .module e'.pre.here) ∧
          M2.policy w.mod = .module w.here := by
      intro s w b b' l hrun hs0 hall
      induction hrun with
      | refl => exact ⟨by simp, hs0⟩
      | step hrr hbb hs ih =>
        obtain ⟨i1, i2⟩ := ih (fun e' he' => hall e' (List.mem_cons_of_mem _ he'))
        refine ⟨?_, ?_⟩
        · intro e' he'
          rcases List.mem_cons.1 he' with rfl | he'
          · exact i2
          · exact i1 e' he'
        · have := hall _ (List.mem_cons_self ..)
          rw [here_step hs, here_run hrr]
          exact this
    refine (key hr2 ?_ ?_).1
    · rw [hatt e (by simp), hhere]
    · intro e' he'
      rw [hatt e' (by simp [he']), hhere]
  obtain ⟨_, hn⟩ := noted_run L1 L2 hr2 hie.mod hnoted hatt'
  rcases hn st hst hf with ⟨x, hx, _⟩ | ⟨st', ht⟩
  · rw [hq] at hx; cases hx
  · obtain ⟨e', he', hd⟩ := List.mem_filterMap.1 ht
    have hmem : e' ∈ log := by rw [hl]; simp [he']
    obtain ⟨k1, k2, kb, _, hre', hie', hse', _, _, _⟩ := event L1 L2 hall hmem
    have hnf : e'.out.failed = false := by
      cases hc : e'.out.failed with
      | false => rfl
      | true =>
        exfalso
        have := (failed_detaches L2 hie'.mod hse' hc).1
        rw [hatt e' (by simp [he'])] at this
        cases this
    obtain ⟨id', hx, hout, _⟩ := C55_outcome hL1 hL2 hall hmem hd hnf
    have hid : id' = id := by
      have h1 := AMap.get_of_mem hfin.wf hx
      have h2 : (pid, id) ∈ mirrored log := by
        rw [hl]
        exact List.mem_filterMap.2 ⟨e, by simp, hm⟩
      rw [AMap.get_of_mem hfin.wf h2] at h1
      injection h1 with h1
      exact h1.symm
    subst hid
    refine ⟨e', he', st', hd, ?_, hout⟩
    have hpast : (pid, st') ∈ log.filterMap delivered := List.mem_filterMap.2 ⟨e', hmem, hd⟩
    obtain ⟨st2, h1, h2⟩ := hfin.done.past _ hpast
    rw [hst] at h1
    injection h1 with h1
    subst h1
    exact h2

/-- C55: the approver contract accepts a completion exactly if the proposal is a mirror that was executed or closed and
the approval contract takes the decision from it; else nothing changes in the approval contract, and the approving
DAO's proposal module drops the approver contract. -/
theorem C55_accepted_iff (L1 : Lawful M1) (L2 : Lawful M2) {w w' : Two M1 M2} {b : Block} {log : List (Event M1 M2)}
    (h : (tsys M1 M2 f).Reach w b log) {i pid : Nat} {st : Status} (hq : w.queue[i]? = some (pid, st))
    {e : TEnv M1 M2} {o : TOut} (hs : (tsys M1 M2 f).step w e (.deliver i) = .ok (w', o)) :
    (o.failed = false ↔ ∃ id c, (pid, id) ∈ mirrored log ∧
      ((st = .executed ∧ c = .approve id) ∨ (st = .closed ∧ c = .reject id)) ∧
      ∃ x, astep w.one (e.one.as w.here) c = .ok x) ∧
    (o.failed = true → w'.one = w.one ∧ M2.policy w'.mod = .anyone) := by
  obtain ⟨inv1, L1⟩ := L1
  obtain ⟨inv2, L2⟩ := L2
  have hi := inv_reach L1 L2 h
  change tstep f w e (.deliver i) = .ok (w', o) at hs
  have hdet := fun ho => failed_detaches L2 hi.mod hs ho
  refine ⟨?_, fun ho => ⟨(hdet ho).2.1, (hdet ho).1⟩⟩
  simp only [tstep, bind_ok] at hs
  obtain ⟨_, _, hs⟩ := hs
  simp only [tcall, tstepDeliver, hq] at hs
  constructor
  · intro ho
    split at hs
    · rename_i one o1 hrun
      simp only [runVerdict, bind_ok] at hrun
      obtain ⟨v, hv, hs1⟩ := hrun
      simp only [Approver.completed, bind_ok, orErr_ok] at hv
      obtain ⟨_, _, id, hid, hv⟩ := hv
      rw [hi.toSub] at hid
      split at hv
      · simp only [Except.ok.injEq] at hv
        subst hv
        exact ⟨id, _, AMap.mem_of_get hid, .inr ⟨rfl, rfl⟩, _, hs1⟩
      · simp only [Except.ok.injEq] at hv
        subst hv
        exact ⟨id, _, AMap.mem_of_get hid, .inl ⟨rfl, rfl⟩, _, hs1⟩
      · cases hv
    · simp only [bind_ok, Except.ok.injEq, Prod.mk.injEq] at hs
      obtain ⟨mod, hm, rfl, rfl⟩ := hs
      cases ho
  · rintro ⟨id, c, hx, hc, x, hastep⟩
    have hid := AMap.get_of_mem hi.wf hx
    rw [← hi.toSub] at hid
    split at hs
    · simp only [Except.ok.injEq, Prod.mk.injEq] at hs
      obtain ⟨rfl, rfl⟩ := hs
      rfl
    · rename_i err hrun
      exfalso
      unfold runVerdict at hrun
      have hv : w.appr.completed w.appr.module pid st = .ok (if st = .executed then .approve id else .reject id) := by
        unfold Approver.completed
        rw [require, if_pos (by simp), ok_bind, hid]
        rcases hc with ⟨rfl, _⟩ | ⟨rfl, _⟩ <;> simp [orErr, ok_bind]
      rw [hv, ok_bind] at hrun
      rcases hc with ⟨rfl, rfl⟩ | ⟨rfl, rfl⟩
      · rw [if_pos rfl] at hrun
        simp only [Verdict.call] at hrun
        rw [hastep] at hrun; cases hrun
      · rw [if_neg (by simp)] at hrun
        simp only [Verdict.call] at hrun
        rw [hastep] at hrun; cases hrun

/-- Which steps of the approval contract take a submission out of the pending ones. -/
theorem unpend {one one' : AWorld M1} {e : Env M1} {c : ACall M1} {o : AOut} (hs : astep one e c = .ok (one', o))
    {id : Nat} {s : Submission M1} (h1 : one.app.pending.get id = some s) (h2 : one'.app.pending.get id = none) :
    (c = .approve id ∨ c = .reject id) ∧ one.app.approver = M1.sender e.mod := by
  cases c with
  | submit p =>
    exfalso
    simp only [astep, stepSubmit, advanceId, bind_ok, Except.ok.injEq, Prod.mk.injEq, add64_ok] at hs
    obtain ⟨_, ha, bal, hb, _, hcan, ts, hts, id', ⟨_, rfl⟩, rfl, rfl⟩ := hs
    simp only [AMap.get_set] at h2
    split at h2
    · cases h2
    · rw [h1] at h2; cases h2
  | approve id' =>
    simp only [astep, stepApprove, bind_ok, require_ok, decide_eq_true_eq] at hs
    obtain ⟨_, ha, bal, hb, _, happ, s, hs0, ⟨mod, mo⟩, hm, hs⟩ := hs
    simp only [Except.ok.injEq, Prod.mk.injEq] at hs
    obtain ⟨rfl, rfl⟩ := hs
    refine ⟨.inl ?_, happ⟩
    simp only [AMap.get_erase] at h2
    split at h2
    · rename_i he; rw [he]
    · rw [h1] at h2; cases h2
  | reject id' =>
    simp only [astep, stepReject, bind_ok, require_ok, decide_eq_true_eq, Except.ok.injEq, Prod.mk.injEq] at hs
    obtain ⟨_, ha, bal, hb, _, happ, s, hs0, bal', hpay, rfl, rfl⟩ := hs
    refine ⟨.inr ?_, happ⟩
    simp only [AMap.get_erase] at h2
    split at h2
    · rename_i he; rw [he]
    · rw [h1] at h2; cases h2
  | updateApprover a =>
    exfalso
    simp only [astep, stepUpdateApprover, bind_ok, Except.ok.injEq, Prod.mk.injEq] at hs
    obtain ⟨_, ha, bal, hb, _, happ, rfl, rfl⟩ := hs
    simp only at h2
    rw [h1] at h2; cases h2
  | addHook a =>
    exfalso
    simp only [astep, stepHook, bind_ok, Except.ok.injEq, Prod.mk.injEq] at hs
    obtain ⟨_, ha, bal, hb, _, happ, hk, _, rfl, rfl⟩ := hs
    simp only at h2
    rw [h1] at h2; cases h2
  | removeHook a =>
    exfalso
    simp only [astep, stepHook, bind_ok, Except.ok.injEq, Prod.mk.injEq] at hs
    obtain ⟨_, ha, bal, hb, _, happ, hk, _, rfl, rfl⟩ := hs
    simp only at h2
    rw [h1] at h2; cases h2
  | base c =>
    exfalso
    simp only [astep, stepBase, bind_ok] at hs
    obtain ⟨_, hc, ⟨b, o1⟩, hb, hs⟩ := hs
    simp only [Except.ok.injEq, Prod.mk.injEq] at hs
    obtain ⟨rfl, rfl⟩ := hs
    simp only at h2
    rw [h1] at h2; cases h2

/-- C55: while the approver contract is the approver, submissions are decided by the outcome of their mirror only, and
only the approving DAO changes that, giving the role to itself. -/
theorem C55_only (L1 : Lawful M1) (L2 : Lawful M2) {w : Two M1 M2} {b : Block} {log : List (Event M1 M2)}
    (h : (tsys M1 M2 f).Reach w b log) {e : Event M1 M2} (he : e ∈ log) (ha : e.pre.one.app.approver = w.here) :
    (∀ id s, e.pre.one.app.pending.get id = some s → e.post.one.app.pending.get id = none →
      ∃ pid st, delivered e = some (pid, st) ∧ (pid, id) ∈ mirrored log ∧
        ((st = .executed ∧ Approves e id) ∨ (st = .closed ∧ Rejects e id))) ∧
    (e.post.one.app.approver = w.here ∨
      (e.call = .reset ∧ M2.sender e.env.two = e.pre.appr.dao ∧ e.post.one.app.approver = e.pre.appr.dao)) := by
  have hL1 := L1
  have hL2 := L2
  have hall := h
  have hmem := he
  obtain ⟨inv1, L1⟩ := L1
  obtain ⟨inv2, L2⟩ := L2
  have hfin := inv_reach L1 L2 h
  obtain ⟨l1, l2, b1, _, _, hi, hs, hh, _, hmono⟩ := event L1 L2 h he
  have keep : ∀ {one one' : AWorld M1} {e : Env M1} {c : ACall M1} {o : AOut}, astep one e c = .ok (one', o) →
      one'.app.approver = one.app.approver ∨ (∃ a, c = .updateApprover a) ∧ one.app.approver = M1.sender e.mod := by
    intro one one' e c o hs
    cases c with
    | submit p =>
      simp only [astep, stepSubmit, advanceId, bind_ok, Except.ok.injEq, Prod.mk.injEq, add64_ok] at hs
      obtain ⟨_, ha, bal, hb, _, hcan, ts, hts, id', ⟨_, rfl⟩, rfl, rfl⟩ := hs
      exact .inl rfl
    | approve id' =>
      simp only [astep, stepApprove, bind_ok] at hs
      obtain ⟨_, ha, bal, hb, _, happ, s, hs0, ⟨mod, mo⟩, hm, hs⟩ := hs
      simp only [Except.ok.injEq, Prod.mk.injEq] at hs
      obtain ⟨rfl, rfl⟩ := hs
      exact .inl rfl
    | reject id' =>
      simp only [astep, stepReject, bind_ok, Except.ok.injEq, Prod.mk.injEq] at hs
      obtain ⟨_, ha, bal, hb, _, happ, s, hs0, bal', hpay, rfl, rfl⟩ := hs
      exact .inl rfl
    | updateApprover a =>
      simp only [astep, stepUpdateApprover, bind_ok, require_ok, decide_eq_true_eq, Except.ok.injEq, Prod.mk.injEq] at hs
      obtain ⟨_, ha, bal, hb, _, happ, rfl, rfl⟩ := hs
      exact .inr ⟨⟨a, rfl⟩, happ⟩
    | addHook a =>
      simp only [astep, stepHook, bind_ok, Except.ok.injEq, Prod.mk.injEq] at hs
      obtain ⟨_, ha, bal, hb, _, happ, hk, _, rfl, rfl⟩ := hs
      exact .inl rfl
    | removeHook a =>
      simp only [astep, stepHook, bind_ok, Except.ok.injEq, Prod.mk.injEq] at hs
      obtain ⟨_, ha, bal, hb, _, happ, hk, _, rfl, rfl⟩ := hs
      exact .inl rfl
    | base c =>
      simp only [astep, stepBase, bind_ok] at hs
      obtain ⟨_, hc, ⟨b, o1⟩, hb, hs⟩ := hs
      simp only [Except.ok.injEq, Prod.mk.injEq] at hs
      obtain ⟨rfl, rfl⟩ := hs
      exact .inl rfl
  have hout := fun pid st hd hf => C55_outcome hL1 hL2 hall hmem (pid := pid) (st := st) hd hf
  obtain ⟨w0, env, c, out, w'⟩ := e
  simp only at hs hi hh ha hout ⊢
  simp only [tstep, bind_ok] at hs
  obtain ⟨_, _, hs⟩ := hs
  cases c with
  | one c =>
    simp only [tcall, tstepOne, bind_ok, require_ok, decide_eq_true_eq] at hs
    obtain ⟨_, hne, ⟨one, o1⟩, hs1, hs⟩ := hs
    simp only [Except.ok.injEq, Prod.mk.injEq] at hs
    obtain ⟨rfl, rfl⟩ := hs
    refine ⟨?_, ?_⟩
    · intro id s h1 h2
      have := (unpend hs1 h1 h2).2
      rw [ha, ← hh] at this
      exact absurd this.symm hne
    · left
      rcases keep hs1 with h1 | ⟨_, h1⟩
      · simp only; rw [h1, ha]
      · rw [ha, ← hh] at h1
        exact absurd h1.symm hne
  | two c =>
    simp only [tcall, tstepTwo, bind_ok] at hs
    obtain ⟨_, hne, _, hout, ⟨mod, mo⟩, hm, hs⟩ := hs
    simp only [Except.ok.injEq, Prod.mk.injEq] at hs
    obtain ⟨rfl, rfl⟩ := hs
    refine ⟨?_, .inl ha⟩
    intro id s h1 h2
    simp only at h2
    rw [h1] at h2; cases h2
  | mirror i =>
    simp only [tcall, tstepMirror] at hs
    split at hs
    · cases hs
    · simp only [bind_ok] at hs
      obtain ⟨pl, hpl, appr, _, ⟨mod, mo⟩, hm, hs⟩ := hs
      simp only [Except.ok.injEq, Prod.mk.injEq] at hs
      obtain ⟨rfl, rfl⟩ := hs
      refine ⟨?_, .inl ha⟩
      intro id s h1 h2
      simp only at h2
      rw [h1] at h2; cases h2
  | deliver i =>
    simp only [tcall, tstepDeliver] at hs
    split at hs
    · cases hs
    · rename_i pid st hq
      split at hs
      · rename_i one o1 hrun
        simp only [Except.ok.injEq, Prod.mk.injEq] at hs
        obtain ⟨rfl, rfl⟩ := hs
        simp only [runVerdict, bind_ok] at hrun
        obtain ⟨v, hv, hs1⟩ := hrun
        refine ⟨?_, ?_⟩
        · intro id s h1 h2
          obtain ⟨id', hx, hor, _⟩ := hout pid st hq rfl
          simp only [Approver.completed, bind_ok, orErr_ok] at hv
          obtain ⟨_, _, id2, hid2, hv⟩ := hv
          rw [hi.toSub] at hid2
          have e1 : id' = id2 := by
            have h3 := AMap.get_of_mem hfin.wf hx
            have h4 := AMap.get_of_mem hfin.wf (hmono _ (AMap.mem_of_get hid2))
            rw [h3] at h4; injection h4
          have e2 : id2 = id := by
            have := (unpend hs1 h1 h2).1
            split at hv
            · simp only [Except.ok.injEq] at hv; subst hv
              rcases this with h5 | h5
              · cases h5
              · simp only [Verdict.call, ACall.reject.injEq] at h5; exact h5
            · simp only [Except.ok.injEq] at hv; subst hv
              rcases this with h5 | h5
              · simp only [Verdict.call, ACall.approve.injEq] at h5; exact h5
              · cases h5
            · cases hv
          subst e2; subst e1
          exact ⟨pid, st, hq, hx, hor⟩
        · left
          rcases keep hs1 with h1 | ⟨⟨a, h1⟩, _⟩
          · simp only; rw [h1, ha]
          · cases v <;> cases h1
      · simp only [bind_ok, Except.ok.injEq, Prod.mk.injEq] at hs
        obtain ⟨mod, hm, rfl, rfl⟩ := hs
        refine ⟨?_, .inl ha⟩
        intro id s h1 h2
        simp only at h2
        rw [h1] at h2; cases h2
  | reset =>
    simp only [tcall, tstepReset, bind_ok, require_ok, decide_eq_true_eq] at hs
    obtain ⟨_, hdao, ⟨one1, o1⟩, hs1, ⟨one, o2⟩, hs2, hs⟩ := hs
    simp only [Except.ok.injEq, Prod.mk.injEq] at hs
    obtain ⟨rfl, rfl⟩ := hs
    refine ⟨?_, .inr ⟨rfl, hdao, ?_⟩⟩
    · intro id s h1 h2
      exfalso
      cases hc : one1.app.pending.get id with
      | none =>
        have := (unpend hs1 h1 hc).1
        rcases this with h5 | h5 <;> cases h5
      | some s' =>
        have := (unpend hs2 hc h2).1
        rcases this with h5 | h5 <;> cases h5
    · simp only [astep, stepUpdateApprover, bind_ok, Except.ok.injEq, Prod.mk.injEq] at hs2
      obtain ⟨_, _, bal, hb, _, happ, rfl, rfl⟩ := hs2
      rfl

/-- Proposing in single choice. -/
theorem single_proposed {s s' : Single.State} {e : Single.Env} {a : Addr} {p : SinglePayload} {o : ModOut}
    (hv : p.vote = none) (h : single.step s e (.propose (some a) p.content p.msgs p.vote p.sizeOk) = .ok (s', o)) :
    ∃ q, s'.proposals.get (s.count + 1) = some q ∧ q.content = p.content ∧ q.msgs = p.msgs ∧ q.proposer = a := by
  obtain ⟨o1, h1, _⟩ := Single.module_step h
  obtain ⟨proposer, total, st, s1, _, h2, _, _, _, _, _, h7, _, h8⟩ := Single.execPropose_inv h1
  have hp : proposer = a := by
    unfold Single.resolveProposer at h2
    cases hc : s.policy with
    | anyone => rw [hc] at h2; cases h2
    | module x =>
      rw [hc] at h2
      simp only [Except.ok.injEq] at h2
      exact h2.symm
  rcases h8 with ⟨_, rfl, _⟩ | ⟨v, r, out', hx, _⟩
  · subst h7
    exact ⟨_, AMap.get_set_self _ _ _, rfl, rfl, hp⟩
  · rw [hv] at hx; cases hx

/-- C55: with single choice modules, the mirror has the contents submitted and no messages: executing it does nothing
in the approving DAO but approve. -/
theorem C55_no_messages {w : Two single single} {b : Block} {log : List (Event single single)}
    (h : (tsys single single sanitize).Reach w b log) {e : Event single single} (he : e ∈ log) {pid id : Nat}
    (hm : mirror e = some (pid, id)) :
    ∃ s : Submission single, ∃ q : Single.Proposal, (e.pre.one.app.pending.get id = some s ∨
        ∃ d, e.pre.one.app.completed.get id = some (s, d)) ∧
      (Single.State.proposals e.post.mod).get pid = some q ∧ q.content = SinglePayload.content s.payload ∧
      q.msgs = [] ∧ q.proposer = e.pre.one.base.here := by
  obtain ⟨hp, s, o, h1, h2⟩ := C55_mirror_contents single_lawful single_lawful h he hm
  obtain ⟨q, h3, h4, h5, h6⟩ := single_proposed (p := sanitize s.payload) rfl h2
  refine ⟨s, q, h1, ?_, h4, h5, h6⟩
  rw [hp]; exact h3

/-! ## Concrete histories -/

/-- The proposal module (address 41) of the approving DAO 200, just instantiated. -/
def freshModule2 : Single.State :=
  { config := { Single.cfg false with dao := 200 }, count := 0, proposals := [], ballots := []
    proposalHooks := none, voteHooks := none, policy := .anyone }

/-- The approver contract at address 61, just instantiated; DAO 200 is the approver so far. -/
def twoStart : Two single single :=
  { one := { base := start, app := ⟨200, 0, [], [], []⟩ }, here := 61, appr := ⟨41, 200, 60, [], []⟩
    mod := freshModule2, queue := [], mirrors := [] }

theorem twoStart_init : (tsys single single sanitize).init ⟨0, 0⟩ twoStart := by
  refine ⟨⟨⟨0, 0⟩, [], ⟨_, { base := start, app := ⟨200, 0, [], [], []⟩ }, App.appStart_init, .refl⟩, Block.le_refl _⟩, .init ⟨Single.at_ 0 200, Single.cfg false,
    .moduleMayPropose, ?_⟩, rfl, rfl, rfl, rfl, rfl, by decide⟩
  refine ⟨_, rfl, (?_ : Single.instantiate (Single.at_ 0 200) (Single.cfg false) .moduleMayPropose =
    .ok (freshModule2, { msgs := (Single.initialPolicy .moduleMayPropose).2 }))⟩
  decide +kernel

/-- A transaction at height `h`. -/
def both (h : Nat) (a : Addr) (funds : List (Nat × Nat) := []) : TEnv single single :=
  ⟨tx h a funds, Single.at_ h a⟩

/-- The contracts are connected, three submissions are made; the mirror of the first is executed, that of the second
closed because it did not pass, that of the third vetoed. -/
def twoCalls : List (TEnv single single × TCall single single) :=
  [(both 0 40, .one (.base (.module (.replyPreProposeInstantiated 60)))),
   (both 0 41, .two (.replyPreProposeInstantiated 61)),
   (both 0 200, .one (.addHook 61)),
   (both 0 200, .one (.updateApprover 61)),
   (both 1 7 [(9, 5)], .one (.submit ⟨11, [70], none, true⟩)),
   (both 1 7, .mirror 0),
   (both 1 7 [(9, 5)], .one (.submit ⟨12, [80], none, true⟩)),
   (both 1 7, .mirror 0),
   (both 1 7 [(9, 5)], .one (.submit ⟨13, [90], none, true⟩)),
   (both 1 7, .mirror 0),
   (both 2 1, .two (.vote 1 .yes none)),
   (both 2 2, .two (.vote 1 .yes none)),
   (both 2 1, .two (.vote 2 .no none)),
   (both 2 2, .two (.vote 2 .no none)),
   (both 2 1, .two (.vote 3 .yes none)),
   (both 2 2, .two (.vote 3 .yes none)),
   (both 12 3, .two (.close 2)),
   (both 12 3, .deliver 0),
   (both 17 3, .two (.execute 1 false)),
   (both 17 3, .deliver 0)]

/-- The hypotheses of the theorems are met by a history in which one submission is approved and one rejected. -/
theorem C55_example : ∃ w b log, (tsys single single sanitize).Reach w b log ∧
    log.length = 20 ∧ mirrored log = [(3, 3), (2, 2), (1, 1)] ∧
    log.filterMap (fun e => delivered e) = [(1, .executed), (2, .closed)] ∧
    w.one.app.completed.map (fun x => (x.1, x.2.2)) = [(2, .rejected), (1, .approved 1)] ∧
    w.one.app.pending.map (fun x => x.1) = [3] ∧ single.statusOf w.one.base.mod 1 = some .opened ∧
    w.queue.length = 0 ∧ w.mirrors.length = 0 ∧ single.policy w.mod = .module 61 ∧ w.one.app.approver = 61 := by
  obtain ⟨w, b, log, hr, hp⟩ := Sys.check_run (M := tsys single single sanitize) (s := twoStart) (b := ⟨0, 0⟩)
    (cs := twoCalls)
    (p := fun w b log => decide (log.length = 20 ∧ mirrored log = [(3, 3), (2, 2), (1, 1)] ∧
    log.filterMap (fun e => delivered e) = [(1, .executed), (2, .closed)] ∧
    w.one.app.completed.map (fun x => (x.1, x.2.2)) = [(2, .rejected), (1, .approved 1)] ∧
    w.one.app.pending.map (fun x => x.1) = [3] ∧ single.statusOf w.one.base.mod 1 = some .opened ∧
    w.queue.length = 0 ∧ w.mirrors.length = 0 ∧ single.policy w.mod = .module 61 ∧ w.one.app.approver = 61))
    (by decide +kernel)
  exact ⟨w, b, log, ⟨_, _, twoStart_init, hr⟩, of_decide_eq_true hp⟩

/-- C55 fails for vetoes: the approving DAO's mirror is vetoed, which is final, and told; the submission stays pending
and its deposit with the approval contract, and the approver contract is dropped, so that it will not be told of
anything any more although it still is the approver. -/
theorem C55_veto_strands : ∃ w b log, (tsys single single sanitize).Reach w b log ∧
    (3, 3) ∈ mirrored log ∧ single.statusOf w.mod 3 = some .vetoed ∧ w.queue.length = 0 ∧
    (3, .vetoed) ∈ log.filterMap (fun e => delivered e) ∧
    w.one.app.pending.map (fun x => x.1) = [1, 2, 3] ∧ w.one.app.approver = 61 ∧ single.policy w.mod = .anyone ∧
    w.one.base.holds (.native 9) = 15 := by
  obtain ⟨w, b, log, hr, hp⟩ := Sys.check_run (M := tsys single single sanitize) (s := twoStart) (b := ⟨0, 0⟩)
    (cs := twoCalls.take 16 ++ [(both 6 50, .two (.veto 3)), (both 6 50, .deliver 0)])
    (p := fun w b log => decide ((3, 3) ∈ mirrored log ∧ single.statusOf w.mod 3 = some .vetoed ∧ w.queue.length = 0 ∧
    (3, .vetoed) ∈ log.filterMap (fun e => delivered e) ∧
    w.one.app.pending.map (fun x => x.1) = [1, 2, 3] ∧ w.one.app.approver = 61 ∧ single.policy w.mod = .anyone ∧
    w.one.base.holds (.native 9) = 15))
    (by decide +kernel)
  exact ⟨w, b, log, ⟨_, _, twoStart_init, hr⟩, of_decide_eq_true hp⟩

/-- C55 fails also if a proposal is open in the approving DAO when the approver contract is attached: its completion is
refused, and the approver contract dropped; the mirror of a submission that completes after that is not told. -/
theorem C55_earlier_proposal_strands : ∃ w b log, (tsys single single sanitize).Reach w b log ∧
    (2, 1) ∈ mirrored log ∧ single.statusOf w.mod 2 = some .executed ∧ w.queue.length = 0 ∧
    log.filterMap (fun e => delivered e) = [(1, .closed)] ∧
    w.one.app.pending.map (fun x => x.1) = [1] ∧ w.one.app.approver = 61 ∧ single.policy w.mod = .anyone := by
  obtain ⟨w, b, log, hr, hp⟩ := Sys.check_run (M := tsys single single sanitize) (s := twoStart) (b := ⟨0, 0⟩)
    (cs := [(both 0 40, .one (.base (.module (.replyPreProposeInstantiated 60)))),
     (both 0 1, .two (.propose none 10 [] none true)),
     (both 0 41, .two (.replyPreProposeInstantiated 61)),
     (both 0 200, .one (.addHook 61)),
     (both 0 200, .one (.updateApprover 61)),
     (both 1 7 [(9, 5)], .one (.submit ⟨11, [70], none, true⟩)),
     (both 1 7, .mirror 0),
     (both 2 1, .two (.vote 2 .yes none)),
     (both 2 2, .two (.vote 2 .yes none)),
     (both 12 3, .two (.close 1)),
     (both 12 3, .deliver 0),
     (both 17 3, .two (.execute 2 false))])
    (p := fun w b log => decide ((2, 1) ∈ mirrored log ∧ single.statusOf w.mod 2 = some .executed ∧
    w.queue.length = 0 ∧ log.filterMap (fun e => delivered e) = [(1, .closed)] ∧
    w.one.app.pending.map (fun x => x.1) = [1] ∧ w.one.app.approver = 61 ∧ single.policy w.mod = .anyone))
    (by decide +kernel)
  exact ⟨w, b, log, ⟨_, _, twoStart_init, hr⟩, of_decide_eq_true hp⟩

end Verif.PrePropose.Approve
