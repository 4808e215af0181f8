import Verif.Proofs.PreProposeApprovalFunds
import Verif.Props.PreProposeExamples
/-!
# Properties of dao-pre-propose-approval-single (C54)

All statements are about any proposal module `M` that is lawful; `dao-proposal-single` is (`single_lawful`).
-/

namespace Verif.PrePropose.App
open Verif Verif.Voting Verif.Spec.Approval Verif.PrePropose
open Verif.Spec.PrePropose (SoundPolicy MaySubmit amountIn payment toTake receiver)

variable {M : PropModule} {inv : M.St → Prop}

/-- What every step leaves alone. -/
theorem step_kept (L : LawfulBy M inv) {w w' : AWorld M} {e : Env M} {c : ACall M} {o : AOut} (hi : inv w.base.mod)
    (hs : astep w e c = .ok (w', o)) :
    inv w'.base.mod ∧ w'.base.here = w.base.here ∧ w'.base.pre.dao = w.base.pre.dao ∧
      M.count w.base.mod ≤ M.count w'.base.mod ∧
      ∀ x, approval (M := M) ⟨w, e, c, o, w'⟩ = some x → x.1 = M.count w.base.mod + 1 := by
  cases c with
  | submit p =>
    simp only [astep, stepSubmit, bind_ok, Except.ok.injEq, Prod.mk.injEq] at hs
    obtain ⟨_, ha, bal, hb, _, hcan, ts, hts, id, _, rfl, rfl⟩ := hs
    exact ⟨hi, rfl, rfl, Nat.le_refl _, by simp [approval]⟩
  | approve id =>
    simp only [astep, stepApprove, bind_ok] at hs
    obtain ⟨_, ha, bal, hb, _, happ, s, hs0, ⟨mod, mo⟩, hm, hs⟩ := hs
    simp only [Except.ok.injEq, Prod.mk.injEq] at hs
    obtain ⟨rfl, rfl⟩ := hs
    have hnew := (L.propose_new hm).1
    refine ⟨L.step_inv hi hm, rfl, rfl, ?_, ?_⟩
    · rcases L.count_step hi hm with ⟨_, h⟩ | ⟨_, h⟩ <;> (simp only; omega)
    · intro x hx
      simp only [approval, hnew, Option.some.injEq] at hx
      rw [← hx]
  | reject id =>
    simp only [astep, stepReject, bind_ok, Except.ok.injEq, Prod.mk.injEq] at hs
    obtain ⟨_, ha, bal, hb, _, happ, s, hs0, bal', hpay, rfl, rfl⟩ := hs
    exact ⟨hi, rfl, rfl, Nat.le_refl _, by simp [approval]⟩
  | updateApprover a =>
    simp only [astep, stepUpdateApprover, bind_ok, Except.ok.injEq, Prod.mk.injEq] at hs
    obtain ⟨_, ha, bal, hb, _, happ, rfl, rfl⟩ := hs
    exact ⟨hi, rfl, rfl, Nat.le_refl _, by simp [approval]⟩
  | addHook a =>
    simp only [astep, stepHook, bind_ok, Except.ok.injEq, Prod.mk.injEq] at hs
    obtain ⟨_, ha, bal, hb, _, happ, hk, _, rfl, rfl⟩ := hs
    exact ⟨hi, rfl, rfl, Nat.le_refl _, by simp [approval]⟩
  | removeHook a =>
    simp only [astep, stepHook, bind_ok, Except.ok.injEq, Prod.mk.injEq] at hs
    obtain ⟨_, ha, bal, hb, _, happ, hk, _, rfl, rfl⟩ := hs
    exact ⟨hi, rfl, rfl, Nat.le_refl _, by simp [approval]⟩
  | base c =>
    simp only [astep, stepBase, bind_ok, require_ok] at hs
    obtain ⟨_, hc, ⟨b, o1⟩, hb, hs⟩ := hs
    simp only [Except.ok.injEq, Prod.mk.injEq] at hs
    obtain ⟨rfl, rfl⟩ := hs
    obtain ⟨k1, k2, k3⟩ := base_kept hc hb
    have hk : inv b.mod ∧ M.count w.base.mod ≤ M.count b.mod := by
      cases c with
      | propose p => cases hc
      | pre m =>
        simp only [step, stepPre, bind_ok] at hb
        obtain ⟨_, ha, bal, hb, ⟨pre, ps⟩, hp, bal', hpay, hs⟩ := hb
        simp only [Except.ok.injEq, Prod.mk.injEq] at hs
        obtain ⟨rfl, rfl⟩ := hs
        exact ⟨hi, Nat.le_refl _⟩
      | completed id st =>
        simp only [step, stepCompleted, bind_ok, Except.ok.injEq, Prod.mk.injEq] at hb
        obtain ⟨_, ha, ps, hpp, bal', hpay, rfl, rfl⟩ := hb
        exact ⟨hi, Nat.le_refl _⟩
      | module c =>
        simp only [step, stepModule, bind_ok] at hb
        obtain ⟨_, ha, _, hout, ⟨mod, mo⟩, hm, hs⟩ := hb
        simp only [Except.ok.injEq, Prod.mk.injEq] at hs
        obtain ⟨rfl, rfl⟩ := hs
        refine ⟨L.step_inv hi hm, ?_⟩
        rcases L.count_step hi hm with ⟨_, h⟩ | ⟨_, h⟩ <;> (simp only; omega)
      | deliver i =>
        simp only [step, stepDeliver] at hb
        split at hb
        · cases hb
        · split at hb
          · simp only [Except.ok.injEq, Prod.mk.injEq] at hb
            obtain ⟨rfl, rfl⟩ := hb
            exact ⟨hi, Nat.le_refl _⟩
          · simp only [bind_ok, Except.ok.injEq, Prod.mk.injEq] at hb
            obtain ⟨mod, hm, rfl, rfl⟩ := hb
            obtain ⟨f1, f2, _, _⟩ := L.failed hi hm
            exact ⟨f1, by simp only; omega⟩
      | take i =>
        simp only [step, stepTake] at hb
        split at hb
        · cases hb
        · simp only [bind_ok, Except.ok.injEq, Prod.mk.injEq] at hb
          obtain ⟨bal, hb, rfl, rfl⟩ := hb
          exact ⟨hi, Nat.le_refl _⟩
      | transfer src dst t n =>
        simp only [step, stepTransfer, bind_ok, Except.ok.injEq, Prod.mk.injEq] at hb
        obtain ⟨_, ha, bal, hb, rfl, rfl⟩ := hb
        exact ⟨hi, Nat.le_refl _⟩
    exact ⟨hk.1, k1, k2.dao, hk.2, by simp [approval]⟩

/-- What a run leaves alone. -/
theorem run_kept (L : LawfulBy M inv) {s w : AWorld M} {b b' : Block} {l : List (Event M)}
    (h : (asys M).Run s b l w b') (hi : inv s.base.mod) (l0 : List (Event M)) :
    inv w.base.mod ∧ w.base.here = s.base.here ∧ w.base.pre.dao = s.base.pre.dao ∧
      M.count s.base.mod ≤ M.count w.base.mod ∧
      ∀ pid, pid ≤ M.count s.base.mod → AMap.get (approvals (l ++ l0)) pid = AMap.get (approvals l0) pid := by
  induction h with
  | refl => exact ⟨hi, rfl, rfl, Nat.le_refl _, fun _ _ => rfl⟩
  | step hrr hbb hs ih =>
    rename_i s1 s2 b1 log env call out
    obtain ⟨i1, i2, i3, i4, i5⟩ := ih
    obtain ⟨j1, j2, j3, j4, j5⟩ := step_kept L i1 hs
    refine ⟨j1, j2.trans i2, j3.trans i3, Nat.le_trans i4 j4, ?_⟩
    intro pid hp
    rw [List.cons_append, approvals_cons]
    cases ha : approval (M := M) ⟨s1, env, call, out, s2⟩ with
    | none => exact i5 pid hp
    | some x =>
      have := j5 x ha
      obtain ⟨p, a⟩ := x
      simp only at this
      simp only [AMap.get]
      rw [if_neg (by omega)]
      exact i5 pid hp

/-- An event of a history: it is a step, from a state that the history up to it leads to. -/
theorem event (L : LawfulBy M inv) {w : AWorld M} {b : Block} {log : List (Event M)} (h : (asys M).Reach w b log)
    {e : Event M} (he : e ∈ log) :
    ∃ l1 l2 b1, log = l2 ++ e :: l1 ∧ (asys M).Reach e.pre b1 l1 ∧ Inv M inv e.pre l1 ∧
      astep e.pre e.env e.call = .ok (e.post, e.out) ∧
      e.pre.base.here = w.base.here ∧ e.pre.base.pre.dao = w.base.pre.dao ∧
      e.post.base.here = w.base.here ∧ e.post.base.pre.dao = w.base.pre.dao ∧
      (∀ id s, AMap.get (submissions l1) id = some s → AMap.get (submissions log) id = some s) ∧
      (∀ pid, pid ≤ M.count e.post.base.mod → AMap.get (approvals log) pid = AMap.get (approvals (e :: l1)) pid) := by
  have hi := inv_reach L h
  obtain ⟨b0, s0, h0, hr⟩ := h
  obtain ⟨l1, l2, b1, rfl, hrun, hb, hs, hrest⟩ := hr.event e he
  have hre : (asys M).Reach e.pre b1 l1 := ⟨b0, s0, h0, hrun⟩
  have hpre := inv_reach L hre
  obtain ⟨j1, j2, j3, j4, j5⟩ := step_kept L hpre.mod hs
  obtain ⟨i1, i2, i3, i4, i5⟩ := run_kept L hrest j1 (e :: l1)
  refine ⟨l1, l2, b1, rfl, hre, hpre, hs, ?_, ?_, i2.symm, i3.symm, ?_, i5⟩
  · rw [i2, j2]
  · rw [i3, j3]
  · intro id s hg
    refine AMap.get_of_mem hi.wf ?_
    have := AMap.mem_of_get hg
    simp only [submissions, List.filterMap_append, List.filterMap_cons, List.mem_append]
    right
    cases submission e with
    | none => exact this
    | some x => exact List.mem_cons_of_mem _ this

/-- A decided submission was there and was not decided before. -/
theorem was_pending {w : AWorld M} {log : List (Event M)} (hi : Inv M inv w log) {id : Nat} {s : Submission M}
    (h : w.app.pending.get id = some s) : id ∉ decided log ∧ AMap.get (submissions log) id = some s := by
  have hnd : id ∉ decided log := by
    intro hd
    rw [hi.pending, if_pos hd] at h; cases h
  exact ⟨hnd, by rw [hi.pending, if_neg hnd] at h; exact h⟩

/-! ## C54 -/

/-- C54: a submission is decided at most once. -/
theorem C54_once (L : Lawful M) {w : AWorld M} {b : Block} {log : List (Event M)} (h : (asys M).Reach w b log)
    (id : Nat) : log.countP (fun e => decide (decides e = some id)) ≤ 1 := by
  obtain ⟨inv, L⟩ := L
  have hn := List.nodup_iff_count.1 (inv_reach L h).nodup id
  have key : ∀ l : List (Event M), l.countP (fun e => decide (decides e = some id)) = (decided l).count id := by
    intro l
    induction l with
    | nil => rfl
    | cons e l ih =>
      rw [List.countP_cons, decided_cons, ih]
      cases hd : decides e with
      | none => simp
      | some x => simp [List.count_cons]
  rw [key]
  exact hn

/-- C54: only the approver of that moment decides, and only a pending submission; only the approver names another
one. -/
theorem C54_by_approver (L : Lawful M) {w : AWorld M} {b : Block} {log : List (Event M)} (h : (asys M).Reach w b log)
    {e : Event M} (he : e ∈ log) :
    (∀ id, decides e = some id → M.sender e.env.mod = e.pre.app.approver ∧
      (∃ s, e.pre.app.pending.get id = some s) ∧ e.post.app.pending.get id = none) ∧
    (∀ a, e.post.app.approver = a → a ≠ e.pre.app.approver →
      e.call = .updateApprover a ∧ M.sender e.env.mod = e.pre.app.approver) := by
  obtain ⟨inv, L⟩ := L
  obtain ⟨l1, l2, b1, _, _, hi, hs, _⟩ := event L h he
  obtain ⟨w, env, c, out, w'⟩ := e
  simp only at hs ⊢
  clear he
  cases c with
  | submit p =>
    simp only [astep, stepSubmit, bind_ok, Except.ok.injEq, Prod.mk.injEq] at hs
    obtain ⟨_, ha, bal, hb, _, hcan, ts, hts, id, _, rfl, rfl⟩ := hs
    exact ⟨by simp [decides], fun a h1 h2 => absurd h1.symm h2⟩
  | approve id =>
    simp only [astep, stepApprove, bind_ok, require_ok, decide_eq_true_eq, orErr_ok] at hs
    obtain ⟨_, ha, bal, hb, _, happ, s, hs0, ⟨mod, mo⟩, hm, hs⟩ := hs
    simp only [Except.ok.injEq, Prod.mk.injEq] at hs
    obtain ⟨rfl, rfl⟩ := hs
    refine ⟨?_, fun a h1 h2 => absurd h1.symm h2⟩
    intro i hid
    simp only [decides, Option.some.injEq] at hid
    subst hid
    exact ⟨happ.symm, ⟨s, hs0⟩, by simp [AMap.get_erase]⟩
  | reject id =>
    simp only [astep, stepReject, bind_ok, require_ok, decide_eq_true_eq, orErr_ok, Except.ok.injEq,
      Prod.mk.injEq] at hs
    obtain ⟨_, ha, bal, hb, _, happ, s, hs0, bal', hpay, rfl, rfl⟩ := hs
    refine ⟨?_, fun a h1 h2 => absurd h1.symm h2⟩
    intro i hid
    simp only [decides, Option.some.injEq] at hid
    subst hid
    exact ⟨happ.symm, ⟨s, hs0⟩, by simp [AMap.get_erase]⟩
  | updateApprover a =>
    simp only [astep, stepUpdateApprover, bind_ok, require_ok, decide_eq_true_eq, Except.ok.injEq, Prod.mk.injEq] at hs
    obtain ⟨_, ha, bal, hb, _, happ, rfl, rfl⟩ := hs
    refine ⟨by simp [decides], ?_⟩
    intro a' h1 h2
    simp only at h1
    subst h1
    exact ⟨rfl, happ.symm⟩
  | addHook a =>
    simp only [astep, stepHook, bind_ok, Except.ok.injEq, Prod.mk.injEq] at hs
    obtain ⟨_, ha, bal, hb, _, happ, hk, _, rfl, rfl⟩ := hs
    exact ⟨by simp [decides], fun a h1 h2 => absurd h1.symm h2⟩
  | removeHook a =>
    simp only [astep, stepHook, bind_ok, Except.ok.injEq, Prod.mk.injEq] at hs
    obtain ⟨_, ha, bal, hb, _, happ, hk, _, rfl, rfl⟩ := hs
    exact ⟨by simp [decides], fun a h1 h2 => absurd h1.symm h2⟩
  | base c =>
    simp only [astep, stepBase, bind_ok, require_ok] at hs
    obtain ⟨_, hc, ⟨b, o1⟩, hb, hs⟩ := hs
    simp only [Except.ok.injEq, Prod.mk.injEq] at hs
    obtain ⟨rfl, rfl⟩ := hs
    exact ⟨by simp [decides], fun a h1 h2 => absurd h1.symm h2⟩

/-- C54: what the contract says is pending is what was submitted and not decided; what it says was rejected or approved
was, with the proposal it says; both with the contents, proposer and deposit submitted. -/
theorem C54_records (L : Lawful M) {w : AWorld M} {b : Block} {log : List (Event M)} (h : (asys M).Reach w b log)
    (id : Nat) (s : Submission M) :
    (w.app.pending.get id = some s ↔
      AMap.get (submissions log) id = some s ∧ ∀ e ∈ log, e.call ≠ .approve id ∧ e.call ≠ .reject id) ∧
    (w.app.completed.get id = some (s, .rejected) ↔
      AMap.get (submissions log) id = some s ∧ ∃ e ∈ log, e.call = .reject id) ∧
    (∀ pid, w.app.completed.get id = some (s, .approved pid) ↔
      AMap.get (submissions log) id = some s ∧ ∃ e ∈ log, e.call = .approve id ∧ e.out.newId = some pid) ∧
    (∀ pid, w.app.created.get pid = some id ↔ ∃ e ∈ log, e.call = .approve id ∧ e.out.newId = some pid) := by
  have hL := L
  obtain ⟨inv, L⟩ := L
  have hi := inv_reach L h
  have happr : ∀ pid, (pid, id) ∈ approvals log ↔ ∃ e ∈ log, e.call = .approve id ∧ e.out.newId = some pid := by
    intro pid
    constructor
    · intro hm
      obtain ⟨e, he, ha⟩ := List.mem_filterMap.1 hm
      unfold approval at ha
      split at ha
      · rename_i i p h1 h2
        injection ha with ha
        injection ha with ha1 ha2
        subst ha1; subst ha2
        exact ⟨e, he, h1, h2⟩
      · cases ha
    · rintro ⟨e, he, h1, h2⟩
      exact List.mem_filterMap.2 ⟨e, he, by simp only [approval, h1, h2]⟩
  have hdec : id ∈ decided log ↔ ∃ e ∈ log, e.call = .approve id ∨ e.call = .reject id := by
    constructor
    · intro hm
      obtain ⟨e, he, hd⟩ := List.mem_filterMap.1 hm
      unfold decides at hd
      split at hd
      · rename_i i h1; injection hd with hd; subst hd; exact ⟨e, he, .inl h1⟩
      · rename_i i h1; injection hd with hd; subst hd; exact ⟨e, he, .inr h1⟩
      · cases hd
    · rintro ⟨e, he, h1 | h1⟩
      · exact List.mem_filterMap.2 ⟨e, he, by simp only [decides, h1]⟩
      · exact List.mem_filterMap.2 ⟨e, he, by simp only [decides, h1]⟩
  have hnew : ∀ e ∈ log, e.call = .approve id → ∃ pid, e.out.newId = some pid := by
    intro e he hc
    obtain ⟨l1, l2, b1, _, _, hi, hs, _⟩ := event L h he
    rw [hc] at hs
    simp only [astep, stepApprove, bind_ok] at hs
    obtain ⟨_, ha, bal, hb, _, happ, s, hs0, ⟨mod, mo⟩, hm, hs⟩ := hs
    simp only [Except.ok.injEq, Prod.mk.injEq] at hs
    exact ⟨_, by rw [← hs.2]; exact (L.propose_new hm).1⟩
  have hnotboth : ∀ e ∈ log, e.call = .reject id → ∀ pid, (pid, id) ∉ approvals log := by
    intro e he hc pid hm
    have := hi.anot _ _ hm e he
    simp only [rejects, hc, decide_true] at this
    cases this
  refine ⟨?_, ?_, ?_, ?_⟩
  · rw [hi.pending]
    by_cases hd : id ∈ decided log
    · rw [if_pos hd]
      refine ⟨by simp, ?_⟩
      rintro ⟨_, hx⟩
      obtain ⟨e, he, h1 | h1⟩ := hdec.1 hd
      · exact absurd h1 (hx e he).1
      · exact absurd h1 (hx e he).2
    · rw [if_neg hd]
      refine ⟨fun hx => ⟨hx, fun e he => ⟨fun h1 => hd (hdec.2 ⟨e, he, .inl h1⟩), fun h1 => hd (hdec.2 ⟨e, he, .inr h1⟩)⟩⟩,
        fun hx => hx.1⟩
  · rw [hi.comp]
    constructor
    · intro hx
      split at hx
      · rename_i hd
        cases hg : AMap.get (submissions log) id with
        | none => rw [hg] at hx; cases hx
        | some s' =>
          rw [hg] at hx
          simp only [Option.map_some, Option.some.injEq, Prod.mk.injEq] at hx
          obtain ⟨rfl, hx⟩ := hx
          refine ⟨rfl, ?_⟩
          obtain ⟨e, he, h1 | h1⟩ := hdec.1 hd
          · exfalso
            obtain ⟨pid, hp⟩ := hnew e he h1
            have hm := (happr pid).2 ⟨e, he, h1, hp⟩
            split at hx
            · cases hx
            · rename_i hn
              have := List.find?_eq_none.1 hn _ hm
              simp at this
          · exact ⟨e, he, h1⟩
      · cases hx
    · rintro ⟨hg, e, he, h1⟩
      rw [if_pos (hdec.2 ⟨e, he, .inr h1⟩), hg]
      have : (approvals log).find? (fun x => x.2 == id) = none := by
        rw [List.find?_eq_none]
        intro x hx
        obtain ⟨p, j⟩ := x
        simp only [beq_iff_eq]
        intro hj
        subst hj
        exact hnotboth e he h1 p hx
      simp [this]
  · intro pid
    rw [hi.comp]
    constructor
    · intro hx
      split at hx
      · rename_i hd
        cases hg : AMap.get (submissions log) id with
        | none => rw [hg] at hx; cases hx
        | some s' =>
          rw [hg] at hx
          simp only [Option.map_some, Option.some.injEq, Prod.mk.injEq] at hx
          obtain ⟨rfl, hx⟩ := hx
          refine ⟨rfl, ?_⟩
          split at hx
          · rename_i y hf
            obtain ⟨p, j⟩ := y
            injection hx with hx
            have h2 := List.find?_some hf
            have h3 := List.mem_of_find?_eq_some hf
            simp only [beq_iff_eq] at h2
            simp only at hx
            subst h2; subst hx
            exact (happr _).1 h3
          · cases hx
      · cases hx
    · rintro ⟨hg, hex⟩
      have hm := (happr pid).2 hex
      rw [if_pos (hi.ale _ _ hm).2, hg]
      cases hf : (approvals log).find? (fun x => x.2 == id) with
      | none =>
        have := List.find?_eq_none.1 hf _ hm
        simp at this
      | some y =>
        have h2 := List.find?_some hf
        have h3 := List.mem_of_find?_eq_some hf
        simp only [beq_iff_eq] at h2
        have := snd_inj hi.aone h3 hm h2
        subst this
        rfl
  · intro pid
    rw [hi.created, ← happr]
    exact ⟨fun hx => AMap.mem_of_get hx, fun hx => AMap.get_of_mem hi.awf hx⟩

/-- C54: a submission gets a number not used before; the policy of that moment let the sender submit; the deposit then
configured is attached exactly, or to be taken from the sender; the submission can be decided from then on. -/
theorem C54_submitted (L : Lawful M) {w : AWorld M} {b : Block} {log : List (Event M)} (h : (asys M).Reach w b log)
    {e : Event M} (he : e ∈ log) {p : M.Payload} (hc : e.call = .submit p) :
    ∃ id, e.out.approvalId = some id ∧ e.out.newId = none ∧ e.post.base.mod = e.pre.base.mod ∧
      AMap.get (submissions log) id = some ⟨p, M.sender e.env.mod, e.pre.base.pre.config.deposit⟩ ∧
      e.pre.app.pending.get id = none ∧ e.pre.app.completed.get id = none ∧
      e.post.app.pending.get id = some ⟨p, M.sender e.env.mod, e.pre.base.pre.config.deposit⟩ ∧
      MaySubmit e.pre.base.pre.config.policy e.env.power (M.sender e.env.mod) ∧
      e.out.notified = Hooks.items e.pre.base.pre.hooks ∧
      match e.pre.base.pre.config.deposit with
      | none => e.post.base.takes = e.pre.base.takes
      | some d => match d.token with
        | .native n => e.env.funds = [(n, d.amount)] ∧ e.post.base.takes = e.pre.base.takes
        | .cw20 c => e.post.base.takes = e.pre.base.takes ++ [(M.sender e.env.mod, .cw20 c, d.amount)] := by
  obtain ⟨inv, L⟩ := L
  have hfin := inv_reach L h
  obtain ⟨l1, l2, b1, rfl, hre, hi, hs, _⟩ := event L h he
  obtain ⟨w0, env, c, out, w'⟩ := e
  simp only at hs hi hc ⊢
  subst hc
  simp only [astep, stepSubmit, advanceId, bind_ok, require_ok, decide_eq_true_eq, Except.ok.injEq, Prod.mk.injEq,
    add64_ok] at hs
  obtain ⟨_, ha, bal, hb, _, hcan, ts, hts, id, ⟨_, rfl⟩, rfl, rfl⟩ := hs
  have hnew : AMap.get (submissions l1) (w0.app.current + 1) = none := by
    cases hg : AMap.get (submissions l1) (w0.app.current + 1) with
    | none => rfl
    | some s =>
      have := hi.le _ _ (AMap.mem_of_get hg)
      omega
  refine ⟨w0.app.current + 1, rfl, rfl, rfl, ?_, ?_, ?_, ?_, ?_, rfl, ?_⟩
  · refine AMap.get_of_mem hfin.wf ?_
    refine List.mem_filterMap.2 ⟨_, he, ?_⟩
    rfl
  · rw [hi.pending, hnew]; split <;> rfl
  · rw [hi.comp, hnew]; split <;> rfl
  · simp only [AMap.get_set, if_true]
  · exact checkCanSubmit_ok.1 hcan
  · unfold takeDeposit at hts
    cases hd : w0.base.pre.config.deposit with
    | none =>
      rw [hd] at hts
      simp only [Except.ok.injEq] at hts
      subst hts
      simp
    | some d =>
      rw [hd] at hts
      simp only [bind_ok, Except.ok.injEq] at hts
      obtain ⟨_, h2, rfl⟩ := hts
      have hg : GoodDeposit (some d) := hd ▸ hi.good
      cases ht : d.token with
      | native n =>
        simp only [checkPaid, ht, bind_ok, require_ok, decide_eq_true_eq] at h2
        obtain ⟨paid, h3, h4⟩ := h2
        have := mustPay_ok h3
        subst h4
        simp only [ht]
        exact ⟨this, by simp [takeMsgs, ht]⟩
      | cw20 c =>
        simp only [takeMsgs, ht]
        rw [if_neg hg.1]

/-- C54: approving a submission makes the proposal module create the next proposal, with the contents submitted and in
the name of who submitted; nothing is paid. -/
theorem C54_approved (L : Lawful M) {w : AWorld M} {b : Block} {log : List (Event M)} (h : (asys M).Reach w b log)
    {e : Event M} (he : e ∈ log) {id : Nat} (hc : e.call = .approve id) :
    ∃ s o, AMap.get (submissions log) id = some s ∧
      M.step e.pre.base.mod (M.calledBy e.env.mod w.base.here) (M.propose s.proposer s.payload) =
        .ok (e.post.base.mod, o) ∧
      e.out.newId = some (M.count e.pre.base.mod + 1) ∧ M.count e.post.base.mod = M.count e.pre.base.mod + 1 ∧
      e.out.pays = [] := by
  obtain ⟨inv, L⟩ := L
  obtain ⟨l1, l2, b1, hlog, hre, hi, hs, hhere, _, _, _, hmono, _⟩ := event L h he
  obtain ⟨w0, env, c, out, w'⟩ := e
  simp only at hs hi hc hhere ⊢
  subst hc
  simp only [astep, stepApprove, bind_ok, require_ok, decide_eq_true_eq, orErr_ok] at hs
  obtain ⟨_, ha, bal, hb, _, happ, s, hs0, ⟨mod, mo⟩, hm, hs⟩ := hs
  simp only [Except.ok.injEq, Prod.mk.injEq] at hs
  obtain ⟨rfl, rfl⟩ := hs
  have hnew := (L.propose_new hm).1
  have hcnt : M.count mod = M.count w0.base.mod + 1 := by
    rcases L.count_step hi.mod hm with ⟨_, h⟩ | ⟨h, _⟩
    · exact h
    · rw [hnew] at h; cases h
  refine ⟨s, mo, hmono _ _ (was_pending hi hs0).2, ?_, hnew, hcnt, rfl⟩
  rw [← hhere]
  exact hm

/-- C54: while this contract is the proposal module's pre-propose module, proposals are made by approvals only. -/
theorem C54_only_approved (L : Lawful M) {w : AWorld M} {b : Block} {log : List (Event M)} (h : (asys M).Reach w b log)
    {e : Event M} (he : e ∈ log) (hp : M.policy e.pre.base.mod = .module w.base.here) :
    (e.out.newId ≠ none ↔ ∃ id, e.call = .approve id) ∧
    (e.out.newId = none → M.count e.post.base.mod = M.count e.pre.base.mod) := by
  have hLf := L
  have h' := h
  obtain ⟨inv, L⟩ := L
  obtain ⟨l1, l2, b1, hlog, hre, hi, hs, hhere, _⟩ := event L h he
  by_cases hcall : ∃ id, e.call = .approve id
  · obtain ⟨id, hc⟩ := hcall
    obtain ⟨_, _, _, _, hn, _⟩ := C54_approved hLf h' he hc
    refine ⟨⟨fun _ => ⟨id, hc⟩, fun _ => by rw [hn]; simp⟩, ?_⟩
    intro hn'; rw [hn] at hn'; cases hn'
  · have key : e.out.newId = none ∧ M.count e.post.base.mod = M.count e.pre.base.mod := by
      obtain ⟨w0, env, c, out, w'⟩ := e
      simp only at hs hi hhere hcall hp ⊢
      clear he hlog
      cases c with
      | submit p =>
        simp only [astep, stepSubmit, bind_ok, Except.ok.injEq, Prod.mk.injEq] at hs
        obtain ⟨_, ha, bal, hb, _, hcan, ts, hts, id, _, rfl, rfl⟩ := hs
        exact ⟨rfl, rfl⟩
      | approve id => exact absurd ⟨id, rfl⟩ hcall
      | reject id =>
        simp only [astep, stepReject, bind_ok, Except.ok.injEq, Prod.mk.injEq] at hs
        obtain ⟨_, ha, bal, hb, _, happ, s, hs0, bal', hpay, rfl, rfl⟩ := hs
        exact ⟨rfl, rfl⟩
      | updateApprover a =>
        simp only [astep, stepUpdateApprover, bind_ok, Except.ok.injEq, Prod.mk.injEq] at hs
        obtain ⟨_, ha, bal, hb, _, happ, rfl, rfl⟩ := hs
        exact ⟨rfl, rfl⟩
      | addHook a =>
        simp only [astep, stepHook, bind_ok, Except.ok.injEq, Prod.mk.injEq] at hs
        obtain ⟨_, ha, bal, hb, _, happ, hk, _, rfl, rfl⟩ := hs
        exact ⟨rfl, rfl⟩
      | removeHook a =>
        simp only [astep, stepHook, bind_ok, Except.ok.injEq, Prod.mk.injEq] at hs
        obtain ⟨_, ha, bal, hb, _, happ, hk, _, rfl, rfl⟩ := hs
        exact ⟨rfl, rfl⟩
      | base c =>
        simp only [astep, stepBase, bind_ok, require_ok] at hs
        obtain ⟨_, hc, ⟨b, o1⟩, hb, hs⟩ := hs
        simp only [Except.ok.injEq, Prod.mk.injEq] at hs
        obtain ⟨rfl, rfl⟩ := hs
        cases c with
        | propose p => cases hc
        | pre m =>
          simp only [step, stepPre, bind_ok] at hb
          obtain ⟨_, ha, bal, hb, ⟨pre, ps⟩, hp, bal', hpay, hs⟩ := hb
          simp only [Except.ok.injEq, Prod.mk.injEq] at hs
          obtain ⟨rfl, rfl⟩ := hs
          exact ⟨rfl, rfl⟩
        | completed id st =>
          simp only [step, stepCompleted, bind_ok, Except.ok.injEq, Prod.mk.injEq] at hb
          obtain ⟨_, ha, ps, hpp, bal', hpay, rfl, rfl⟩ := hb
          exact ⟨rfl, rfl⟩
        | module c =>
          simp only [step, stepModule, bind_ok, require_ok, decide_eq_true_eq] at hb
          obtain ⟨_, ha, _, hout, ⟨mod, mo⟩, hm, hs⟩ := hb
          simp only [Except.ok.injEq, Prod.mk.injEq] at hs
          obtain ⟨rfl, rfl⟩ := hs
          rcases L.count_step hi.mod hm with ⟨hn, _⟩ | ⟨hn, hcn⟩
          · exfalso
            rcases L.new_by hm (by rw [hn]; simp) with hpp | hpp
            · rw [hp] at hpp; cases hpp
            · rw [hp] at hpp
              injection hpp with hpp
              exact ha (hpp.symm.trans hhere.symm)
          · exact ⟨hn, hcn⟩
        | deliver i =>
          simp only [step, stepDeliver] at hb
          split at hb
          · cases hb
          · split at hb
            · simp only [Except.ok.injEq, Prod.mk.injEq] at hb
              obtain ⟨rfl, rfl⟩ := hb
              exact ⟨rfl, rfl⟩
            · simp only [bind_ok, Except.ok.injEq, Prod.mk.injEq] at hb
              obtain ⟨mod, hm, rfl, rfl⟩ := hb
              exact ⟨rfl, (L.failed hi.mod hm).2.1⟩
        | take i =>
          simp only [step, stepTake] at hb
          split at hb
          · cases hb
          · simp only [bind_ok, Except.ok.injEq, Prod.mk.injEq] at hb
            obtain ⟨bal, hb, rfl, rfl⟩ := hb
            exact ⟨rfl, rfl⟩
        | transfer src dst t n =>
          simp only [step, stepTransfer, bind_ok, Except.ok.injEq, Prod.mk.injEq] at hb
          obtain ⟨_, ha, bal, hb, rfl, rfl⟩ := hb
          exact ⟨rfl, rfl⟩
    exact ⟨⟨fun hn => absurd key.1 hn, fun hc => absurd hc hcall⟩, fun _ => key.2⟩

/-- C54: rejecting pays exactly the deposit of the submission, to its proposer if deposits were to be always refunded
when it was made, else to the DAO; no proposal is made. -/
theorem C54_rejected (L : Lawful M) {w : AWorld M} {b : Block} {log : List (Event M)} (h : (asys M).Reach w b log)
    {e : Event M} (he : e ∈ log) {id : Nat} (hc : e.call = .reject id) :
    ∃ s, AMap.get (submissions log) id = some s ∧ e.out.pays = rejectPayment s w.base.pre.dao ∧ e.out.newId = none ∧
      e.post.base.mod = e.pre.base.mod ∧
      (∀ p ∈ e.out.pays, p.to ≠ w.base.here ∧
        e.pre.base.holds p.token + coinsOf p.token e.env.funds = e.post.base.holds p.token + p.amount ∧
        (p.to ≠ M.sender e.env.mod →
          getD0 e.post.base.bal (p.token, p.to) = getD0 e.pre.base.bal (p.token, p.to) + p.amount)) := by
  obtain ⟨inv, L⟩ := L
  obtain ⟨l1, l2, b1, hlog, hre, hi, hs, hhere, hdao, hhere', hdao', hmono, _⟩ := event L h he
  obtain ⟨w0, env, c, out, w'⟩ := e
  simp only at hs hi hc hhere hdao ⊢
  subst hc
  simp only [astep, stepReject, bind_ok, require_ok, decide_eq_true_eq, orErr_ok, Except.ok.injEq, Prod.mk.injEq] at hs
  obtain ⟨_, ha, bal, hb, _, happ, s, hs0, bal', hpay, rfl, rfl⟩ := hs
  obtain ⟨_, hsub⟩ := was_pending hi hs0
  have hto := rejectPayment_to hi hsub
  rw [rejectMsgs_eq hi hsub] at hpay
  refine ⟨s, hmono _ _ hsub, ?_, rfl, rfl, ?_⟩
  · simp only [rejectMsgs_eq hi hsub, hdao]
  · intro p hp
    simp only [rejectMsgs_eq hi hsub] at hp
    have hne := hto p hp
    refine ⟨by rw [← hhere]; exact hne, ?_, ?_⟩
    · have h1 := (payAll_get hpay hto p.token).2.1
      have h2 := (pullCoins_get hb ha p.token).1
      have h3 : payOf p.token (rejectPayment s w0.base.pre.dao) = p.amount := by
        obtain ⟨pl, a, d⟩ := s
        cases d with
        | none => simp [rejectPayment] at hp
        | some d =>
          simp only [rejectPayment, List.mem_singleton] at hp
          subst hp
          simp [rejectPayment]
      have h4 := (payAll_get hpay hto p.token).1
      simp only [World.holds]
      omega
    · intro hns
      have h1 := (payAll_get hpay hto p.token).2.2 p.to hne
      have h2 := (pullCoins_get hb ha p.token).2.2.2 p.to hne hns
      have h3 : payTo p.to p.token (rejectPayment s w0.base.pre.dao) = p.amount := by
        obtain ⟨pl, a, d⟩ := s
        cases d with
        | none => simp [rejectPayment] at hp
        | some d =>
          simp only [rejectPayment, List.mem_singleton] at hp
          subst hp
          simp [rejectPayment]
      simp only
      omega

/-- The rules a proposal made of a submission was submitted under, and who submitted it. -/
def rulesOf (log : List (Event M)) (pid : Nat) : Option (Option Deposit × Addr) :=
  ((AMap.get (approvals log) pid).bind (AMap.get (submissions log))).map (fun s => (s.deposit, s.proposer))

/-- C54: the deposit follows the proposal: when the completion of a proposal is told and accepted, exactly the deposit
of the submission it was made of is paid, to who made that submission or to the DAO as the rules in force at submission
say; the completion of a proposal is told at most once. -/
theorem C54_paid (L : Lawful M) {w : AWorld M} {b : Block} {log : List (Event M)} (h : (asys M).Reach w b log)
    {e : Event M} (he : e ∈ log) {pid : Nat} {st : Status} (hset : settled e = some (pid, st)) :
    e.out.pays = payment (rulesOf log pid) w.base.pre.dao st ∧
      (∃ st', M.statusOf e.pre.base.mod pid = some st' ∧ Reports st st') ∧
      (∀ p ∈ e.out.pays, p.to ≠ w.base.here ∧ e.pre.base.holds p.token = e.post.base.holds p.token + p.amount ∧
        getD0 e.post.base.bal (p.token, p.to) = getD0 e.pre.base.bal (p.token, p.to) + p.amount) := by
  obtain ⟨inv, L⟩ := L
  have hfin := inv_reach L h
  obtain ⟨l1, l2, b1, hlog, hre, hi, hs, hhere, hdao, hhere', hdao', hmono, happr⟩ := event L h he
  obtain ⟨w0, env, c, out, w'⟩ := e
  simp only at hs hi hhere hdao happr hhere' hdao' ⊢
  unfold settled at hset
  split at hset
  · cases hset
  · rename_i hnf
    unfold delivered at hset
    split at hset
    · rename_i i hci
      simp only at hci hset hnf
      subst hci
      simp only [astep, stepBase, bind_ok] at hs
      obtain ⟨_, hc, ⟨b, o1⟩, hb, hs⟩ := hs
      simp only [Except.ok.injEq, Prod.mk.injEq] at hs
      obtain ⟨rfl, rfl⟩ := hs
      simp only [step, stepDeliver, hset] at hb
      split at hb
      · rename_i ps bal hrun
        simp only [Except.ok.injEq, Prod.mk.injEq] at hb
        obtain ⟨rfl, rfl⟩ := hb
        obtain ⟨rfl, hpay⟩ := runHook_ok hi hrun
        obtain ⟨st', hst, hrep⟩ := hi.done.queued _ (List.mem_of_getElem? hset)
        have hle := L.status_count hi.mod hst
        have hpid := happr pid hle
        have e3 : ∀ o w', approvals (M := M) (⟨w0, env, .base (.deliver i), o, w'⟩ :: l1) = approvals l1 := by
          intro o w'; rw [approvals_cons]; rfl
        rw [e3] at hpid
        have hrules : rulesOf log pid = w0.base.pre.deposits.get pid := by
          unfold rulesOf
          rw [hi.deps, hpid]
          cases hx : AMap.get (approvals l1) pid with
          | none => rfl
          | some aid =>
            simp only [Option.bind_some]
            obtain ⟨s, hs⟩ := hi.known aid (hi.ale _ _ (AMap.mem_of_get hx)).2
            rw [hs, hmono _ _ hs]
        have hto := payment_to hi (id := pid) (st := st)
        refine ⟨?_, ⟨st', hst, hrep⟩, ?_⟩
        · rw [hrules, ← hdao]
        · intro p hp
          simp only at hp
          have hne := hto p hp
          have hp1 := payAll_get hpay hto p.token
          have h3 : payOf p.token (payment (w0.base.pre.deposits.get pid) w0.base.pre.dao st) = p.amount ∧
              payTo p.to p.token (payment (w0.base.pre.deposits.get pid) w0.base.pre.dao st) = p.amount := by
            unfold payment at hp ⊢
            split at hp
            · simp only [List.mem_singleton] at hp
              subst hp
              simp
            · simp at hp
          have h4 := hp1.2.2 p.to hne
          refine ⟨by rw [← hhere]; exact hne, ?_, ?_⟩
          · simp only [World.holds]; omega
          · simp only; omega
      · simp only [bind_ok, Except.ok.injEq, Prod.mk.injEq] at hb
        obtain ⟨mod, hm, rfl, rfl⟩ := hb
        simp at hnf
    · cases hset

/-- C54: the completion of a proposal is told at most once. -/
theorem C54_told_once (L : Lawful M) {w : AWorld M} {b : Block} {log : List (Event M)} (h : (asys M).Reach w b log)
    (pid : Nat) : log.countP (fun e => (delivered e).any (fun x => x.1 == pid)) ≤ 1 := by
  obtain ⟨inv, L⟩ := L
  have hn := (List.nodup_append.1 (inv_reach L h).done.nodup).2.1
  have key : ∀ l : List (Event M), l.countP (fun e => (delivered e).any (fun x => x.1 == pid)) =
      ((l.filterMap delivered).map Prod.fst).count pid := by
    intro l
    induction l with
    | nil => rfl
    | cons e l ih =>
      rw [List.countP_cons, List.filterMap_cons, ih]
      cases hd : delivered e with
      | none => simp
      | some x => simp only [List.map_cons, List.count_cons, Option.any_some]
  rw [key]
  exact List.nodup_iff_count.1 hn pid

/-- C54: nothing else is paid: every payment is for a rejection or the completion of a proposal, or a withdrawal by the
DAO to itself. -/
theorem C54_only (L : Lawful M) {w : AWorld M} {b : Block} {log : List (Event M)} (h : (asys M).Reach w b log)
    {e : Event M} (he : e ∈ log) (hp : e.out.pays ≠ []) :
    (∃ id, e.call = .reject id) ∨ (∃ pid st, settled e = some (pid, st)) ∨
      (isWithdraw e ∧ M.sender e.env.mod = w.base.pre.dao ∧ ∀ p ∈ e.out.pays, p.to = w.base.pre.dao) := by
  obtain ⟨inv, L⟩ := L
  obtain ⟨l1, l2, b1, hlog, hre, hi, hs, hhere, hdao, _⟩ := event L h he
  obtain ⟨w0, env, c, out, w'⟩ := e
  simp only at hs hi hhere hdao hp ⊢
  clear he hlog
  cases c with
  | submit p =>
    simp only [astep, stepSubmit, bind_ok, Except.ok.injEq, Prod.mk.injEq] at hs
    obtain ⟨_, ha, bal, hb, _, hcan, ts, hts, id, _, rfl, rfl⟩ := hs
    exact absurd rfl hp
  | approve id =>
    simp only [astep, stepApprove, bind_ok] at hs
    obtain ⟨_, ha, bal, hb, _, happ, s, hs0, ⟨mod, mo⟩, hm, hs⟩ := hs
    simp only [Except.ok.injEq, Prod.mk.injEq] at hs
    obtain ⟨rfl, rfl⟩ := hs
    exact absurd rfl hp
  | reject id => exact .inl ⟨id, rfl⟩
  | updateApprover a =>
    simp only [astep, stepUpdateApprover, bind_ok, Except.ok.injEq, Prod.mk.injEq] at hs
    obtain ⟨_, ha, bal, hb, _, happ, rfl, rfl⟩ := hs
    exact absurd rfl hp
  | addHook a =>
    simp only [astep, stepHook, bind_ok, Except.ok.injEq, Prod.mk.injEq] at hs
    obtain ⟨_, ha, bal, hb, _, happ, hk, _, rfl, rfl⟩ := hs
    exact absurd rfl hp
  | removeHook a =>
    simp only [astep, stepHook, bind_ok, Except.ok.injEq, Prod.mk.injEq] at hs
    obtain ⟨_, ha, bal, hb, _, happ, hk, _, rfl, rfl⟩ := hs
    exact absurd rfl hp
  | base c =>
    right
    simp only [astep, stepBase, bind_ok, require_ok] at hs
    obtain ⟨_, hc, ⟨b, o1⟩, hb, hs⟩ := hs
    simp only [Except.ok.injEq, Prod.mk.injEq] at hs
    obtain ⟨rfl, rfl⟩ := hs
    cases c with
    | propose p => cases hc
    | pre m =>
      right
      simp only [step, stepPre, bind_ok] at hb
      obtain ⟨_, ha, bal, hb, ⟨pre, ps⟩, hpp, bal', hpay, hs⟩ := hb
      simp only [Except.ok.injEq, Prod.mk.injEq] at hs
      obtain ⟨rfl, rfl⟩ := hs
      rcases (exec_kept hpp).2 with rfl | ⟨t, t', rfl, _, hd, _, rfl, _⟩
      · exact absurd rfl hp
      · refine ⟨⟨_, rfl⟩, by rw [← hdao]; exact hd, ?_⟩
        intro p hp
        simp only [List.mem_singleton] at hp
        rw [hp, ← hdao]
    | completed id st =>
      exfalso
      simp only [step, stepCompleted, bind_ok, require_ok, decide_eq_true_eq] at hb
      obtain ⟨_, ha, ps, hp, _⟩ := hb
      unfold execCompleted at hp
      simp only [bind_ok, require_ok, decide_eq_true_eq] at hp
      obtain ⟨_, h1, _⟩ := hp
      exact ha.2 h1
    | module c =>
      simp only [step, stepModule, bind_ok] at hb
      obtain ⟨_, ha, _, hout, ⟨mod, mo⟩, hm, hs⟩ := hb
      simp only [Except.ok.injEq, Prod.mk.injEq] at hs
      obtain ⟨rfl, rfl⟩ := hs
      exact absurd rfl hp
    | deliver i =>
      left
      simp only [step, stepDeliver] at hb
      split at hb
      · cases hb
      · rename_i id st hq
        split at hb
        · simp only [Except.ok.injEq, Prod.mk.injEq] at hb
          obtain ⟨rfl, rfl⟩ := hb
          exact ⟨id, st, hq⟩
        · simp only [bind_ok, Except.ok.injEq, Prod.mk.injEq] at hb
          obtain ⟨mod, hm, rfl, rfl⟩ := hb
          exact absurd rfl hp
    | take i =>
      simp only [step, stepTake] at hb
      split at hb
      · cases hb
      · simp only [bind_ok, Except.ok.injEq, Prod.mk.injEq] at hb
        obtain ⟨bal, hb, rfl, rfl⟩ := hb
        exact absurd rfl hp
    | transfer src dst t n =>
      simp only [step, stepTransfer, bind_ok, Except.ok.injEq, Prod.mk.injEq] at hb
      obtain ⟨_, ha, bal, hb, rfl, rfl⟩ := hb
      exact absurd rfl hp

/-- C54: as long as the DAO has not withdrawn a token, the deposits in it of all submissions that are not finished are
there, or about to be taken in the running transaction. -/
theorem C54_solvent (L : Lawful M) {w : AWorld M} {b : Block} {log : List (Event M)} (h : (asys M).Reach w b log)
    (t : Token) (hw : ∀ e ∈ log, isWithdraw e → payOf t e.out.pays = 0) :
    owed log t ≤ w.base.holds t + toTake w.base t := by
  obtain ⟨inv, L⟩ := L
  exact solvent L h t hw

/-- C54: then the approver can reject every pending submission, if no deposit is still to be taken and the receiver's
balance can grow by the deposit. -/
theorem C54_can_reject (L : Lawful M) {w : AWorld M} {b : Block} {log : List (Event M)} (h : (asys M).Reach w b log)
    (hw : ∀ e ∈ log, ¬ isWithdraw e) (ht : w.base.takes = []) {id : Nat} {s : Submission M}
    (hp : w.app.pending.get id = some s)
    (hroom : ∀ p ∈ rejectPayment s w.base.pre.dao, getD0 w.base.bal (p.token, p.to) + p.amount < U128)
    (e : Env M) (hf : e.funds = []) (hse : M.sender e.mod = w.app.approver) (hne : w.app.approver ≠ w.base.here) :
    ∃ w', (asys M).step w e (.reject id) = .ok (w', { pays := rejectPayment s w.base.pre.dao }) := by
  obtain ⟨inv, L⟩ := L
  have hi := inv_reach L h
  obtain ⟨hnd, hsub⟩ := was_pending hi hp
  have hto := rejectPayment_to hi hsub
  have hnf : finished log id = false := by
    cases hc : finished log id with
    | false => rfl
    | true => exact absurd (finished_decided hi hc) hnd
  have hpay : ∃ bal, payAll w.base.here (rejectPayment s w.base.pre.dao) w.base.bal = .ok bal := by
    obtain ⟨pl, a, d⟩ := s
    cases d with
    | none => exact ⟨w.base.bal, rfl⟩
    | some d =>
      have hto := hto _ (List.mem_singleton.2 rfl)
      have hroom := hroom _ (List.mem_singleton.2 rfl)
      simp only at hto hroom
      have hsol := solvent L h d.token (fun e he hwd => absurd hwd (hw e he))
      have hle : d.amount ≤ owed log d.token := by
        have := AMap.at_le_sum (fun id' (x : Submission M) => if finished log id' then 0 else amountIn d.token x.deposit)
          (submissions log) id
        simp only [AMap.at?, hsub, hnf, amountIn, if_true] at this
        exact this
      have h0 : toTake w.base d.token = 0 := by simp [toTake, ht]
      simp only [World.holds] at hsol
      obtain ⟨l', hl'⟩ := Ledger.move_live (l := w.base.bal) (a := (d.token, w.base.here))
        (b := (d.token, if d.refund = .always then a else w.base.pre.dao)) (n := d.amount)
        (by intro e; simp only [Prod.mk.injEq, true_and] at e; exact hto e.symm) (by omega) hroom
      refine ⟨l', ?_⟩
      simp only [rejectPayment, payAll, hl', ok_bind]
  obtain ⟨bal, hbal⟩ := hpay
  refine ⟨{ base := { w.base with bal := bal }
            app := { w.app with completed := w.app.completed.set id (s, .rejected)
                                pending := w.app.pending.erase id } }, ?_⟩
  change stepReject w e id = _
  simp only [stepReject, hse, hf, pullCoins, require, decide_true, if_true, ok_bind, hp, orErr, rejectMsgs_eq hi hsub,
    hbal, hne, ne_eq, not_false_eq_true]

/-! ## Concrete histories -/

/-- The contract at address 60, with approver 90, just instantiated. -/
def appStart : AWorld single := { base := start, app := ⟨90, 0, [], [], []⟩ }

theorem appStart_init : (asys single).init ⟨0, 0⟩ appStart := ⟨start_init, rfl, rfl, rfl, rfl⟩

/-- Three submissions with deposits; the first is approved and executed, the second rejected by a new approver, the
third waits. -/
def appCalls : List (Env single × ACall single) :=
  [(tx 0 40, .base (.module (.replyPreProposeInstantiated 60))),
   (tx 1 7 [(9, 5)], .submit ⟨11, [70], none, true⟩),
   (tx 2 100, .base (.pre (.updateConfig (some depB) none))),
   (tx 2 100, .base (.pre (.updatePolicy (some [5]) (some [6]) none none none))),
   (tx 3 8, .submit ⟨12, [80], none, true⟩),
   (tx 3 8, .base (.take 0)),
   (tx 3 8, .submit ⟨13, [90], none, true⟩),
   (tx 3 8, .base (.take 0)),
   (tx 3 90, .approve 1),
   (tx 3 90, .updateApprover 91),
   (tx 4 91, .addHook 77),
   (tx 4 1, .base (.module (.vote 1 .yes none))),
   (tx 5 2, .base (.module (.vote 1 .yes none))),
   (tx 5 91, .reject 2),
   (tx 20 3, .base (.module (.execute 1 false))),
   (tx 20 3, .base (.deliver 0))]

/-- All calls succeed; the deposits of the first two submissions went back to who had paid them, that of the third is
still there. -/
theorem C54_example : ∃ w b log, (asys single).Reach w b log ∧
    log.length = 16 ∧ (submissions log).map (fun x => (x.1, x.2.proposer, x.2.deposit)) =
      [(3, 8, some depB), (2, 8, some depB), (1, 7, some depA)] ∧
    decided log = [2, 1] ∧ approvals log = [(1, 1)] ∧ single.statusOf w.base.mod 1 = some .executed ∧
    log.filterMap (fun e => settled e) = [(1, .executed)] ∧
    (log.map (fun e => e.out.pays)).flatten = [⟨7, .native 9, 5⟩, ⟨8, .cw20 33, 8⟩] ∧
    w.base.holds (.native 9) = 0 ∧ w.base.holds (.cw20 33) = 8 ∧ w.app.approver = 91 ∧
    w.app.pending.map (fun x => x.1) = [3] ∧ single.policy w.base.mod = .module 60 := by
  obtain ⟨w, b, log, hr, hp⟩ := Sys.check_run (M := asys single) (s := appStart) (b := ⟨0, 0⟩) (cs := appCalls)
    (p := fun w b log => decide (log.length = 16 ∧ (submissions log).map (fun x => (x.1, x.2.proposer, x.2.deposit)) =
      [(3, 8, some depB), (2, 8, some depB), (1, 7, some depA)] ∧
    decided log = [2, 1] ∧ approvals log = [(1, 1)] ∧ single.statusOf w.base.mod 1 = some .executed ∧
    log.filterMap (fun e => settled e) = [(1, .executed)] ∧
    (log.map (fun e => e.out.pays)).flatten = [⟨7, .native 9, 5⟩, ⟨8, .cw20 33, 8⟩] ∧
    w.base.holds (.native 9) = 0 ∧ w.base.holds (.cw20 33) = 8 ∧ w.app.approver = 91 ∧
    w.app.pending.map (fun x => x.1) = [3] ∧ single.policy w.base.mod = .module 60)) (by decide +kernel)
  exact ⟨w, b, log, ⟨_, _, appStart_init, hr⟩, of_decide_eq_true hp⟩

end Verif.PrePropose.App
