import Verif.Proofs.PreProposeApproval
/-! What dao-pre-propose-approval-single holds and owes. -/

namespace Verif.PrePropose.App
open Verif Verif.Voting Verif.PrePropose Verif.Spec.Approval
open Verif.Spec (Final)
open Verif.Spec.PrePropose (SoundPolicy MaySubmit amountIn payment toTake receiver)

variable {M : PropModule} {inv : M.St → Prop}

theorem isSettled_cons (e : Event M) (log : List (Event M)) (id : Nat) :
    isSettled (e :: log) id = ((match settled e with | some x => decide (x.1 = id) | none => false) || isSettled log id) := by
  rfl

theorem isSettled_told {log : List (Event M)} {id : Nat} (h : isSettled log id = true) :
    ∃ st, (id, st) ∈ log.filterMap delivered := by
  simp only [isSettled, List.any_eq_true] at h
  obtain ⟨e, he, hx⟩ := h
  unfold settled at hx
  split at hx
  · rename_i x hs
    split at hs
    · cases hs
    · have hx := of_decide_eq_true hx
      exact ⟨x.2, List.mem_filterMap.2 ⟨e, he, by rw [hs, ← hx]⟩⟩
  · cases hx

theorem any_congr {α : Type} {l : List α} {p q : α → Bool} (h : ∀ x ∈ l, p x = q x) : l.any p = l.any q := by
  induction l with
  | nil => rfl
  | cons a l ih =>
    rw [List.any_cons, List.any_cons, h a (List.mem_cons_self ..), ih (fun x hx => h x (List.mem_cons_of_mem _ hx))]

theorem snd_inj {l : List (Nat × Nat)} (h : (l.map Prod.snd).Nodup) {x y : Nat × Nat} (hx : x ∈ l) (hy : y ∈ l)
    (he : x.2 = y.2) : x = y := by
  induction l with
  | nil => cases hx
  | cons a l ih =>
    rw [List.map_cons, List.nodup_cons] at h
    rcases List.mem_cons.1 hx with h1 | h1 <;> rcases List.mem_cons.1 hy with h2 | h2
    · rw [h1, h2]
    · exact absurd (List.mem_map.2 ⟨y, h2, by rw [← he, h1]⟩) h.1
    · exact absurd (List.mem_map.2 ⟨x, h1, by rw [he, h2]⟩) h.1
    · exact ih h.2 h1 h2

theorem rejects_decided {log : List (Event M)} {id : Nat} (h : log.any (fun e => rejects e id) = true) :
    id ∈ decided log := by
  simp only [List.any_eq_true] at h
  obtain ⟨e, he, hr⟩ := h
  unfold rejects at hr
  split at hr
  · rename_i j hj
    have := of_decide_eq_true hr
    subst this
    exact List.mem_filterMap.2 ⟨e, he, by simp only [decides, hj]⟩
  · cases hr

/-- Only decided submissions are finished. -/
theorem finished_decided {w : AWorld M} {log : List (Event M)} (hi : Inv M inv w log) {id : Nat}
    (h : finished log id = true) : id ∈ decided log := by
  unfold finished at h
  rcases Bool.or_eq_true _ _ ▸ h with h | h
  · exact rejects_decided h
  · obtain ⟨x, hx, h⟩ := List.any_eq_true.1 h
    simp only [Bool.and_eq_true, decide_eq_true_eq] at h
    obtain ⟨pid, j⟩ := x
    obtain ⟨rfl, _⟩ := h
    exact (hi.ale _ _ hx).2

theorem finished_quiet {e : Event M} {log : List (Event M)} (h1 : ∀ id, rejects e id = false) (h2 : approval e = none)
    (h3 : settled e = none) (id : Nat) : finished (e :: log) id = finished log id := by
  have e2 : approvals (e :: log) = approvals log := by rw [approvals_cons, h2]
  simp only [finished, List.any_cons, h1, Bool.false_or, e2, isSettled_cons, h3]

theorem owed_same {e : Event M} {log : List (Event M)} (h0 : submission e = none) (h1 : ∀ id, rejects e id = false)
    (h2 : approval e = none) (h3 : settled e = none) (t : Token) : owed (e :: log) t = owed log t := by
  have e1 : submissions (e :: log) = submissions log := by rw [submissions_cons, h0]
  simp only [owed, e1, finished_quiet h1 h2 h3]

/-- A submission becomes finished: its deposit is no longer owed. -/
theorem owed_flip {w : AWorld M} {log : List (Event M)} (hi : Inv M inv w log) {e : Event M} {id : Nat}
    (h0 : submission e = none) (h1 : ∀ k, finished (e :: log) k = (finished log k || decide (k = id)))
    (h2 : finished log id = false) (t : Token) :
    owed (e :: log) t + (match AMap.get (submissions log) id with | some s => amountIn t s.deposit | none => 0) =
      owed log t := by
  have e1 : submissions (e :: log) = submissions log := by rw [submissions_cons, h0]
  have := AMap.sum_zero_at hi.wf
    (fun id' (x : Submission M) => if finished (e :: log) id' then 0 else amountIn t x.deposit)
    (fun id' (x : Submission M) => if finished log id' then 0 else amountIn t x.deposit) id
    (by intro v; simp [h1])
    (by
      intro k v hk
      have : finished (e :: log) k = finished log k := by
        rw [h1, decide_eq_false hk, Bool.or_false]
      simp only [this])
  simp only [owed, e1]
  rw [← this]
  congr 1
  simp only [AMap.at?]
  cases AMap.get (submissions log) id with
  | none => rfl
  | some x => simp [h2]

/-- Deposits go to others. -/
theorem payment_to {w : AWorld M} {log : List (Event M)} (hi : Inv M inv w log) {id : Nat} {st : Status} :
    ∀ p ∈ payment (w.base.pre.deposits.get id) w.base.pre.dao st, p.to ≠ w.base.here := by
  intro p hp
  rw [hi.deps] at hp
  cases hx : AMap.get (approvals log) id with
  | none => rw [hx] at hp; simp [payment] at hp
  | some aid =>
    cases hy : AMap.get (submissions log) aid with
    | none => rw [hx] at hp; simp [payment, hy] at hp
    | some s =>
      rw [hx] at hp
      simp only [Option.bind_some, hy, Option.map_some] at hp
      obtain ⟨pl, a, d⟩ := s
      cases d with
      | none => simp [payment] at hp
      | some d =>
        simp only [payment, List.mem_singleton] at hp
        subst hp
        simp only [receiver]
        split
        · exact (hi.ok _ _ (AMap.mem_of_get hy)).2
        · exact hi.daoNe

/-- Of what a hook runs. -/
theorem runHook_ok {w : AWorld M} {log : List (Event M)} (hi : Inv M inv w log) {id : Nat} {st : Status} {ps : List Pay}
    {bal : Balances} (h : runHook w.base id st = .ok (ps, bal)) :
    ps = payment (w.base.pre.deposits.get id) w.base.pre.dao st ∧ payAll w.base.here ps w.base.bal = .ok bal := by
  simp only [runHook, bind_ok, Except.ok.injEq, Prod.mk.injEq] at h
  obtain ⟨ps', h1, bal', h2, rfl, rfl⟩ := h
  have hg : ∀ d p, w.base.pre.deposits.get id = some (d, p) → GoodDeposit d := by
    intro d p hd
    rw [hi.deps] at hd
    cases hx : AMap.get (approvals log) id with
    | none => rw [hx] at hd; cases hd
    | some aid =>
      rw [hx] at hd
      simp only [Option.bind_some] at hd
      cases hy : AMap.get (submissions log) aid with
      | none => rw [hy] at hd; cases hd
      | some s =>
        rw [hy] at hd
        simp only [Option.map_some, Option.some.injEq, Prod.mk.injEq] at hd
        rw [← hd.1]
        exact (hi.ok _ _ (AMap.mem_of_get hy)).1
  exact ⟨(execCompleted_ok hg h1).2.2, h2⟩

/-- What rejecting pays. -/
theorem rejectMsgs_eq {w : AWorld M} {log : List (Event M)} (hi : Inv M inv w log) {id : Nat} {s : Submission M}
    (h : AMap.get (submissions log) id = some s) (dao : Addr) : rejectMsgs dao s = rejectPayment s dao := by
  have hg := (hi.ok _ _ (AMap.mem_of_get h)).1
  obtain ⟨pl, a, d⟩ := s
  cases d with
  | none => rfl
  | some d =>
    simp only [rejectMsgs, rejectPayment]
    simp only [GoodDeposit] at hg
    exact returnMsgs_eq hg.1 _

theorem rejectPayment_to {w : AWorld M} {log : List (Event M)} (hi : Inv M inv w log) {id : Nat} {s : Submission M}
    (h : AMap.get (submissions log) id = some s) : ∀ p ∈ rejectPayment s w.base.pre.dao, p.to ≠ w.base.here := by
  have hg := (hi.ok _ _ (AMap.mem_of_get h)).2
  intro p hp
  obtain ⟨pl, a, d⟩ := s
  cases d with
  | none => simp [rejectPayment] at hp
  | some d =>
    simp only [rejectPayment, List.mem_singleton] at hp
    subst hp
    simp only
    split
    · exact hg
    · exact hi.daoNe

theorem payOf_rejectPayment (t : Token) (s : Submission M) (dao : Addr) :
    payOf t (rejectPayment s dao) = amountIn t s.deposit := by
  obtain ⟨pl, a, d⟩ := s
  cases d with
  | none => rfl
  | some d => simp [rejectPayment, amountIn]

/-- Unless the DAO withdrew the token, what the contract holds covers what it owes. -/
theorem solvent (L : LawfulBy M inv) {w : AWorld M} {b : Block} {log : List (Event M)}
    (h : (asys M).Reach w b log) (t : Token) (hw : ∀ e ∈ log, isWithdraw e → payOf t e.out.pays = 0) :
    owed log t ≤ w.base.holds t + toTake w.base t := by
  refine Sys.Reach.induct (P := fun w _ log => (∀ e ∈ log, isWithdraw e → payOf t e.out.pays = 0) →
    owed log t ≤ w.base.holds t + toTake w.base t) ?_ ?_ h hw
  · intro _ _ _ _; exact Nat.zero_le _
  · intro w b log e c o w' hr ih _ hs hw
    have ih := ih (fun e he => hw e (List.mem_cons_of_mem _ he))
    have hw0 := hw _ (List.mem_cons_self ..)
    have hi := inv_reach L hr
    change astep w e c = .ok (w', o) at hs
    clear hw
    cases c with
    | submit p =>
      simp only [astep, stepSubmit, advanceId, bind_ok, require_ok, decide_eq_true_eq, Except.ok.injEq, Prod.mk.injEq,
        add64_ok] at hs
      obtain ⟨_, ha, bal, hb, _, hcan, ts, hts, id, ⟨_, rfl⟩, rfl, rfl⟩ := hs
      have ho : ∀ o w', o.approvalId = some (w.app.current + 1) → o.failed = false →
          owed (M := M) (⟨w, e, .submit p, o, w'⟩ :: log) t ≤ amountIn t w.base.pre.config.deposit + owed log t := by
        intro o w' h1 h2
        simp only [owed, submissions_cons, submission, h1, AMap.sum]
        have : ∀ id, finished (M := M) (⟨w, e, .submit p, o, w'⟩ :: log) id = finished log id := by
          intro id
          refine finished_quiet (fun _ => rfl) rfl ?_ id
          simp [settled, delivered]
        simp only [this]
        split <;> omega
      refine Nat.le_trans (ho _ _ rfl rfl) ?_
      rw [toTake_append w.base t ts rfl]
      have := (takeDeposit_ok hts).1 t
      have hbal := (pullCoins_get hb ha t).1
      simp only [World.holds] at ih ⊢
      omega
    | approve id =>
      simp only [astep, stepApprove, bind_ok, require_ok, decide_eq_true_eq, orErr_ok] at hs
      obtain ⟨_, ha, bal, hb, _, happ, s, hs0, ⟨mod, mo⟩, hm, hs⟩ := hs
      simp only [Except.ok.injEq, Prod.mk.injEq] at hs
      obtain ⟨rfl, rfl⟩ := hs
      have hnew := (L.propose_new hm).1
      have hbal := (pullCoins_get hb ha t).1
      have ho : ∀ o w', o.newId = some (M.count w.base.mod + 1) → 
          owed (M := M) (⟨w, e, .approve id, o, w'⟩ :: log) t = owed log t := by
        intro o w' h1
        have e1 : submissions (M := M) (⟨w, e, .approve id, o, w'⟩ :: log) = submissions log := by
          rw [submissions_cons]; rfl
        have e3 : approvals (M := M) (⟨w, e, .approve id, o, w'⟩ :: log) =
            (M.count w.base.mod + 1, id) :: approvals log := by
          rw [approvals_cons]; simp only [approval, h1]
        have e4 : settled (M := M) ⟨w, e, .approve id, o, w'⟩ = none := by simp [settled, delivered]
        have hns : isSettled log (M.count w.base.mod + 1) = false := by
          cases hc : isSettled log (M.count w.base.mod + 1) with
          | false => rfl
          | true =>
            exfalso
            obtain ⟨st, hst⟩ := isSettled_told hc
            obtain ⟨st', h2, _⟩ := hi.done.past _ hst
            have := L.status_count hi.mod h2
            simp only at this
            omega
        have hf : ∀ k, finished (M := M) (⟨w, e, .approve id, o, w'⟩ :: log) k = finished log k := by
          intro k
          simp only [finished, List.any_cons, rejects, Bool.false_or, e3, isSettled_cons, e4, hns, Bool.and_false]
        simp only [owed, e1, hf]
      rw [ho _ _ hnew]
      simp only [World.holds, toTake] at ih ⊢
      omega
    | reject id =>
      simp only [astep, stepReject, bind_ok, require_ok, decide_eq_true_eq, orErr_ok, Except.ok.injEq,
        Prod.mk.injEq] at hs
      obtain ⟨_, ha, bal, hb, _, happ, s, hs0, bal', hpay, rfl, rfl⟩ := hs
      have hnd : id ∉ decided log := by
        intro h
        rw [hi.pending, if_pos h] at hs0; cases hs0
      have hsub : AMap.get (submissions log) id = some s := by
        rw [hi.pending, if_neg hnd] at hs0; exact hs0
      have hbal := (pullCoins_get hb ha t).1
      rw [rejectMsgs_eq hi hsub] at hpay
      have hp := payAll_get hpay (rejectPayment_to hi hsub) t
      rw [payOf_rejectPayment] at hp
      have ho : ∀ o w', owed (M := M) (⟨w, e, .reject id, o, w'⟩ :: log) t + amountIn t s.deposit = owed log t := by
        intro o w'
        have e3 : approvals (M := M) (⟨w, e, .reject id, o, w'⟩ :: log) = approvals log := by
          rw [approvals_cons]; rfl
        have e4 : settled (M := M) ⟨w, e, .reject id, o, w'⟩ = none := by simp [settled, delivered]
        have := owed_flip hi (e := ⟨w, e, .reject id, o, w'⟩) (id := id) rfl
          (by
            intro k
            simp only [finished, List.any_cons, rejects, e3, isSettled_cons, e4, Bool.false_or]
            by_cases hk : id = k
            · subst hk; simp
            · rw [decide_eq_false hk, decide_eq_false (fun h => hk h.symm), Bool.false_or, Bool.or_false])
          (by
            cases hc : finished log id with
            | false => rfl
            | true => exact absurd (finished_decided hi hc) hnd) t
        rw [hsub] at this
        exact this
      have hoo := ho {} w
      have ho' : ∀ o w', owed (M := M) (⟨w, e, .reject id, o, w'⟩ :: log) t = owed log t - amountIn t s.deposit := by
        intro o w'; have := ho o w'; omega
      rw [ho']
      simp only [World.holds, toTake] at ih ⊢
      omega
    | updateApprover a =>
      simp only [astep, stepUpdateApprover, bind_ok, require_ok, decide_eq_true_eq, Except.ok.injEq, Prod.mk.injEq] at hs
      obtain ⟨_, ha, bal, hb, _, happ, rfl, rfl⟩ := hs
      rw [owed_same rfl (fun _ => rfl) rfl rfl]
      have hbal := (pullCoins_get hb ha t).1
      simp only [World.holds, toTake] at ih ⊢
      omega
    | addHook a =>
      simp only [astep, stepHook, bind_ok, require_ok, decide_eq_true_eq, Except.ok.injEq, Prod.mk.injEq] at hs
      obtain ⟨_, ha, bal, hb, _, happ, hk, _, rfl, rfl⟩ := hs
      rw [owed_same rfl (fun _ => rfl) rfl rfl]
      have hbal := (pullCoins_get hb ha t).1
      simp only [World.holds, toTake] at ih ⊢
      omega
    | removeHook a =>
      simp only [astep, stepHook, bind_ok, require_ok, decide_eq_true_eq, Except.ok.injEq, Prod.mk.injEq] at hs
      obtain ⟨_, ha, bal, hb, _, happ, hk, _, rfl, rfl⟩ := hs
      rw [owed_same rfl (fun _ => rfl) rfl rfl]
      have hbal := (pullCoins_get hb ha t).1
      simp only [World.holds, toTake] at ih ⊢
      omega
    | base c =>
      simp only [astep, stepBase, bind_ok, require_ok] at hs
      obtain ⟨_, hc, ⟨b1, o1⟩, hs1, hs⟩ := hs
      simp only [Except.ok.injEq, Prod.mk.injEq] at hs
      obtain ⟨rfl, rfl⟩ := hs
      cases c with
      | propose p => cases hc
      | pre m =>
        simp only [step, stepPre, bind_ok, require_ok, decide_eq_true_eq] at hs1
        obtain ⟨_, ha, bal, hb, ⟨pre, ps⟩, hp, bal', hpay, hs⟩ := hs1
        simp only [Except.ok.injEq, Prod.mk.injEq] at hs
        obtain ⟨rfl, rfl⟩ := hs
        obtain ⟨_, hk⟩ := exec_kept hp
        rw [owed_same rfl (fun _ => rfl) rfl rfl]
        have hbal := (pullCoins_get hb ha t).1
        have hz : payOf t ps = 0 ∧ ∀ p ∈ ps, p.to ≠ w.base.here := by
          rcases hk with rfl | ⟨x, t', rfl, _, _, _, rfl, _⟩
          · exact ⟨rfl, by simp⟩
          · refine ⟨hw0 ⟨_, rfl⟩, ?_⟩
            intro p hp
            simp only [List.mem_singleton] at hp
            subst hp; exact hi.daoNe
        have := (payAll_get hpay hz.2 t).2.1
        have hz1 := hz.1
        simp only at this
        simp only [World.holds, toTake] at ih ⊢
        omega
      | completed id st =>
        exfalso
        simp only [step, stepCompleted, bind_ok, require_ok, decide_eq_true_eq] at hs1
        obtain ⟨_, ha, ps, hp, bal', hpay, hs⟩ := hs1
        unfold execCompleted at hp
        simp only [bind_ok, require_ok, decide_eq_true_eq] at hp
        obtain ⟨_, h1, _⟩ := hp
        exact ha.2 h1
      | module c =>
        simp only [step, stepModule, bind_ok, require_ok, decide_eq_true_eq] at hs1
        obtain ⟨_, ha, _, hout, ⟨mod, mo⟩, hm, hs⟩ := hs1
        simp only [Except.ok.injEq, Prod.mk.injEq] at hs
        obtain ⟨rfl, rfl⟩ := hs
        rw [owed_same rfl (fun _ => rfl) rfl rfl]
        exact ih
      | deliver i =>
        simp only [step, stepDeliver] at hs1
        split at hs1
        · cases hs1
        · rename_i id st hq
          split at hs1
          · rename_i ps bal hrun
            simp only [Except.ok.injEq, Prod.mk.injEq] at hs1
            obtain ⟨rfl, rfl⟩ := hs1
            obtain ⟨rfl, hpay⟩ := runHook_ok hi hrun
            have hp := payAll_get hpay (payment_to hi) t
            have hns : isSettled log id = false := by
              cases hc : isSettled log id with
              | false => rfl
              | true =>
                exfalso
                have hn := hi.done.nodup
                have h1 : id ∈ w.base.queue.map Prod.fst := List.mem_map.2 ⟨(id, st), List.mem_of_getElem? hq, rfl⟩
                obtain ⟨st', h2⟩ := isSettled_told hc
                exact (List.nodup_append.1 hn).2.2 id h1 id (List.mem_map.2 ⟨_, h2, rfl⟩) rfl
            have ho : ∀ o w', o.failed = false → owed (M := M) (⟨w, e, .base (.deliver i), o, w'⟩ :: log) t +
                payOf t (payment (w.base.pre.deposits.get id) w.base.pre.dao st) = owed log t := by
              intro o w' hof
              have e1 : submissions (M := M) (⟨w, e, .base (.deliver i), o, w'⟩ :: log) = submissions log := by
                rw [submissions_cons]; rfl
              have e3 : approvals (M := M) (⟨w, e, .base (.deliver i), o, w'⟩ :: log) = approvals log := by
                rw [approvals_cons]; rfl
              have e4 : settled (M := M) ⟨w, e, .base (.deliver i), o, w'⟩ = some (id, st) := by
                simp only [settled, hof, delivered]; exact hq
              rw [payOf_payment, hi.deps]
              cases hx : AMap.get (approvals log) id with
              | none =>
                have hf : ∀ k, finished (M := M) (⟨w, e, .base (.deliver i), o, w'⟩ :: log) k = finished log k := by
                  intro k
                  simp only [finished, List.any_cons, rejects, Bool.false_or, e3, isSettled_cons, e4]
                  congr 1
                  refine any_congr ?_
                  intro x hxm
                  have : id ≠ x.1 := by
                    intro h
                    have := AMap.get_of_mem hi.awf hxm
                    rw [← h, hx] at this; cases this
                  rw [decide_eq_false this, Bool.false_or]
                simp only [owed, e1, hf, Option.bind_none, Option.map_none]
                rfl
              | some aid =>
                have hmem := AMap.mem_of_get hx
                have huniq : ∀ x ∈ approvals log, x.2 = aid → x.1 = id := by
                  intro x hxm h
                  exact congrArg Prod.fst (snd_inj hi.aone hxm hmem h)
                have := owed_flip hi (e := ⟨w, e, .base (.deliver i), o, w'⟩) (id := aid) rfl
                  (by
                    intro k
                    simp only [finished, List.any_cons, rejects, Bool.false_or, e3, isSettled_cons, e4]
                    by_cases hk : k = aid
                    · subst hk
                      rw [decide_eq_true rfl, Bool.or_true, Bool.or_eq_true]
                      right
                      refine List.any_eq_true.2 ⟨_, hmem, ?_⟩
                      simp
                    · rw [decide_eq_false hk, Bool.or_false]
                      congr 1
                      refine any_congr ?_
                      intro x hxm
                      by_cases hx2 : x.2 = k
                      · have : id ≠ x.1 := by
                          intro h
                          have := AMap.get_of_mem hi.awf hxm
                          rw [← h, hx] at this
                          injection this with this
                          exact hk (by rw [← hx2, this])
                        rw [decide_eq_false this, Bool.false_or]
                      · rw [decide_eq_false hx2, Bool.false_and, Bool.false_and])
                  (by
                    cases hc : finished log aid with
                    | false => rfl
                    | true =>
                      exfalso
                      unfold finished at hc
                      rcases Bool.or_eq_true _ _ ▸ hc with hc | hc
                      · obtain ⟨ev, hev, hr⟩ := List.any_eq_true.1 hc
                        rw [hi.anot _ _ hmem ev hev] at hr; cases hr
                      · obtain ⟨x, hxm, hc⟩ := List.any_eq_true.1 hc
                        simp only [Bool.and_eq_true, decide_eq_true_eq] at hc
                        rw [huniq x hxm hc.1, hns] at hc
                        cases hc.2) t
                rw [← this]
                congr 1
                simp only [Option.bind_some]
                cases AMap.get (submissions log) aid <;> rfl
            have hoo := ho {} w rfl
            have ho' : ∀ o w', o.failed = false → owed (M := M) (⟨w, e, .base (.deliver i), o, w'⟩ :: log) t =
                owed log t - payOf t (payment (w.base.pre.deposits.get id) w.base.pre.dao st) := by
              intro o w' h; have := ho o w' h; omega
            rw [ho' _ _ rfl]
            simp only [World.holds, toTake] at ih ⊢
            omega
          · simp only [bind_ok, Except.ok.injEq, Prod.mk.injEq] at hs1
            obtain ⟨mod, hm, rfl, rfl⟩ := hs1
            rw [owed_same rfl (fun _ => rfl) rfl rfl]
            exact ih
      | take i =>
        simp only [step, stepTake] at hs1
        split at hs1
        · cases hs1
        · rename_i payer u n hq
          simp only [bind_ok, Except.ok.injEq, Prod.mk.injEq] at hs1
          obtain ⟨bal, hb, rfl, rfl⟩ := hs1
          rw [owed_same rfl (fun _ => rfl) rfl rfl]
          have ht := toTake_erase w.base t hq (w' := { w.base with bal := bal, takes := w.base.takes.eraseIdx i }) rfl
          have hp : payer ≠ w.base.here := hi.payers _ (List.mem_of_getElem? hq)
          have hk : (u, payer) ≠ (u, w.base.here) := by
            intro e; simp only [Prod.mk.injEq, true_and] at e; exact hp e
          have hm := (Ledger.move_get hb hk (t, w.base.here)).2
          rw [if_neg (by intro e; simp only [Prod.mk.injEq] at e; exact hp e.2.symm)] at hm
          simp only [World.holds, toTake] at ht ih ⊢
          by_cases hu : u = t
          · subst hu
            rw [if_pos rfl] at hm ht
            omega
          · rw [if_neg hu] at ht
            rw [if_neg (by intro e; simp only [Prod.mk.injEq] at e; exact hu e.1.symm)] at hm
            omega
      | transfer src dst u n =>
        simp only [step, stepTransfer, bind_ok, require_ok, decide_eq_true_eq, Except.ok.injEq, Prod.mk.injEq] at hs1
        obtain ⟨_, ha, bal, hb, rfl, rfl⟩ := hs1
        rw [owed_same rfl (fun _ => rfl) rfl rfl]
        have := move_ge hb ha t
        simp only [World.holds, toTake] at ih ⊢
        omega

end Verif.PrePropose.App
