import Verif.Proofs.PreProposeHistory
/-! What a pre-propose module holds and owes. -/

namespace Verif.PrePropose
open Verif Verif.Voting Verif.Spec.PrePropose
open Verif.Spec (Final)

variable {M : PropModule} {inv : M.St → Prop}

theorem isSettled_cons (e : Event M) (log : List (Event M)) (id : Nat) :
    isSettled (e :: log) id = ((match settled e with | some x => decide (x.1 = id) | none => false) || isSettled log id) := by
  rfl

theorem isSettled_told {log : List (Event M)} {id : Nat} (h : isSettled log id = true) : id ∈ told log := by
  simp only [isSettled, List.any_eq_true] at h
  obtain ⟨e, he, hx⟩ := h
  unfold settled at hx
  split at hx
  · rename_i x hs
    split at hs
    · cases hs
    · have hx := of_decide_eq_true hx
      exact mem_told.2 ⟨e, he, x.2, by rw [hs, ← hx]⟩
  · cases hx

theorem owed_same {e : Event M} {log : List (Event M)} (h1 : submission e = none) (h2 : settled e = none)
    (t : Token) : owed (e :: log) t = owed log t := by
  have e1 : submissions (e :: log) = submissions log := by rw [submissions_cons, h1]
  simp only [owed, e1, isSettled_cons, h2, Bool.false_or]

/-- Of what a hook runs. -/
theorem runHook_ok {w : World M} {log : List (Event M)} (hi : Inv M inv w log) {id : Nat} {st : Status} {ps : List Pay}
    {bal : Balances} (h : runHook w id st = .ok (ps, bal)) :
    ps = payment (AMap.get (submissions log) id) w.pre.dao st ∧ payAll w.here ps w.bal = .ok bal := by
  simp only [runHook, bind_ok, Except.ok.injEq, Prod.mk.injEq] at h
  obtain ⟨ps', h1, bal', h2, rfl, rfl⟩ := h
  have hg : ∀ d p, w.pre.deposits.get id = some (d, p) → GoodDeposit d := by
    intro d p hd
    rw [hi.subs] at hd
    exact (hi.ok _ _ _ (AMap.mem_of_get hd)).1
  have := (execCompleted_ok hg h1).2.2
  rw [hi.subs] at this
  exact ⟨this, h2⟩

/-- Deposits go to others. -/
theorem payment_to {w : World M} {log : List (Event M)} (hi : Inv M inv w log) {id : Nat} {st : Status} :
    ∀ p ∈ payment (AMap.get (submissions log) id) w.pre.dao st, p.to ≠ w.here := by
  intro p hp
  cases hx : AMap.get (submissions log) id with
  | none => rw [hx] at hp; simp [payment] at hp
  | some x =>
    obtain ⟨d, a⟩ := x
    cases d with
    | none => rw [hx] at hp; simp [payment] at hp
    | some d =>
      rw [hx] at hp
      simp only [payment, List.mem_singleton] at hp
      subst hp
      simp only [receiver]
      split
      · exact (hi.ok _ _ _ (AMap.mem_of_get hx)).2
      · exact hi.daoNe

theorem payOf_payment (t : Token) (s : Option (Option Deposit × Addr)) (dao : Addr) (st : Status) :
    payOf t (payment s dao st) = (match s with | some x => amountIn t x.1 | none => 0) := by
  cases s with
  | none => rfl
  | some x =>
    obtain ⟨d, a⟩ := x
    cases d with
    | none => rfl
    | some d => simp [payment, amountIn]

/-- An accepted completion takes a deposit out of what is owed. -/
theorem owed_settle {w : World M} {log : List (Event M)} (hi : Inv M inv w log) {e : Event M} {id : Nat} {st : Status}
    (h1 : submission e = none) (h2 : settled e = some (id, st)) (h3 : isSettled log id = false) (t : Token) :
    owed (e :: log) t + payOf t (payment (AMap.get (submissions log) id) w.pre.dao st) = owed log t := by
  have e1 : submissions (e :: log) = submissions log := by rw [submissions_cons, h1]
  have := AMap.sum_zero_at hi.wf
    (fun id' x => if isSettled (e :: log) id' then 0 else amountIn t x.1)
    (fun id' x => if isSettled log id' then 0 else amountIn t x.1) id
    (by intro v; simp [isSettled_cons, h2])
    (by
      intro k v hk
      have : isSettled (e :: log) k = isSettled log k := by
        simp only [isSettled_cons, h2]
        rw [decide_eq_false (fun h => hk h.symm), Bool.false_or]
      simp only [this])
  rw [payOf_payment]
  simp only [owed, e1]
  rw [← this]
  congr 1
  simp only [AMap.at?]
  cases AMap.get (submissions log) id with
  | none => rfl
  | some x => simp [h3]

theorem toTake_append (w : World M) (t : Token) (ts : List (Addr × Token × Nat)) {w' : World M}
    (h : w'.takes = w.takes ++ ts) :
    toTake w' t = toTake w t + (ts.map (fun x => if x.2.1 = t then x.2.2 else 0)).sum := by
  simp [toTake, h]

theorem toTake_erase (w : World M) (t : Token) {i : Nat} {a : Addr} {u : Token} {n : Nat} {w' : World M}
    (hi : w.takes[i]? = some (a, u, n)) (h : w'.takes = w.takes.eraseIdx i) :
    toTake w t = toTake w' t + (if u = t then n else 0) := by
  have hlt : i < w.takes.length := (List.getElem?_eq_some_iff.1 hi).1
  have hget : w.takes[i] = (a, u, n) := (List.getElem?_eq_some_iff.1 hi).2
  have := ((List.getElem_cons_eraseIdx_perm hlt).map (fun x : Addr × Token × Nat => if x.2.1 = t then x.2.2 else 0)).sum_nat
  rw [List.map_cons, hget, List.sum_cons] at this
  simp only at this
  unfold toTake
  rw [h]
  omega

/-- A transfer from another account does not lower a balance. -/
theorem move_ge {l l' : Balances} {a b : Addr} {t : Token} {n : Nat} (h : Ledger.move l (t, a) (t, b) n = .ok l')
    {q : Addr} (hq : a ≠ q) (u : Token) : getD0 l (u, q) ≤ getD0 l' (u, q) := by
  by_cases hab : a = b
  · subst hab
    simp only [Ledger.move, bind_ok] at h
    obtain ⟨l1, h1, h2⟩ := h
    obtain ⟨h1a, rfl⟩ := Ledger.debit_ok.1 h1
    obtain ⟨h2a, rfl⟩ := Ledger.credit_ok.1 h2
    have hne : (t, a) ≠ (u, q) := by
      intro e; simp only [Prod.mk.injEq] at e; exact hq e.2
    rw [getD0_set, if_neg hne, getD0_set, if_neg hne]
  · have hk : (t, a) ≠ (t, b) := by
      intro e; simp only [Prod.mk.injEq, true_and] at e; exact hab e
    have := (Ledger.move_get h hk (u, q)).2
    rw [if_neg (by intro e; simp only [Prod.mk.injEq] at e; exact hq e.2.symm)] at this
    split at this
    · rename_i he
      rw [he] at this ⊢; omega
    · omega

/-- Unless the DAO withdrew the token, what the contract holds covers what it owes. -/
theorem solvent (L : LawfulBy M inv) {w : World M} {b : Block} {log : List (Event M)}
    (h : (sys M).Reach w b log) (t : Token) (hw : ∀ e ∈ log, isWithdraw e → payOf t e.out.pays = 0) :
    owed log t ≤ w.holds t + toTake w t := by
  refine Sys.Reach.induct (P := fun w _ log => (∀ e ∈ log, isWithdraw e → payOf t e.out.pays = 0) →
    owed log t ≤ w.holds t + toTake w t) ?_ ?_ h hw
  · intro _ _ _ _; exact Nat.zero_le _
  · intro w b log e c o w' hr ih _ hs hw
    have ih := ih (fun e he => hw e (List.mem_cons_of_mem _ he))
    have hw0 := hw _ (List.mem_cons_self ..)
    have hi := inv_reach L hr
    change step w e c = .ok (w', o) at hs
    clear hw
    cases c with
    | propose p =>
      simp only [step, stepPropose, bind_ok, require_ok, decide_eq_true_eq] at hs
      obtain ⟨_, ha, bal, hb, ⟨pre, ts⟩, hp, ⟨mod, mo⟩, hm, hs⟩ := hs
      simp only [Except.ok.injEq, Prod.mk.injEq] at hs
      obtain ⟨rfl, rfl⟩ := hs
      obtain ⟨_, rfl, hamt, hts⟩ := execPropose_ok hp
      have hnew := (L.propose_new hm).1
      have ho : owed (M := M) (⟨w, e, .propose p, { newId := mo.newId },
          { w with pre := { w.pre with
                              deposits := w.pre.deposits.set (M.count w.mod + 1) (w.pre.config.deposit, M.sender e.mod) },
                   mod := mod, bal := bal, queue := w.queue ++ hooksFor w.here mo.completed
                   takes := w.takes ++ ts }⟩ :: log) t ≤ amountIn t w.pre.config.deposit + owed log t := by
        simp only [owed, submissions_cons, submission, hnew, AMap.sum]
        have : ∀ id, isSettled (M := M) (⟨w, e, .propose p, { newId := some (M.count w.mod + 1) },
          { w with pre := { w.pre with
                              deposits := w.pre.deposits.set (M.count w.mod + 1) (w.pre.config.deposit, M.sender e.mod) },
                   mod := mod, bal := bal, queue := w.queue ++ hooksFor w.here mo.completed
                   takes := w.takes ++ ts }⟩ :: log) id = isSettled log id := by
          intro id; rw [isSettled_cons]; rfl
        simp only [this]
        split <;> omega
      refine Nat.le_trans ho ?_
      rw [toTake_append w t ts rfl]
      have := hamt t
      have hbal := (pullCoins_get hb ha t).1
      simp only [World.holds] at ih ⊢
      omega
    | pre m =>
      simp only [step, stepPre, bind_ok, require_ok, decide_eq_true_eq] at hs
      obtain ⟨_, ha, bal, hb, ⟨pre, ps⟩, hp, bal', hpay, hs⟩ := hs
      simp only [Except.ok.injEq, Prod.mk.injEq] at hs
      obtain ⟨rfl, rfl⟩ := hs
      obtain ⟨_, hk⟩ := exec_kept hp
      rw [owed_same rfl rfl]
      have hbal := (pullCoins_get hb ha t).1
      have hz : payOf t ps = 0 ∧ ∀ p ∈ ps, p.to ≠ w.here := by
        rcases hk with rfl | ⟨x, t', rfl, _, _, _, rfl, _⟩
        · exact ⟨rfl, by simp⟩
        · refine ⟨hw0 ⟨_, rfl⟩, ?_⟩
          intro p hp
          simp only [List.mem_singleton] at hp
          subst hp; exact hi.daoNe
      have := (payAll_get hpay hz.2 t).2.1
      have hz1 := hz.1
      simp only at this
      simp only [World.holds, toTake] at ih ⊢
      omega
    | completed id st =>
      exfalso
      simp only [step, stepCompleted, bind_ok, require_ok, decide_eq_true_eq] at hs
      obtain ⟨_, ha, ps, hp, bal', hpay, hs⟩ := hs
      unfold execCompleted at hp
      simp only [bind_ok, require_ok, decide_eq_true_eq] at hp
      obtain ⟨_, h1, _⟩ := hp
      exact ha.2 h1
    | module c =>
      simp only [step, stepModule, bind_ok, require_ok, decide_eq_true_eq] at hs
      obtain ⟨_, ha, _, hout, ⟨mod, mo⟩, hm, hs⟩ := hs
      simp only [Except.ok.injEq, Prod.mk.injEq] at hs
      obtain ⟨rfl, rfl⟩ := hs
      rw [owed_same rfl rfl]
      exact ih
    | deliver i =>
      simp only [step, stepDeliver] at hs
      split at hs
      · cases hs
      · rename_i id st hq
        split at hs
        · rename_i ps bal hrun
          simp only [Except.ok.injEq, Prod.mk.injEq] at hs
          obtain ⟨rfl, rfl⟩ := hs
          obtain ⟨rfl, hpay⟩ := runHook_ok hi hrun
          have hns : isSettled log id = false := by
            cases hc : isSettled log id with
            | false => rfl
            | true =>
              exfalso
              have hn := hi.comp.nodup
              have h1 : id ∈ w.queue.map Prod.fst := List.mem_map.2 ⟨(id, st), List.mem_of_getElem? hq, rfl⟩
              exact (List.nodup_append.1 hn).2.2 id h1 id (isSettled_told hc) rfl
          have ho := owed_settle hi (e := ⟨w, e, .deliver i,
            { pays := payment (AMap.get (submissions log) id) w.pre.dao st },
            { w with bal := bal, queue := w.queue.eraseIdx i }⟩) (id := id) (st := st) rfl
            (by simp only [settled, delivered]; exact hq) hns t
          have := payAll_get hpay (payment_to hi) t
          simp only [World.holds, toTake] at ih ⊢
          omega
        · simp only [bind_ok, Except.ok.injEq, Prod.mk.injEq] at hs
          obtain ⟨mod, hm, rfl, rfl⟩ := hs
          rw [owed_same rfl rfl]
          exact ih
    | take i =>
      simp only [step, stepTake] at hs
      split at hs
      · cases hs
      · rename_i payer u n hq
        simp only [bind_ok, Except.ok.injEq, Prod.mk.injEq] at hs
        obtain ⟨bal, hb, rfl, rfl⟩ := hs
        rw [owed_same rfl rfl]
        have ht := toTake_erase w t hq (w' := { w with bal := bal, takes := w.takes.eraseIdx i }) rfl
        have hp : payer ≠ w.here := hi.payers _ (List.mem_of_getElem? hq)
        have hk : (u, payer) ≠ (u, w.here) := by
          intro e; simp only [Prod.mk.injEq, true_and] at e; exact hp e
        have hm := (Ledger.move_get hb hk (t, w.here)).2
        rw [if_neg (by intro e; simp only [Prod.mk.injEq] at e; exact hp e.2.symm)] at hm
        simp only [World.holds] at ih ⊢
        by_cases hu : u = t
        · subst hu
          rw [if_pos rfl] at hm ht
          omega
        · rw [if_neg hu] at ht
          rw [if_neg (by intro e; simp only [Prod.mk.injEq] at e; exact hu e.1.symm)] at hm
          omega
    | transfer src dst u n =>
      simp only [step, stepTransfer, bind_ok, require_ok, decide_eq_true_eq, Except.ok.injEq, Prod.mk.injEq] at hs
      obtain ⟨_, ha, bal, hb, rfl, rfl⟩ := hs
      rw [owed_same rfl rfl]
      have := move_ge hb ha t
      simp only [World.holds, toTake] at ih ⊢
      omega

end Verif.PrePropose
