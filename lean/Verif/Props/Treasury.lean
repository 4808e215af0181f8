import Verif.Spec.Treasury
import Verif.Props.FullDao
import Verif.Props.Holdings
/-! C130: what a DAO has is spent only as its members decide. -/

namespace Verif.Treasury
open Verif Verif.Spec.Treasury
open Verif.WholeDao (VotingModule)
open Verif.WholeCondorcet (Now)
open Verif.FullDao (Env)
open Verif.Spec.WholeDao (Lawful)

variable {T F D P : Type} {U : VotingModule T F D P} {N : Now T} {decode : Nat → DaoCore.CosmosMsg} {r : Reading}

/-! ## Coins and tokens -/

theorem move_flow {K : Type} [DecidableEq K] {l l' : Ledger K} {a b : K} {n : Nat} (h : l.move a b n = .ok l') (q : K) :
    getD0 l' q + (if a = q then n else 0) = getD0 l q + (if b = q then n else 0) := by
  simp only [Ledger.move, bind_ok] at h
  obtain ⟨l1, h1, h2⟩ := h
  have hle := (Ledger.debit_ok.1 h1).1
  rw [Ledger.credit_get h2, Ledger.debit_get h1, Ledger.debit_get h1]
  by_cases ha : a = q <;> by_cases hb : b = q
  · subst ha; subst hb; simp; omega
  · subst ha; simp [hb]; omega
  · subst hb; simp [ha]
  · simp [ha, hb]

theorem debit_flow {K : Type} [DecidableEq K] {l l' : Ledger K} {a : K} {n : Nat} (h : l.debit a n = .ok l') (q : K) :
    getD0 l' q + (if a = q then n else 0) = getD0 l q := by
  have hle := (Ledger.debit_ok.1 h).1
  rw [Ledger.debit_get h]
  by_cases ha : a = q
  · subst ha; simp; omega
  · simp [ha]

theorem deduct_bal {c c' : Chain} {b : Block} {k holder who : Addr} {n : Nat} (h : deduct c b k holder who n = .ok c') :
    c'.bal = c.bal := by
  simp only [deduct, bind_ok, Except.ok.injEq] at h
  obtain ⟨_, _, _, _, _, _, rfl⟩ := h
  rfl

/-- The account of `a` after somebody did something. -/
theorem run_bal {c c' : Chain} {b : Block} {who : Addr} {x : Op} (h : c.run b who x = .ok c') (a : Addr) (t : Token) :
    getD0 c'.bal (t, a) + leaves a t who x = getD0 c.bal (t, a) + arrives a t x := by
  cases x with
  | send t' dest n =>
    simp only [Chain.run, bind_ok, Except.ok.injEq] at h
    obtain ⟨l, h1, rfl⟩ := h
    have := move_flow h1 (t, a)
    simpa only [Prod.mk.injEq, leaves, arrives, and_comm] using this
  | burn t' n =>
    simp only [Chain.run, bind_ok, Except.ok.injEq] at h
    obtain ⟨l, h1, rfl⟩ := h
    have := debit_flow h1 (t, a)
    simpa only [Prod.mk.injEq, leaves, arrives, and_comm, Nat.add_zero] using this
  | increase k s n exp =>
    simp only [Chain.run, raise, bind_ok, Except.ok.injEq] at h
    obtain ⟨_, _, _, _, _, _, rfl⟩ := h
    rfl
  | decrease k s n exp =>
    simp only [Chain.run, lower, bind_ok] at h
    obtain ⟨al, _, h⟩ := h
    split at h
    · simp only [bind_ok, Except.ok.injEq] at h
      obtain ⟨_, _, rfl⟩ := h
      rfl
    · simp only [Except.ok.injEq] at h
      subst h
      rfl
  | sendFrom k holder dest n =>
    simp only [Chain.run, bind_ok, Except.ok.injEq] at h
    obtain ⟨c1, h0, l, h1, rfl⟩ := h
    have := move_flow h1 (t, a)
    rw [deduct_bal h0] at this
    simpa only [Prod.mk.injEq, leaves, arrives, and_comm] using this
  | burnFrom k holder n =>
    simp only [Chain.run, bind_ok, Except.ok.injEq] at h
    obtain ⟨c1, h0, l, h1, rfl⟩ := h
    have := debit_flow h1 (t, a)
    rw [deduct_bal h0] at this
    simpa only [Prod.mk.injEq, leaves, arrives, and_comm, Nat.add_zero] using this

theorem runAll_bal {l : List Op} {c c' : Chain} {b : Block} {who : Addr} (h : c.runAll b who l = .ok c') (a : Addr) (t : Token) :
    getD0 c'.bal (t, a) + (l.map (leaves a t who)).sum = getD0 c.bal (t, a) + (l.map (arrives a t)).sum := by
  induction l generalizing c with
  | nil =>
    simp only [Chain.runAll, Except.ok.injEq] at h
    subst h
    simp
  | cons x l ih =>
    simp only [Chain.runAll, bind_ok] at h
    obtain ⟨c1, h1, h2⟩ := h
    have e1 := run_bal h1 a t
    have e2 := ih h2
    simp only [List.map_cons, List.sum_cons]
    omega

/-- How much a spender may take. -/
def amountOf (c : Chain) (k holder spender : Addr) : Nat :=
  match c.allow.get (k, holder, spender) with
  | some a => a.amount
  | none => 0

theorem amountOf_set {c : Chain} {k h s : Addr} {x : Allowance} {k' h' s' : Addr} :
    amountOf { c with allow := c.allow.set (k, h, s) x } k' h' s' =
      if k = k' ∧ h = h' ∧ s = s' then x.amount else amountOf c k' h' s' := by
  unfold amountOf
  by_cases he : (k, h, s) = (k', h', s')
  · simp only [Prod.mk.injEq] at he
    obtain ⟨rfl, rfl, rfl⟩ := he
    simp [AMap.get_set_self]
  · have : ¬ (k = k' ∧ h = h' ∧ s = s') := fun hh => he (by rw [hh.1, hh.2.1, hh.2.2])
    simp only [AMap.get_set_ne _ _ he, if_neg this]

theorem deduct_amount {c c' : Chain} {b : Block} {k holder who : Addr} {n : Nat} (h : deduct c b k holder who n = .ok c')
    (k' a s : Addr) : amountOf c' k' a s + (if k = k' ∧ holder = a ∧ who = s then n else 0) = amountOf c k' a s := by
  simp only [deduct, bind_ok, orErr_ok, require_ok, sub128_ok, Except.ok.injEq] at h
  obtain ⟨al, h1, _, _, _, ⟨h2, rfl⟩, rfl⟩ := h
  rw [amountOf_set]
  split
  · rename_i he
    obtain ⟨rfl, rfl, rfl⟩ := he
    simp only [amountOf, h1]
    omega
  · rfl

theorem lower_amount {c c' : Chain} {b : Block} {k holder who : Addr} {n : Nat} {x : Option Expiration}
    (h : lower c b k holder who n x = .ok c') (k' a s : Addr) : amountOf c' k' a s ≤ amountOf c k' a s := by
  simp only [lower, bind_ok, orErr_ok] at h
  obtain ⟨al, h1, h⟩ := h
  split at h
  · simp only [bind_ok, Except.ok.injEq] at h
    obtain ⟨_, _, rfl⟩ := h
    rw [amountOf_set]
    split
    · rename_i he
      obtain ⟨rfl, rfl, rfl⟩ := he
      simp only [amountOf, h1]
      omega
    · exact Nat.le_refl _
  · simp only [Except.ok.injEq] at h
    subst h
    unfold amountOf
    by_cases he : (k, holder, who) = (k', a, s)
    · rw [AMap.get_erase, if_pos he]
      exact Nat.zero_le _
    · rw [AMap.get_erase, if_neg he]

theorem raise_amount {c c' : Chain} {b : Block} {k holder who : Addr} {n : Nat} {x : Option Expiration}
    (h : raise c b k holder who n x = .ok c') (k' a s : Addr) :
    amountOf c' k' a s = amountOf c k' a s + (if k = k' ∧ holder = a ∧ who = s then n else 0) := by
  simp only [raise, bind_ok, require_ok, add128_ok, Except.ok.injEq] at h
  obtain ⟨_, _, _, _, _, ⟨_, rfl⟩, rfl⟩ := h
  rw [amountOf_set]
  split
  · rename_i he
    obtain ⟨rfl, rfl, rfl⟩ := he
    simp only [amountOf]
    cases c.allow.get (k, holder, who) <;> rfl
  · rfl

/-- What a spender may take from the account of somebody else, after somebody did something. -/
theorem run_amount {c c' : Chain} {b : Block} {who : Addr} {x : Op} (h : c.run b who x = .ok c') {a s : Addr} (has : s ≠ a)
    (k : Addr) :
    amountOf c' k a s + (if who = s then leaves a (.cw20 k) who x else 0) ≤
      amountOf c k a s + (if who = a then grants k s x else 0) := by
  cases x with
  | send t' dest n =>
    simp only [Chain.run, bind_ok, Except.ok.injEq] at h
    obtain ⟨l, h1, rfl⟩ := h
    simp only [leaves, grants, ite_self]
    have : (if who = s then (if who = a ∧ t' = .cw20 k then n else 0) else 0) = 0 := by
      split
      · rename_i hs; rw [if_neg (fun hh => has (hs.symm.trans hh.1))]
      · rfl
    rw [this]
    exact Nat.le_refl _
  | burn t' n =>
    simp only [Chain.run, bind_ok, Except.ok.injEq] at h
    obtain ⟨l, h1, rfl⟩ := h
    simp only [leaves, grants, ite_self]
    have : (if who = s then (if who = a ∧ t' = .cw20 k then n else 0) else 0) = 0 := by
      split
      · rename_i hs; rw [if_neg (fun hh => has (hs.symm.trans hh.1))]
      · rfl
    rw [this]
    exact Nat.le_refl _
  | increase k' s' n exp =>
    have := raise_amount h k a s
    simp only [leaves, grants, ite_self]
    rw [this]
    by_cases h1 : who = a
    · simp only [h1, true_and, if_true]
      exact Nat.le_refl _
    · rw [if_neg (fun hh => h1 hh.2.1), if_neg h1]
  | decrease k' s' n exp =>
    have := lower_amount h k a s
    simp only [leaves, grants, ite_self]
    omega
  | sendFrom k' holder dest n =>
    simp only [Chain.run, bind_ok, Except.ok.injEq] at h
    obtain ⟨c1, h0, l, h1, rfl⟩ := h
    have e := deduct_amount h0 k a s
    have e' : amountOf { c1 with bal := l } k a s = amountOf c1 k a s := rfl
    rw [e']
    simp only [leaves, grants, ite_self, Nat.add_zero, Token.cw20.injEq]
    by_cases hs : who = s
    · simp only [hs, and_true, if_true] at e ⊢
      rw [← e]
      simp only [and_comm]
      exact Nat.le_refl _
    · simp only [hs, if_false]
      omega
  | burnFrom k' holder n =>
    simp only [Chain.run, bind_ok, Except.ok.injEq] at h
    obtain ⟨c1, h0, l, h1, rfl⟩ := h
    have e := deduct_amount h0 k a s
    have e' : amountOf { c1 with bal := l } k a s = amountOf c1 k a s := rfl
    rw [e']
    simp only [leaves, grants, ite_self, Nat.add_zero, Token.cw20.injEq]
    by_cases hs : who = s
    · simp only [hs, and_true, if_true] at e ⊢
      rw [← e]
      simp only [and_comm]
      exact Nat.le_refl _
    · simp only [hs, if_false]
      omega

theorem runAll_amount {l : List Op} {c c' : Chain} {b : Block} {a : Addr} (h : c.runAll b a l = .ok c') {s : Addr} (has : s ≠ a)
    (k : Addr) : amountOf c' k a s ≤ amountOf c k a s + (l.map (grants k s)).sum := by
  induction l generalizing c with
  | nil =>
    simp only [Chain.runAll, Except.ok.injEq] at h
    subst h
    simp
  | cons x l ih =>
    simp only [Chain.runAll, bind_ok] at h
    obtain ⟨c1, h1, h2⟩ := h
    have e1 := run_amount h1 has k
    have e2 := ih h2
    rw [if_pos rfl] at e1
    simp only [List.map_cons, List.sum_cons]
    omega

/-! ## Steps -/

theorem treasury_dao {w w' : World T} {e : Env} {c : FullDao.Call F D} {o : FullDao.Out}
    (h : (sys U N decode r).step w e (.dao c) = .ok (w', o)) :
    FullDao.step U N decode w.dao e c = .ok (w'.dao, o) ∧
      w.chain.runAll e.block w.dao.core.core.me (due r w.dao.core.stack c) = .ok w'.chain := by
  replace h : step U N decode r w e (.dao c) = .ok (w', o) := h
  simp only [step, bind_ok, Prod.exists, Except.ok.injEq, Prod.mk.injEq] at h
  obtain ⟨q, o', h1, ch, h2, rfl, rfl⟩ := h
  exact ⟨h1, h2⟩

theorem treasury_other {w w' : World T} {e : Env} {who : Addr} {x : Op} {o : FullDao.Out}
    (h : (sys U N decode r).step w e (.other who x) = .ok (w', o)) :
    who ≠ w.dao.core.core.me ∧ w'.dao = w.dao ∧ w.chain.run e.block who x = .ok w'.chain := by
  replace h : step U N decode r w e (.other who x) = .ok (w', o) := h
  simp only [step, bind_ok, require_ok, decide_eq_true_eq, Except.ok.injEq, Prod.mk.injEq] at h
  obtain ⟨_, h0, ch, h2, rfl, rfl⟩ := h
  exact ⟨h0, rfl, h2⟩

theorem treasury_issue {w w' : World T} {e : Env} {t : Token} {dest : Addr} {n : Nat} {o : FullDao.Out}
    (h : (sys U N decode r).step w e (.issue t dest n) = .ok (w', o)) :
    w'.dao = w.dao ∧ w'.chain.allow = w.chain.allow ∧ w.chain.bal.credit (t, dest) n = .ok w'.chain.bal := by
  replace h : step U N decode r w e (.issue t dest n) = .ok (w', o) := h
  simp only [step, bind_ok, Except.ok.injEq, Prod.mk.injEq] at h
  obtain ⟨l, h2, rfl, rfl⟩ := h
  exact ⟨rfl, rfl, h2⟩

/-- The DAO lives as if there were no coins and tokens. -/
theorem treasury_run {w0 w : World T} {b0 b : Block} {log : List (Event T F D)} (h : (sys U N decode r).Run w0 b0 log w b) :
    ∃ b1, (FullDao.sys U N decode).Run w0.dao b0 (daoLog log) w.dao b1 ∧ b1.le b := by
  induction h with
  | refl => exact ⟨_, .refl, Block.le_refl _⟩
  | @step s1 s2 b3 log env call out hr hb3 hs ih =>
    obtain ⟨b1, h1, h2⟩ := ih
    have h3 : b1.le env.block := Block.le_trans h2 hb3
    cases call with
    | dao c => exact ⟨_, .step (M := FullDao.sys U N decode) h1 h3 (treasury_dao hs).1, Block.le_refl _⟩
    | other who x =>
      refine ⟨b1, ?_, h3⟩
      rw [(treasury_other hs).2.1]
      exact h1
    | issue t dest n =>
      refine ⟨b1, ?_, h3⟩
      rw [(treasury_issue hs).1]
      exact h1

theorem treasury_me {w0 w : World T} {b0 b : Block} {log : List (Event T F D)} (h : (sys U N decode r).Run w0 b0 log w b) :
    w.dao.core.core.me = w0.dao.core.core.me := by
  obtain ⟨_, h1, _⟩ := treasury_run h
  exact FullDao.full_me_run h1

/-! ## C130 -/

/-- **C130.** The books of a DAO: whatever happens, what it has of any token, with what it paid and what others took from it, is
what it began with and what it received. -/
theorem C130_books {w0 w : World T} {b0 b : Block} {log : List (Event T F D)} (h : (sys U N decode r).Run w0 b0 log w b)
    (t : Token) :
    has w w.dao.core.core.me t + over (paid r t) log + over (taken t) log =
      has w0 w0.dao.core.core.me t + over (received r t) log := by
  induction h with
  | refl => simp [over]
  | @step s1 s2 b3 log env call out hr hb3 hs ih =>
    have hme := treasury_me (Sys.Run.step hr hb3 hs)
    have hme1 := treasury_me hr
    rw [hme]
    rw [hme1] at ih
    simp only [over, List.map_cons, List.sum_cons] at ih ⊢
    cases call with
    | dao c =>
      have e := runAll_bal (treasury_dao hs).2 s1.dao.core.core.me t
      rw [hme1] at e
      simp only [paid, doings, taken, received, has, hme1] at ih ⊢
      omega
    | other who x =>
      have e := run_bal (treasury_other hs).2.2 s1.dao.core.core.me t
      rw [hme1] at e
      simp only [paid, doings, taken, received, has, hme1, List.map_nil, List.sum_nil] at ih ⊢
      omega
    | issue t' dest n =>
      have e := Ledger.credit_get (treasury_issue hs).2.2 (t, w0.dao.core.core.me)
      simp only [paid, doings, taken, received, has, hme1, List.map_nil, List.sum_nil] at ih ⊢
      rw [e]
      by_cases hd : t' = t ∧ dest = w0.dao.core.core.me
      · obtain ⟨rfl, rfl⟩ := hd
        simp only [and_self, if_true]
        omega
      · rw [if_neg (fun hh => hd (by simpa only [Prod.mk.injEq] using hh)), if_neg (fun hh => hd ⟨hh.2, hh.1⟩)]
        omega

/-- **C130.** Others take no more of a cw20 token from a DAO than it allowed them to, and nothing of native coins. -/
theorem C130_allowance {w0 w : World T} {b0 b : Block} {log : List (Event T F D)} (h : (sys U N decode r).Run w0 b0 log w b)
    (c : Addr) {s : Addr} (hs : s ≠ w.dao.core.core.me) :
    mayTake w c s + over (takenBy s (.cw20 c)) log ≤ mayTake w0 c s + over (allowed r c s) log := by
  have key : ∀ x : World T, mayTake x c s = amountOf x.chain c x.dao.core.core.me s := fun _ => rfl
  rw [treasury_me h] at hs
  induction h with
  | refl => simp [over]
  | @step s1 s2 b3 log env call out hr hb3 hstep ih =>
    have hme := treasury_me (Sys.Run.step hr hb3 hstep)
    have hme1 := treasury_me hr
    rw [key, key] at ih ⊢
    rw [hme]
    rw [hme1] at ih
    simp only [over, List.map_cons, List.sum_cons] at ih ⊢
    cases call with
    | dao k =>
      have e := runAll_amount (treasury_dao hstep).2 (by rw [hme1]; exact hs) c
      rw [hme1] at e
      simp only [takenBy, allowed, doings] at ih ⊢
      omega
    | other who x =>
      obtain ⟨hw, _, h2⟩ := treasury_other hstep
      have e := run_amount h2 hs c
      have hz : (if who = w0.dao.core.core.me then grants c s x else 0) = 0 := if_neg (fun hh => hw (hh.trans hme1.symm))
      rw [hz] at e
      simp only [takenBy, allowed, doings, hme1, List.map_nil, List.sum_nil] at ih ⊢
      omega
    | issue t' dest n =>
      have e : amountOf s2.chain c w0.dao.core.core.me s = amountOf s1.chain c w0.dao.core.core.me s := by
        simp only [amountOf, (treasury_issue hstep).2.1]
      simp only [takenBy, allowed, doings, List.map_nil, List.sum_nil] at ih ⊢
      omega

/-- **C130.** Nobody but the DAO moves its native coins. -/
theorem C130_native {w0 w : World T} {b0 b : Block} {log : List (Event T F D)} (h : (sys U N decode r).Run w0 b0 log w b)
    (d : Nat) : ∀ e ∈ log, taken (.native d) e = 0 := by
  intro e he
  obtain ⟨l1, l2, b1, _, _, _, hstep, _⟩ := h.event e he
  obtain ⟨pre, env, call, out, post⟩ := e
  cases call with
  | dao c => rfl
  | issue t dest n => rfl
  | other who x =>
    have hw := (treasury_other hstep).1
    cases x <;> simp [taken, leaves, hw]

/-- **C130.** Whatever a DAO does with its coins and tokens, paying, giving allowances or funding modules, its members decided
on, in any of its proposal modules, or it was part of the founding. -/
theorem C130_decided (hU : Lawful U) {w0 w : World T} {b0 b : Block} {log : List (Event T F D)}
    (h : History U N decode r w0 w b0 b log) {e : Event T F D} (he : e ∈ log) {x : Op} (hx : x ∈ doings r e) :
    Decided U decode r w0.dao.core.stack (daoLog log) x := by
  obtain ⟨before, later, b1, hl, h1, _, hstep, _⟩ := h.run.event e he
  obtain ⟨b2, h5, _⟩ := treasury_run h1
  obtain ⟨b2', h5', _⟩ := treasury_run h.run
  have hauth : ∀ d ∈ e.pre.dao.core.stack, Spec.FullDao.Authorised U decode w0.dao.core.stack (daoLog log) d := by
    intro d hd
    rcases FullDao.full_waiting h5 d hd with h6 | ⟨e', he', h6⟩
    · exact .founding h6
    · refine FullDao.C95_governed hU h.init h5' h.steady h.totals h.governed e' ?_ _ h6
      subst hl
      simp only [daoLog, List.filterMap_append, List.mem_append, List.filterMap_cons] at he' ⊢
      right
      split
      · exact he'
      · exact List.mem_cons_of_mem _ he'
  obtain ⟨pre, env, call, out, post⟩ := e
  cases call with
  | other who y => simp [doings] at hx
  | issue t dest n => simp [doings] at hx
  | dao c =>
    simp only [doings] at hx hauth
    unfold due at hx
    split at hx
    · split at hx
      · rename_i d rest hst
        have ha := hauth d (by rw [hst]; exact List.mem_cons_self)
        cases d with
        | create role i =>
          simp only [bill, List.mem_map] at hx
          obtain ⟨y, hy, rfl⟩ := hx
          exact Or.inr ⟨role, i, y.1, y.2, _, hy, rfl, ha⟩
        | send m =>
          cases m with
          | toSelf m => simp [bill] at hx
          | other n => exact Or.inl ⟨n, hx, ha⟩
      · simp at hx
    · simp at hx

theorem sum_zero {α : Type} {f : α → Nat} {l : List α} (h : ∀ x ∈ l, f x = 0) : (l.map f).sum = 0 := by
  induction l with
  | nil => rfl
  | cons x l ih =>
    rw [List.map_cons, List.sum_cons, h x List.mem_cons_self, ih (fun y hy => h y (List.mem_cons_of_mem _ hy))]

theorem sum_pos {α : Type} {f : α → Nat} {l : List α} (h : (l.map f).sum = 0) : ∀ x ∈ l, f x = 0 := by
  induction l with
  | nil => simp
  | cons x l ih =>
    simp only [List.map_cons, List.sum_cons] at h
    intro y hy
    rcases List.mem_cons.1 hy with rfl | hy
    · omega
    · exact ih (by omega) y hy

/-- **C130.** What the members never decide to spend stays: as long as they decide on nothing that pays in a token or lets others
take it, and nobody was allowed to take it in the beginning, the DAO has all of it, with all it received. -/
theorem C130_kept (hU : Lawful U) {w0 w : World T} {b0 b : Block} {log : List (Event T F D)}
    (h : History U N decode r w0 w b0 b log) {t : Token}
    (hspend : ∀ x, Decided U decode r w0.dao.core.stack (daoLog log) x →
      leaves w.dao.core.core.me t w.dao.core.core.me x = 0 ∧ ∀ c s, t = .cw20 c → grants c s x = 0)
    (h0 : ∀ c s, t = .cw20 c → mayTake w0 c s = 0) :
    has w w.dao.core.core.me t = has w0 w0.dao.core.core.me t + over (received r t) log := by
  have hb := C130_books h.run t
  have hmes : ∀ e ∈ log, e.pre.dao.core.core.me = w.dao.core.core.me := by
    intro e he
    obtain ⟨_, _, _, _, h1, _⟩ := h.run.event e he
    rw [treasury_me h1, treasury_me h.run]
  have hp : over (paid r t) log = 0 := by
    refine sum_zero (fun e he => sum_zero (fun x hx => ?_))
    rw [hmes e he]
    exact (hspend x (C130_decided hU h he hx)).1
  have ht : over (taken t) log = 0 := by
    cases t with
    | native d => exact sum_zero (C130_native h.run d)
    | cw20 c =>
      refine sum_zero (fun e he => ?_)
      obtain ⟨before, later, b1, hl, h1, hb1, hstep, hrest⟩ := h.run.event e he
      obtain ⟨pre, env, call, out, post⟩ := e
      cases call with
      | dao k => rfl
      | issue t' dest n => rfl
      | other who x =>
        have hw := (treasury_other hstep).1
        have hw' : who ≠ w.dao.core.core.me := by rw [← hmes _ he]; exact hw
        have ha := C130_allowance h.run c hw'
        have hz : over (allowed r c who) log = 0 :=
          sum_zero (fun e he => sum_zero (fun x hx => (hspend x (C130_decided hU h he hx)).2 c who rfl))
        rw [h0 c who rfl, hz] at ha
        have hy : over (takenBy who (.cw20 c)) log = 0 := by omega
        have := sum_pos hy _ he
        simpa only [takenBy, taken, if_true] using this
  omega

end Verif.Treasury
