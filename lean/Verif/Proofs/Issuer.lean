import Verif.Spec.Issuer
/-!
# Proofs about the token issuer
-/

namespace Verif.Issuer
open Verif Verif.Spec.Issuer

theorem getD0_setAllowance (m : AMap Addr Nat) (a q : Addr) (n : Nat) :
    getD0 (setAllowance m a n) q = if a = q then n else getD0 m q := by
  unfold setAllowance
  split
  · rename_i h
    unfold getD0
    rw [AMap.get_erase]
    split
    · rw [h]; rfl
    · rfl
  · exact getD0_set _ _ _ _

theorem get_setStatus (m : AMap Addr Bool) (a q : Addr) (s : Bool) :
    (setStatus m a s).get q = if a = q then (if s then some true else none) else m.get q := by
  unfold setStatus
  cases s with
  | true => simp only [if_true]; exact AMap.get_set _ _ _ _
  | false =>
    simp only [Bool.false_eq_true, if_false]
    exact AMap.get_erase _ _ _

/-- What the lists hold for an answer. -/
def entry (b : Bool) : Option Bool := if b then some true else none

theorem entry_true {b : Bool} : entry b = some true ↔ b = true := by cases b <;> simp [entry]

structure Inv (w : World) (log : List Event) : Prop where
  minters : ∀ a, getD0 w.st.minters a + usedSince (mintGrant a) (mints a) log = lastGrant (mintGrant a) log
  burners : ∀ a, getD0 w.st.burners a + usedSince (burnGrant a) (burns a) log = lastGrant (burnGrant a) log
  frozen : w.st.frozen = frozenBy log
  denied : ∀ a, w.st.denylist.get a = entry (deniedBy a log)
  allowed : ∀ a, w.st.allowlist.get a = entry (allowedBy a log)
  hookAddr : w.st.hookAddr = hookBy log
  features : w.st.features = decide (hookBy log = some w.here)
  self : deniedBy w.here log = false

theorem inv_init {b : Block} {w : World} (h : sys.init b w) : Inv w [] := by
  obtain ⟨sender, denom, h⟩ := h
  constructor <;> simp [h, instantiate, usedSince, lastGrant, frozenBy, deniedBy, allowedBy, hookBy, entry, getD0,
    AMap.get]

/-- What a step does to the contract. -/
theorem step_exec {w w' : World} {e : Env} {m : Msg} {u : Unit} (hs : step w e (.exec m) = .ok (w', u)) :
    ∃ msgs, exec w.st w.here e.block e.sender m = .ok (w'.st, msgs) ∧
      w.chain.runAll w'.st w.here e.forceAsks w.here msgs = .ok w'.chain ∧ w'.here = w.here := by
  simp only [step, bind_ok] at hs
  obtain ⟨⟨st, msgs⟩, h1, chain, h2, hs⟩ := hs
  simp only [Except.ok.injEq, Prod.mk.injEq] at hs
  obtain ⟨rfl, _⟩ := hs
  exact ⟨msgs, h1, h2, rfl⟩

theorem step_chain {w w' : World} {e : Env} {m : ChainMsg} {u : Unit} (hs : step w e (.chain m) = .ok (w', u)) :
    e.sender ≠ w.here ∧ w.chain.run w.st w.here e.forceAsks e.sender m = .ok w'.chain ∧ w'.st = w.st ∧
      w'.here = w.here := by
  simp only [step, bind_ok, require_ok, decide_eq_true_eq] at hs
  obtain ⟨_, h1, chain, h2, hs⟩ := hs
  simp only [Except.ok.injEq, Prod.mk.injEq] at hs
  obtain ⟨rfl, _⟩ := hs
  exact ⟨h1, h2, rfl, rfl⟩

theorem step_here {w w' : World} {e : Env} {c : Call} {u : Unit} (hs : step w e c = .ok (w', u)) :
    w'.here = w.here := by
  cases c with
  | exec m => obtain ⟨_, _, _, h⟩ := step_exec hs; exact h
  | chain m => exact (step_chain hs).2.2.2

theorem inv_step {w w' : World} {e : Env} {c : Call} {u : Unit} {log : List Event} (hi : Inv w log)
    (hs : step w e c = .ok (w', u)) : Inv w' (⟨w, e, c, u, w'⟩ :: log) := by
  cases c with
  | chain m =>
    obtain ⟨_, _, h1, h2⟩ := step_chain hs
    obtain ⟨i1, i2, i3, i4, i5, i6, i7, i8⟩ := hi
    constructor
    all_goals simp only [usedSince, lastGrant, mintGrant, burnGrant, mints, burns, frozenBy, deniedBy, allowedBy, hookBy,
      h1, h2, Nat.zero_add]
    all_goals assumption
  | exec m =>
    obtain ⟨msgs, h1, _, h2⟩ := step_exec hs
    clear hs
    obtain ⟨i1, i2, i3, i4, i5, i6, i7, i8⟩ := hi
    generalize hst : w'.st = st at h1
    cases m with
    | allow a status =>
      simp only [exec, execAllow, bind_ok, Except.ok.injEq, Prod.mk.injEq] at h1
      obtain ⟨_, _, _, _, rfl, rfl⟩ := h1
      constructor
      all_goals simp only [usedSince, lastGrant, mintGrant, burnGrant, mints, burns, frozenBy, deniedBy, allowedBy, hookBy,
        hst, h2, Nat.zero_add, get_setStatus]
      all_goals try assumption
      intro q
      split
      · rfl
      · exact i5 q
    | burn src n =>
      simp only [exec, execBurn, bind_ok, Except.ok.injEq, Prod.mk.injEq, sub128_ok] at h1
      obtain ⟨_, _, _, ⟨hle, rfl⟩, rfl, rfl⟩ := h1
      constructor
      all_goals simp only [usedSince, lastGrant, mintGrant, burnGrant, mints, burns, frozenBy, deniedBy, allowedBy, hookBy,
        hst, h2, Nat.zero_add, getD0_setAllowance]
      all_goals try assumption
      intro q
      have := i2 q
      split
      · rename_i hq; subst hq; omega
      · omega
    | mint dest n =>
      simp only [exec, execMint, bind_ok, Except.ok.injEq, Prod.mk.injEq, sub128_ok] at h1
      obtain ⟨_, _, _, ⟨hle, rfl⟩, _, _, rfl, rfl⟩ := h1
      constructor
      all_goals simp only [usedSince, lastGrant, mintGrant, burnGrant, mints, burns, frozenBy, deniedBy, allowedBy, hookBy,
        hst, h2, Nat.zero_add, getD0_setAllowance]
      all_goals try assumption
      intro q
      have := i1 q
      split
      · rename_i hq; subst hq; omega
      · omega
    | deny a status =>
      simp only [exec, execDeny, bind_ok, require_ok, decide_eq_true_eq, Except.ok.injEq, Prod.mk.injEq] at h1
      obtain ⟨_, _, _, _, _, hne, rfl, rfl⟩ := h1
      constructor
      all_goals simp only [usedSince, lastGrant, mintGrant, burnGrant, mints, burns, frozenBy, deniedBy, allowedBy, hookBy,
        hst, h2, Nat.zero_add, get_setStatus]
      all_goals try assumption
      · intro q
        split
        · rfl
        · exact i4 q
      · rw [if_neg hne]; exact i8
    | freeze status =>
      simp only [exec, execFreeze, bind_ok, Except.ok.injEq, Prod.mk.injEq] at h1
      obtain ⟨_, _, _, _, rfl, rfl⟩ := h1
      constructor
      all_goals simp only [usedSince, lastGrant, mintGrant, burnGrant, mints, burns, frozenBy, deniedBy, allowedBy, hookBy,
        hst, h2, Nat.zero_add, get_setStatus]
      all_goals try assumption
      intro q
      split
      · rfl
      · exact i5 q
    | force n src dest =>
      simp only [exec, bind_ok, Except.ok.injEq, Prod.mk.injEq] at h1
      obtain ⟨_, _, rfl, rfl⟩ := h1
      constructor
      all_goals simp only [usedSince, lastGrant, mintGrant, burnGrant, mints, burns, frozenBy, deniedBy, allowedBy, hookBy,
        hst, h2, Nat.zero_add]
      all_goals assumption
    | setHook a =>
      simp only [exec, bind_ok, Except.ok.injEq, Prod.mk.injEq] at h1
      obtain ⟨_, _, rfl, rfl⟩ := h1
      cases a with
      | none =>
        constructor
        all_goals simp only [usedSince, lastGrant, mintGrant, burnGrant, mints, burns, frozenBy, deniedBy, allowedBy,
          hookBy, hst, h2, Nat.zero_add, setHookInfo]
        all_goals try assumption
        simp
      | some a =>
        constructor
        all_goals simp only [usedSince, lastGrant, mintGrant, burnGrant, mints, burns, frozenBy, deniedBy, allowedBy,
          hookBy, hst, h2, Nat.zero_add, setHookInfo]
        all_goals try assumption
        simp
    | setBurner a n =>
      simp only [exec, bind_ok, Except.ok.injEq, Prod.mk.injEq] at h1
      obtain ⟨_, _, rfl, rfl⟩ := h1
      constructor
      all_goals simp only [usedSince, lastGrant, mintGrant, burnGrant, mints, burns, frozenBy, deniedBy, allowedBy, hookBy,
        hst, h2, Nat.zero_add, getD0_setAllowance]
      all_goals try assumption
      intro q
      by_cases hq : a = q
      · simp only [hq, if_true]; rfl
      · simp only [hq, if_false]; exact i2 q
    | setMinter a n =>
      simp only [exec, bind_ok, Except.ok.injEq, Prod.mk.injEq] at h1
      obtain ⟨_, _, rfl, rfl⟩ := h1
      constructor
      all_goals simp only [usedSince, lastGrant, mintGrant, burnGrant, mints, burns, frozenBy, deniedBy, allowedBy, hookBy,
        hst, h2, Nat.zero_add, getD0_setAllowance]
      all_goals try assumption
      intro q
      by_cases hq : a = q
      · simp only [hq, if_true]; rfl
      · simp only [hq, if_false]; exact i1 q
    | updateAdmin a =>
      simp only [exec, bind_ok, Except.ok.injEq, Prod.mk.injEq] at h1
      obtain ⟨_, _, rfl, rfl⟩ := h1
      constructor
      all_goals simp only [usedSince, lastGrant, mintGrant, burnGrant, mints, burns, frozenBy, deniedBy, allowedBy, hookBy,
        hst, h2, Nat.zero_add]
      all_goals assumption
    | updateOwnership x =>
      simp only [exec, bind_ok, Except.ok.injEq, Prod.mk.injEq] at h1
      obtain ⟨o, _, rfl, rfl⟩ := h1
      constructor
      all_goals simp only [usedSince, lastGrant, mintGrant, burnGrant, mints, burns, frozenBy, deniedBy, allowedBy, hookBy,
        hst, h2, Nat.zero_add]
      all_goals assumption

theorem inv_reach {w : World} {b : Block} {log : List Event} (h : sys.Reach w b log) : Inv w log := by
  obtain ⟨b0, s0, h0, hr⟩ := h
  induction hr with
  | refl => exact inv_init h0
  | step hrr hbb hs ih => exact inv_step ih hs

/-- An event of a history. -/
theorem event {w : World} {b : Block} {log : List Event} (h : sys.Reach w b log) {e : Event} (he : e ∈ log) :
    ∃ l1 l2 b1, log = l2 ++ e :: l1 ∧ sys.Reach e.pre b1 l1 ∧ Inv e.pre l1 ∧
      step e.pre e.env e.call = .ok (e.post, e.out) := by
  obtain ⟨b0, s0, h0, hr⟩ := h
  obtain ⟨l1, l2, b1, rfl, hrun, hb, hs, hrest⟩ := hr.event e he
  have hre : sys.Reach e.pre b1 l1 := ⟨b0, s0, h0, hrun⟩
  exact ⟨l1, l2, b1, rfl, hre, inv_reach hre, hs⟩

/-! ## The hook -/

theorem checkNotFrozen_ok {s : State} {src dest : Addr} {d : Nat} {u : Unit} :
    s.checkNotFrozen src dest d = .ok u ↔
      (s.frozen = true ∧ d = s.denom → s.allowlist.get src = some true ∨ s.allowlist.get dest = some true) := by
  unfold State.checkNotFrozen
  by_cases h : s.frozen = true ∧ d = s.denom
  · rw [if_pos (by simp [h])]
    split
    · rename_i h1; simp [h1]
    · rename_i h1 _; simp [h1]
    · rename_i h1 h2
      constructor
      · intro h; cases h
      · intro hh
        rcases hh h with h3 | h3
        · exact absurd h3 (by simpa using h1)
        · exact absurd h3 (by simpa using h2)
  · rw [if_neg (by simp; intro h1 h2; exact h ⟨h1, h2⟩)]
    simp only [h, false_implies, iff_true]

theorem checkNotDenied_ok {s : State} {a : Addr} {u : Unit} :
    s.checkNotDenied a = .ok u ↔ s.denylist.get a ≠ some true := by
  simp [State.checkNotDenied]

theorem beforeSend_ok {s : State} {src dest : Addr} {d : Nat} {u : Unit} :
    s.beforeSend src dest d = .ok u ↔
      (s.frozen = true ∧ d = s.denom → s.allowlist.get src = some true ∨ s.allowlist.get dest = some true) ∧
        s.denylist.get src ≠ some true ∧ s.denylist.get dest ≠ some true := by
  simp only [State.beforeSend, bind_ok, checkNotFrozen_ok, checkNotDenied_ok]
  constructor
  · rintro ⟨_, h1, _, h2, h3⟩; exact ⟨h1, h2, h3⟩
  · rintro ⟨h1, h2, h3⟩; exact ⟨(), h1, (), h2, h3⟩

/-- The hook says what the history says. -/
theorem beforeSend_iff {w : World} {log : List Event} (hi : Inv w log) {src dest : Addr} {d : Nat} {u : Unit} :
    w.st.beforeSend src dest d = .ok u ↔ Passes log w.st.denom src dest d := by
  rw [beforeSend_ok, hi.frozen, hi.allowed, hi.allowed, hi.denied, hi.denied]
  simp only [entry_true, Passes, Bool.not_eq_true, ne_eq]

theorem transfer_ok {c c' : Chain} {s : State} {here src dest : Addr} {d n : Nat} {asked : Bool}
    (h : c.transfer s here src dest d n asked = .ok c') :
    (asked = true → c.hook.get d = some here → s.beforeSend src dest d = .ok ()) ∧
      ∃ bal, Ledger.move c.bal (d, src) (d, dest) n = .ok bal ∧ c' = { c with bal := bal } := by
  simp only [Chain.transfer, bind_ok, Except.ok.injEq] at h
  obtain ⟨_, h1, bal, h2, rfl⟩ := h
  refine ⟨?_, bal, h2, rfl⟩
  intro ha hh
  rw [Chain.ask, if_pos (by simp [ha, hh])] at h1
  exact h1

/-! ## The chain -/

theorem supply_credit {c : Ledger (Nat × Addr)} {c' : Ledger (Nat × Addr)} {k : Nat × Addr} {n : Nat}
    (h : Ledger.credit c k n = .ok c') (d : Nat) :
    AMap.sum (fun k v => if k.1 = d then v else 0) c' =
      AMap.sum (fun k v => if k.1 = d then v else 0) c + (if k.1 = d then n else 0) := by
  obtain ⟨_, rfl⟩ := Ledger.credit_ok.1 h
  have := AMap.sum_set (fun (k : Nat × Addr) v => if k.1 = d then v else 0) c k (getD0 c k + n)
  have e : AMap.at? (fun (k : Nat × Addr) v => if k.1 = d then v else 0) c k = if k.1 = d then getD0 c k else 0 := by
    unfold AMap.at? getD0
    cases AMap.get c k <;> simp
  rw [e] at this
  by_cases hk : k.1 = d
  · simp only [hk, if_true] at this ⊢; omega
  · simp only [hk, if_false] at this ⊢; omega

theorem supply_debit {c : Ledger (Nat × Addr)} {c' : Ledger (Nat × Addr)} {k : Nat × Addr} {n : Nat}
    (h : Ledger.debit c k n = .ok c') (d : Nat) :
    AMap.sum (fun k v => if k.1 = d then v else 0) c' + (if k.1 = d then n else 0) =
      AMap.sum (fun k v => if k.1 = d then v else 0) c := by
  obtain ⟨h1, rfl⟩ := Ledger.debit_ok.1 h
  have := AMap.sum_set (fun (k : Nat × Addr) v => if k.1 = d then v else 0) c k (getD0 c k - n)
  have e : AMap.at? (fun (k : Nat × Addr) v => if k.1 = d then v else 0) c k = if k.1 = d then getD0 c k else 0 := by
    unfold AMap.at? getD0
    cases AMap.get c k <;> simp
  rw [e] at this
  by_cases hk : k.1 = d
  · simp only [hk, if_true] at this ⊢; omega
  · simp only [hk, if_false] at this ⊢; omega

theorem supply_move {c : Ledger (Nat × Addr)} {c' : Ledger (Nat × Addr)} {x a b n : Nat}
    (h : Ledger.move c (x, a) (x, b) n = .ok c') (d : Nat) :
    AMap.sum (fun k v => if k.1 = d then v else 0) c' = AMap.sum (fun k v => if k.1 = d then v else 0) c := by
  simp only [Ledger.move, bind_ok] at h
  obtain ⟨l1, h1, h2⟩ := h
  have e1 := supply_debit h1 d
  have e2 := supply_credit h2 d
  simp only at e1 e2
  omega

/-- What a message does to the supply of a denomination. -/
theorem run_supply {c c' : Chain} {s : State} {here : Addr} {f : Bool} {who : Addr} {m : ChainMsg}
    (h : c.run s here f who m = .ok c') (d : Nat) :
    match m with
    | .mint x n => supply c' d = supply c d + (if x = d then n else 0) ∧ c.admin.get x = some who
    | .burn x n _ => supply c' d + (if x = d then n else 0) = supply c d ∧ c.admin.get x = some who
    | _ => supply c' d = supply c d := by
  cases m with
  | send x dest n =>
    obtain ⟨_, bal, h2, rfl⟩ := transfer_ok h
    exact supply_move h2 d
  | mint x n =>
    simp only [Chain.run, Chain.assertAdmin, bind_ok, require_ok, decide_eq_true_eq, Except.ok.injEq] at h
    obtain ⟨_, ha, bal, h1, rfl⟩ := h
    exact ⟨supply_credit h1 d, ha⟩
  | burn x n src =>
    simp only [Chain.run, Chain.assertAdmin, bind_ok, require_ok, decide_eq_true_eq, Except.ok.injEq] at h
    obtain ⟨_, ha, bal, h1, rfl⟩ := h
    exact ⟨supply_debit h1 d, ha⟩
  | changeAdmin x a =>
    simp only [Chain.run, Chain.assertAdmin, bind_ok, require_ok, decide_eq_true_eq, Except.ok.injEq] at h
    obtain ⟨_, ha, rfl⟩ := h
    rfl
  | setHook x a =>
    simp only [Chain.run, Chain.assertAdmin, bind_ok, require_ok, decide_eq_true_eq, Except.ok.injEq] at h
    obtain ⟨_, ha, rfl⟩ := h
    rfl
  | force x n src dest =>
    simp only [Chain.run, bind_ok] at h
    obtain ⟨_, ha, h1⟩ := h
    obtain ⟨_, bal, h2, rfl⟩ := transfer_ok h1
    exact supply_move h2 d

/-- What a message does to the listener and the administrator. -/
theorem run_hook {c c' : Chain} {s : State} {here : Addr} {f : Bool} {who : Addr} {m : ChainMsg}
    (h : c.run s here f who m = .ok c') (d : Nat) :
    (c'.hook.get d = match m with | .setHook x a => if x = d then a else c.hook.get d | _ => c.hook.get d) ∧
    (∀ x a, m = .setHook x a → c.admin.get x = some who) ∧
    (c'.admin.get d = match m with | .changeAdmin x a => if x = d then some a else c.admin.get d | _ => c.admin.get d) := by
  cases m with
  | send x dest n =>
    obtain ⟨_, bal, h2, rfl⟩ := transfer_ok h
    exact ⟨rfl, by simp, rfl⟩
  | mint x n =>
    simp only [Chain.run, Chain.assertAdmin, bind_ok, require_ok, decide_eq_true_eq, Except.ok.injEq] at h
    obtain ⟨_, ha, bal, h1, rfl⟩ := h
    exact ⟨rfl, by simp, rfl⟩
  | burn x n src =>
    simp only [Chain.run, Chain.assertAdmin, bind_ok, require_ok, decide_eq_true_eq, Except.ok.injEq] at h
    obtain ⟨_, ha, bal, h1, rfl⟩ := h
    exact ⟨rfl, by simp, rfl⟩
  | changeAdmin x a =>
    simp only [Chain.run, Chain.assertAdmin, bind_ok, require_ok, decide_eq_true_eq, Except.ok.injEq] at h
    obtain ⟨_, ha, rfl⟩ := h
    exact ⟨rfl, by simp, AMap.get_set _ _ _ _⟩
  | setHook x a =>
    simp only [Chain.run, Chain.assertAdmin, bind_ok, require_ok, decide_eq_true_eq, Except.ok.injEq] at h
    obtain ⟨_, ha, rfl⟩ := h
    refine ⟨?_, ?_, rfl⟩
    · cases a with
      | none => simp only; exact AMap.get_erase _ _ _
      | some y => simp only; exact AMap.get_set _ _ _ _
    · intro x' a' he
      simp only [ChainMsg.setHook.injEq] at he
      rw [← he.1]; exact ha
  | force x n src dest =>
    simp only [Chain.run, bind_ok] at h
    obtain ⟨_, ha, h1⟩ := h
    obtain ⟨_, bal, h2, rfl⟩ := transfer_ok h1
    exact ⟨rfl, by simp, rfl⟩

theorem runAll_one {c c' : Chain} {s : State} {here : Addr} {f : Bool} {who : Addr} {m : ChainMsg}
    (h : c.runAll s here f who [m] = .ok c') : c.run s here f who m = .ok c' := by
  simp only [Chain.runAll, bind_ok, Except.ok.injEq] at h
  obtain ⟨c1, h1, rfl⟩ := h
  exact h1

theorem runAll_nil {c c' : Chain} {s : State} {here : Addr} {f : Bool} {who : Addr}
    (h : c.runAll s here f who [] = .ok c') : c' = c := by
  simp only [Chain.runAll, Except.ok.injEq] at h
  exact h.symm

/-- What a call of the contract sends, and what it leaves of the contract's denomination. -/
theorem exec_msgs {s s' : State} {here : Addr} {b : Block} {sender : Addr} {m : Msg} {msgs : List ChainMsg}
    (h : exec s here b sender m = .ok (s', msgs)) :
    s'.denom = s.denom ∧
    msgs = match m with
      | .mint dest n => [.mint s.denom n, .send s.denom dest n]
      | .burn src n => [.burn s.denom n src]
      | .force n src dest => [.force s.denom n src dest]
      | .setHook a => [.setHook s.denom a]
      | .updateAdmin a => [.changeAdmin s.denom a]
      | _ => [] := by
  cases m with
  | allow a status =>
    simp only [exec, execAllow, bind_ok, Except.ok.injEq, Prod.mk.injEq] at h
    obtain ⟨_, _, _, _, rfl, rfl⟩ := h
    exact ⟨rfl, rfl⟩
  | burn src n =>
    simp only [exec, execBurn, bind_ok, Except.ok.injEq, Prod.mk.injEq] at h
    obtain ⟨_, _, _, _, rfl, rfl⟩ := h
    exact ⟨rfl, rfl⟩
  | mint dest n =>
    simp only [exec, execMint, bind_ok, Except.ok.injEq, Prod.mk.injEq] at h
    obtain ⟨_, _, _, _, _, _, rfl, rfl⟩ := h
    exact ⟨rfl, rfl⟩
  | deny a status =>
    simp only [exec, execDeny, bind_ok, Except.ok.injEq, Prod.mk.injEq] at h
    obtain ⟨_, _, _, _, _, _, rfl, rfl⟩ := h
    exact ⟨rfl, rfl⟩
  | freeze status =>
    simp only [exec, execFreeze, bind_ok, Except.ok.injEq, Prod.mk.injEq] at h
    obtain ⟨_, _, _, _, rfl, rfl⟩ := h
    exact ⟨rfl, rfl⟩
  | force n src dest =>
    simp only [exec, bind_ok, Except.ok.injEq, Prod.mk.injEq] at h
    obtain ⟨_, _, rfl, rfl⟩ := h
    exact ⟨rfl, rfl⟩
  | setHook a =>
    simp only [exec, bind_ok, Except.ok.injEq, Prod.mk.injEq] at h
    obtain ⟨_, _, rfl, rfl⟩ := h
    cases a <;> exact ⟨rfl, rfl⟩
  | setBurner a n =>
    simp only [exec, bind_ok, Except.ok.injEq, Prod.mk.injEq] at h
    obtain ⟨_, _, rfl, rfl⟩ := h
    exact ⟨rfl, rfl⟩
  | setMinter a n =>
    simp only [exec, bind_ok, Except.ok.injEq, Prod.mk.injEq] at h
    obtain ⟨_, _, rfl, rfl⟩ := h
    exact ⟨rfl, rfl⟩
  | updateAdmin a =>
    simp only [exec, bind_ok, Except.ok.injEq, Prod.mk.injEq] at h
    obtain ⟨_, _, rfl, rfl⟩ := h
    exact ⟨rfl, rfl⟩
  | updateOwnership x =>
    simp only [exec, bind_ok, Except.ok.injEq, Prod.mk.injEq] at h
    obtain ⟨o, _, rfl, rfl⟩ := h
    exact ⟨rfl, rfl⟩

theorem step_denom {w w' : World} {e : Env} {c : Call} {u : Unit} (hs : step w e c = .ok (w', u)) :
    w'.st.denom = w.st.denom := by
  cases c with
  | exec m => obtain ⟨_, h, _, _⟩ := step_exec hs; exact (exec_msgs h).1
  | chain m => rw [(step_chain hs).2.2.1]

/-- Only the owner does these. -/
theorem exec_owner {s s' : State} {here : Addr} {b : Block} {sender : Addr} {m : Msg} {msgs : List ChainMsg}
    (h : exec s here b sender m = .ok (s', msgs)) :
    match m with
    | .mint _ n => n ≠ 0 ∧ n ≤ getD0 s.minters sender
    | .burn _ n => n ≠ 0 ∧ n ≤ getD0 s.burners sender
    | .updateOwnership x => ∃ o, s.owner.update b sender x = .ok o ∧ s'.owner = o
    | .allow _ _ => s.owner.owner = some sender ∧ s.features = true
    | .deny _ _ => s.owner.owner = some sender ∧ s.features = true
    | .freeze _ => s.owner.owner = some sender ∧ s.features = true
    | _ => s.owner.owner = some sender := by
  cases m with
  | allow a status =>
    simp only [exec, execAllow, State.checkFeatures, bind_ok, require_ok, Ownership.assertOwner_ok] at h
    obtain ⟨_, h1, _, h2, _⟩ := h
    exact ⟨h2, h1⟩
  | burn src n =>
    simp only [exec, execBurn, bind_ok, require_ok, decide_eq_true_eq, sub128_ok] at h
    obtain ⟨_, h1, _, h2, _⟩ := h
    exact ⟨h1, h2.1⟩
  | mint dest n =>
    simp only [exec, execMint, bind_ok, require_ok, decide_eq_true_eq, sub128_ok] at h
    obtain ⟨_, h1, _, h2, _⟩ := h
    exact ⟨h1, h2.1⟩
  | deny a status =>
    simp only [exec, execDeny, State.checkFeatures, bind_ok, require_ok, Ownership.assertOwner_ok] at h
    obtain ⟨_, h1, _, h2, _⟩ := h
    exact ⟨h2, h1⟩
  | freeze status =>
    simp only [exec, execFreeze, State.checkFeatures, bind_ok, require_ok, Ownership.assertOwner_ok] at h
    obtain ⟨_, h1, _, h2, _⟩ := h
    exact ⟨h2, h1⟩
  | force n src dest =>
    simp only [exec, bind_ok, Ownership.assertOwner_ok] at h
    obtain ⟨_, h1, _⟩ := h
    exact h1
  | setHook a =>
    simp only [exec, bind_ok, Ownership.assertOwner_ok] at h
    obtain ⟨_, h1, _⟩ := h
    exact h1
  | setBurner a n =>
    simp only [exec, bind_ok, Ownership.assertOwner_ok] at h
    obtain ⟨_, h1, _⟩ := h
    exact h1
  | setMinter a n =>
    simp only [exec, bind_ok, Ownership.assertOwner_ok] at h
    obtain ⟨_, h1, _⟩ := h
    exact h1
  | updateAdmin a =>
    simp only [exec, bind_ok, Ownership.assertOwner_ok] at h
    obtain ⟨_, h1, _⟩ := h
    exact h1
  | updateOwnership x =>
    simp only [exec, bind_ok, Except.ok.injEq, Prod.mk.injEq] at h
    obtain ⟨o, h1, rfl, _⟩ := h
    exact ⟨o, h1, rfl⟩

end Verif.Issuer
