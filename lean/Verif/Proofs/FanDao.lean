import Verif.Spec.FanDao
import Verif.Props.FanToken
import Verif.Props.TokenStaked
/-!
# A DAO with a fan token: its histories are histories of the voting module over one ledger
-/

namespace Verif.FanDao
open Verif Verif.Spec.FanDao
open Verif.FanToken (modMsg modMsgs mint_ok factory_does factory_ok daoList)

/-! ## The ledger of one denomination -/

theorem ledgerOf_cons (d : Nat) (x : (Nat × Addr) × Nat) (m : Ledger (Nat × Addr)) :
    ledgerOf d (x :: m) = if x.1.1 = d then (x.1.2, x.2) :: ledgerOf d m else ledgerOf d m := by
  unfold ledgerOf
  rw [List.filter_cons]
  by_cases h : x.1.1 = d <;> simp [h]

theorem ledgerOf_set (d : Nat) (a : Addr) (v : Nat) (m : Ledger (Nat × Addr)) :
    ledgerOf d (AMap.set m (d, a) v) = AMap.set (ledgerOf d m) a v := by
  induction m with
  | nil => simp [AMap.set, ledgerOf]
  | cons x m ih =>
    obtain ⟨⟨d', a'⟩, n⟩ := x
    by_cases hd : d' = d
    · subst hd
      by_cases ha : a' = a
      · subst ha; simp [AMap.set, ledgerOf_cons]
      · simp [AMap.set, ledgerOf_cons, ha, ih]
    · simp [AMap.set, ledgerOf_cons, hd, ih]

theorem ledgerOf_set_ne {d d' : Nat} (h : d' ≠ d) (a : Addr) (v : Nat) (m : Ledger (Nat × Addr)) :
    ledgerOf d (AMap.set m (d', a) v) = ledgerOf d m := by
  induction m with
  | nil => simp [AMap.set, ledgerOf, h]
  | cons x m ih =>
    obtain ⟨⟨d1, a1⟩, n⟩ := x
    by_cases hx : (d1, a1) = (d', a)
    · simp only [Prod.mk.injEq] at hx
      obtain ⟨rfl, rfl⟩ := hx
      simp [AMap.set, ledgerOf_cons, h]
    · simp only [AMap.set, if_neg hx, ledgerOf_cons, ih]

theorem ledgerOf_get (d : Nat) (a : Addr) (m : Ledger (Nat × Addr)) : getD0 (ledgerOf d m) a = getD0 m (d, a) := by
  unfold getD0
  congr 1
  induction m with
  | nil => rfl
  | cons x m ih =>
    obtain ⟨⟨d', a'⟩, n⟩ := x
    rw [ledgerOf_cons]
    by_cases hd : d' = d
    · subst hd; by_cases ha : a' = a <;> simp [AMap.get, ha, ih]
    · simp [AMap.get, hd, ih]

/-- A transfer in the denomination is a transfer in its ledger. -/
theorem move_ledger {d : Nat} {a q : Addr} {n : Nat} {m m' : Ledger (Nat × Addr)} (h : m.move (d, a) (d, q) n = .ok m') :
    (ledgerOf d m).move a q n = .ok (ledgerOf d m') := by
  simp only [Ledger.move, bind_ok, Ledger.debit_ok, Ledger.credit_ok] at h ⊢
  obtain ⟨l, ⟨h1, rfl⟩, h2, rfl⟩ := h
  refine ⟨_, ⟨by rw [ledgerOf_get]; exact h1, rfl⟩, ?_⟩
  rw [ledgerOf_set, ledgerOf_set, ledgerOf_get, ← ledgerOf_set, ledgerOf_get]
  exact ⟨h2, rfl⟩

/-- And the other way round. -/
theorem ledger_move {d : Nat} {a q : Addr} {n : Nat} {m : Ledger (Nat × Addr)} {l : Ledger Addr}
    (h : (ledgerOf d m).move a q n = .ok l) : ∃ m', m.move (d, a) (d, q) n = .ok m' ∧ ledgerOf d m' = l := by
  simp only [Ledger.move, bind_ok, Ledger.debit_ok, Ledger.credit_ok] at h ⊢
  obtain ⟨l1, ⟨h1, rfl⟩, h2, rfl⟩ := h
  rw [ledgerOf_get, ← ledgerOf_set, ledgerOf_get] at h2
  rw [ledgerOf_get] at h1
  refine ⟨_, ⟨_, ⟨h1, rfl⟩, h2, rfl⟩, ?_⟩
  have e := ledgerOf_get d q (AMap.set m (d, a) (getD0 m (d, a) - n))
  rw [ledgerOf_set] at e
  rw [ledgerOf_set, ledgerOf_set, ledgerOf_get d a m, e]

/-- A transfer in another denomination. -/
theorem move_other {d d' : Nat} (hd : d' ≠ d) {a q : Addr} {n : Nat} {m m' : Ledger (Nat × Addr)}
    (h : m.move (d', a) (d', q) n = .ok m') : ledgerOf d m' = ledgerOf d m := by
  simp only [Ledger.move, bind_ok, Ledger.debit_ok, Ledger.credit_ok] at h
  obtain ⟨l, ⟨h1, rfl⟩, h2, rfl⟩ := h
  rw [ledgerOf_set_ne hd, ledgerOf_set_ne hd]

/-! ## The supply -/

/-- The supply that the module keeps for a denomination is what its holders have. -/
def Tally (c : FanToken.World) : Prop :=
  ∀ d, supply c.bal d = match c.tokens.get d with | none => 0 | some t => t.supply

/-- What a message does to the ledgers: it changes that of its denomination at most, and adds up. -/
theorem tally_msg {c c' : FanToken.World} {d : Nat} {s : Addr} {m : FanToken.ModMsg} (h : modMsg c d s m = .ok c')
    (ht : Tally c) : Tally c' ∧ ∀ x, x ≠ d → ledgerOf x c'.bal = ledgerOf x c.bal := by
  cases m with
  | mint r n =>
    obtain ⟨t, h1, h2, h3, h4, h5, rfl⟩ := mint_ok.1 h
    refine ⟨fun x => ?_, fun x hx => ledgerOf_set_ne (Ne.symm hx) ..⟩
    simp only [AMap.get_set]
    by_cases hx : d = x
    · subst hx
      have := ht d
      rw [h1] at this
      rw [if_pos rfl]
      change total (ledgerOf d c.bal) = t.supply at this
      change total (ledgerOf d (AMap.set c.bal (d, r) (getD0 c.bal (d, r) + n))) = t.supply + n
      rw [ledgerOf_set]
      have h6 := total_set (ledgerOf d c.bal) r (getD0 c.bal (d, r) + n)
      rw [ledgerOf_get] at h6
      omega
    · rw [if_neg hx]
      have := ht x
      unfold supply at this ⊢
      rw [ledgerOf_set_ne hx]; exact this
  | setAuthority a =>
    simp only [modMsg, bind_ok, orErr_ok, require_ok, decide_eq_true_eq, Except.ok.injEq] at h
    obtain ⟨t, h1, _, h2, rfl⟩ := h
    refine ⟨fun x => ?_, fun x _ => rfl⟩
    have := ht x
    simp only [AMap.get_set]
    by_cases hx : d = x
    · subst hx; rw [h1] at this; simpa using this
    · rw [if_neg hx]; exact this
  | setMinter a =>
    simp only [modMsg, bind_ok, orErr_ok, require_ok, decide_eq_true_eq, Except.ok.injEq] at h
    obtain ⟨t, h1, _, h2, rfl⟩ := h
    refine ⟨fun x => ?_, fun x _ => rfl⟩
    have := ht x
    simp only [AMap.get_set]
    by_cases hx : d = x
    · subst hx; rw [h1] at this; simpa using this
    · rw [if_neg hx]; exact this

theorem tally_msgs {d : Nat} {s : Addr} {l : List FanToken.ModMsg} {c c' : FanToken.World}
    (h : modMsgs d s l c = .ok c') (ht : Tally c) : Tally c' ∧ ∀ x, x ≠ d → ledgerOf x c'.bal = ledgerOf x c.bal := by
  induction l generalizing c with
  | nil => simp only [modMsgs, Except.ok.injEq] at h; subst h; exact ⟨ht, fun _ _ => rfl⟩
  | cons m l ih =>
    simp only [modMsgs, bind_ok] at h
    obtain ⟨c1, h1, h2⟩ := h
    obtain ⟨g1, g2⟩ := tally_msg h1 ht
    obtain ⟨g3, g4⟩ := ih h2 g1
    exact ⟨g3, fun x hx => (g4 x hx).trans (g2 x hx)⟩

theorem tally_issue {c : FanToken.World} (ht : Tally c) {d : Nat} (hd : c.tokens.get d = none) {a m : Addr} {mx : Nat}
    {st : FanToken.State} :
    Tally { c with c := st, tokens := c.tokens.set d ⟨a, m, mx, 0⟩ } := by
  intro x
  have := ht x
  simp only [AMap.get_set]
  by_cases hx : d = x
  · subst hx; rw [hd] at this; simpa using this
  · rw [if_neg hx]; exact this

theorem tally_move {c : FanToken.World} (ht : Tally c) {d : Nat} {a q : Addr} {n : Nat} {m' : Ledger (Nat × Addr)}
    (h : c.bal.move (d, a) (d, q) n = .ok m') : Tally { c with bal := m' } := by
  intro x
  rw [← ht x]
  show supply m' x = _
  unfold supply
  by_cases hx : d = x
  · subst hx; exact Ledger.move_total (move_ledger h)
  · rw [move_other hx h]

theorem tally_step {c c' : FanToken.World} {e : FanToken.Env} {call : FanToken.Call} {u : Unit}
    (h : FanToken.step c e call = .ok (c', u)) (ht : Tally c) :
    Tally c' ∧ ∀ x, x ≠ e.denom → ledgerOf x c'.bal = ledgerOf x c.bal := by
  cases call with
  | factory t =>
    obtain ⟨dao, c2, _, hn, h1, h2⟩ := factory_ok.1 h
    obtain ⟨g1, g2⟩ := tally_msgs h1 (tally_issue ht hn)
    obtain ⟨g3, g4⟩ := tally_msgs h2 g1
    exact ⟨g3, fun x hx => (g4 x hx).trans (g2 x hx)⟩
  | issue a m mx =>
    simp only [FanToken.step, FanToken.issue, bind_ok, require_ok, decide_eq_true_eq, Except.ok.injEq, Prod.mk.injEq] at h
    obtain ⟨_, ⟨_, hn, rfl⟩, rfl, _⟩ := h
    exact ⟨tally_issue (st := c.c) ht hn, fun _ _ => rfl⟩
  | module m =>
    simp only [FanToken.step, bind_ok, require_ok, decide_eq_true_eq, Except.ok.injEq, Prod.mk.injEq] at h
    obtain ⟨_, _, c1, h2, rfl, _⟩ := h
    exact tally_msg h2 ht
  | transfer dst n =>
    simp only [FanToken.step, bind_ok, Except.ok.injEq, Prod.mk.injEq] at h
    obtain ⟨m', h1, rfl, _⟩ := h
    exact ⟨tally_move ht h1, fun x hx => move_other (Ne.symm hx) h1⟩
  | burn n =>
    simp only [FanToken.step, bind_ok, orErr_ok, Ledger.debit_ok, Except.ok.injEq, Prod.mk.injEq] at h
    obtain ⟨t, h1, _, ⟨h2, rfl⟩, rfl, _⟩ := h
    refine ⟨fun x => ?_, fun x hx => ledgerOf_set_ne (Ne.symm hx) ..⟩
    simp only [AMap.get_set]
    by_cases hx : e.denom = x
    · subst hx
      have := ht e.denom
      rw [h1] at this
      rw [if_pos rfl]
      change total (ledgerOf e.denom c.bal) = t.supply at this
      change total (ledgerOf e.denom (AMap.set c.bal (e.denom, e.sender) (getD0 c.bal (e.denom, e.sender) - n))) = t.supply - n
      rw [ledgerOf_set]
      have h6 := total_set (ledgerOf e.denom c.bal) e.sender (getD0 c.bal (e.denom, e.sender) - n)
      rw [ledgerOf_get] at h6
      omega
    · rw [if_neg hx]
      have := ht x
      unfold supply at this ⊢
      rw [ledgerOf_set_ne hx]; exact this

theorem tally_reach {c : FanToken.World} {b : Block} {log : List Spec.FanToken.Event} (h : FanToken.sys.Reach c b log) :
    Tally c := by
  refine Sys.Reach.induct (M := FanToken.sys) (P := fun c _ _ => Tally c) ?_ ?_ h
  · rintro b c ⟨_, h1, h2⟩ x
    rw [h1, h2]; rfl
  · intro c b l e call out c' _ ih _ hs
    exact (tally_step hs ih).1

/-! ## The token -/

/-- What a transaction of the chain does to a token that exists. -/
theorem token_step {c c' : FanToken.World} {e : FanToken.Env} {call : FanToken.Call} {u : Unit} {d : Nat}
    {t : FanToken.Token} (h : FanToken.step c e call = .ok (c', u)) (ht : c.tokens.get d = some t) :
    ∃ t', c'.tokens.get d = some t' ∧ t'.max = t.max ∧ (t.supply ≤ t.max → t'.supply ≤ t'.max) ∧
      (t.supply < t'.supply → e.denom = d ∧ e.sender = t.minter ∧
        ∃ r n, call = .module (.mint r n) ∧ t'.supply = t.supply + n) ∧
      (t'.minter ≠ t.minter → e.denom = d ∧ e.sender = t.minter ∧ call = .module (.setMinter t'.minter)) ∧
      c'.self = c.self := by
  cases call with
  | factory nt =>
    obtain ⟨dao, h1, h2, h3, h4, h5, h6, h7, h8, h9⟩ := factory_does h
    have hd : d ≠ e.denom := by rintro rfl; rw [ht] at h2; cases h2
    refine ⟨t, by rw [h7 d hd]; exact ht, rfl, id, fun h => absurd h (Nat.lt_irrefl _), fun h => absurd rfl h, ?_⟩
    obtain ⟨dao', w2, _, hn, hm, hh⟩ := factory_ok.1 h
    obtain ⟨_, _, i3, _, _, _, _, i8⟩ := FanToken.mints_do (AMap.get_set_self ..) hm
    simp only [modMsgs, modMsg, bind_ok, orErr_ok, require_ok, decide_eq_true_eq, Except.ok.injEq] at hh
    obtain ⟨_, ⟨t1, _, _, _, rfl⟩, _, ⟨t2, _, _, _, rfl⟩, rfl⟩ := hh
    exact i8
  | issue a m mx =>
    simp only [FanToken.step, FanToken.issue, bind_ok, require_ok, decide_eq_true_eq, Except.ok.injEq, Prod.mk.injEq] at h
    obtain ⟨_, ⟨_, hn, rfl⟩, rfl, _⟩ := h
    have hd : e.denom ≠ d := by rintro rfl; rw [ht] at hn; cases hn
    exact ⟨t, by rw [show AMap.get _ _ = _ from AMap.get_set_ne _ _ hd]; exact ht, rfl, id,
      fun h => absurd h (Nat.lt_irrefl _), fun h => absurd rfl h, rfl⟩
  | module m =>
    simp only [FanToken.step, bind_ok, require_ok, decide_eq_true_eq, Except.ok.injEq, Prod.mk.injEq] at h
    obtain ⟨_, _, c1, h2, rfl, _⟩ := h
    by_cases hd : e.denom = d
    · subst hd
      cases m with
      | mint r n =>
        obtain ⟨t', g1, g2, g3, g4, g5, rfl⟩ := mint_ok.1 h2
        rw [ht, Option.some.injEq] at g1
        subst g1
        exact ⟨_, AMap.get_set_self .., rfl, fun _ => g4, fun _ => ⟨rfl, g2.symm, r, n, rfl, rfl⟩, fun h => absurd rfl h, rfl⟩
      | setAuthority a =>
        simp only [modMsg, bind_ok, orErr_ok, require_ok, decide_eq_true_eq, Except.ok.injEq] at h2
        obtain ⟨t', g1, _, g2, rfl⟩ := h2
        rw [ht, Option.some.injEq] at g1
        subst g1
        exact ⟨_, AMap.get_set_self .., rfl, id, fun h => absurd h (Nat.lt_irrefl _), fun h => absurd rfl h, rfl⟩
      | setMinter a =>
        simp only [modMsg, bind_ok, orErr_ok, require_ok, decide_eq_true_eq, Except.ok.injEq] at h2
        obtain ⟨t', g1, _, g2, rfl⟩ := h2
        rw [ht, Option.some.injEq] at g1
        subst g1
        exact ⟨_, AMap.get_set_self .., rfl, id, fun h => absurd h (Nat.lt_irrefl _), fun _ => ⟨rfl, g2.symm, rfl⟩, rfl⟩
    · obtain ⟨_, g2, _⟩ := FanToken.modMsg_unissued h2
      refine ⟨t, by rw [g2 d (Ne.symm hd)]; exact ht, rfl, id, fun h => absurd h (Nat.lt_irrefl _), fun h => absurd rfl h, ?_⟩
      cases m with
      | mint r n => obtain ⟨t', g1, g2, g3, g4, g5, rfl⟩ := mint_ok.1 h2; rfl
      | setAuthority a =>
        simp only [modMsg, bind_ok, orErr_ok, require_ok, decide_eq_true_eq, Except.ok.injEq] at h2
        obtain ⟨t', g1, _, g2, rfl⟩ := h2; rfl
      | setMinter a =>
        simp only [modMsg, bind_ok, orErr_ok, require_ok, decide_eq_true_eq, Except.ok.injEq] at h2
        obtain ⟨t', g1, _, g2, rfl⟩ := h2; rfl
  | transfer dst n =>
    simp only [FanToken.step, bind_ok, Except.ok.injEq, Prod.mk.injEq] at h
    obtain ⟨m', h1, rfl, _⟩ := h
    exact ⟨t, ht, rfl, id, fun h => absurd h (Nat.lt_irrefl _), fun h => absurd rfl h, rfl⟩
  | burn n =>
    simp only [FanToken.step, bind_ok, orErr_ok, Ledger.debit_ok, Except.ok.injEq, Prod.mk.injEq] at h
    obtain ⟨t1, h1, _, ⟨h2, rfl⟩, rfl, _⟩ := h
    by_cases hd : e.denom = d
    · subst hd
      rw [ht, Option.some.injEq] at h1
      subst h1
      exact ⟨_, AMap.get_set_self .., rfl, fun h => by simp only; omega, fun h => by simp only at h; omega,
        fun h => absurd rfl h, rfl⟩
    · exact ⟨t, by rw [show AMap.get _ _ = _ from AMap.get_set_ne _ _ hd]; exact ht, rfl, id,
        fun h => absurd h (Nat.lt_irrefl _), fun h => absurd rfl h, rfl⟩

/-! ## The voting module over its ledger -/

/-- The voting module and the ledger of its denomination. -/
def proj (w : World) : TokenStaked.World := ⟨w.vm, w.self, ledgerOf w.denom w.chain.bal⟩

/-- The token of the DAO exists, its supply is what the holders have, and fits. -/
structure Inv (w : World) (mx : Nat) : Prop where
  tally : Tally w.chain
  token : ∃ t, w.chain.tokens.get w.denom = some t ∧ t.max = mx ∧ t.supply ≤ mx
  fits : mx < U128

theorem Inv.supply {w : World} {mx : Nat} (h : Inv w mx) : FanDao.supply w.chain.bal w.denom ≤ mx := by
  obtain ⟨t, h1, h2, h3⟩ := h.token
  rw [h.tally, h1]; exact h3

theorem settle_proj {w w' : World} {vm : TokenStaked.State} {out out' : TokenStaked.Out} (h : settle w vm out = .ok (w', out')) :
    TokenStaked.settle (proj w) vm out = .ok (proj w', out') ∧ w'.denom = w.denom ∧ w'.self = w.self ∧
      w'.chain.tokens = w.chain.tokens ∧ w'.chain.self = w.chain.self ∧ (Tally w.chain → Tally w'.chain) := by
  unfold settle at h
  unfold TokenStaked.settle
  cases hp : out.pay with
  | none =>
    rw [hp] at h
    simp only [Except.ok.injEq, Prod.mk.injEq] at h ⊢
    obtain ⟨rfl, rfl⟩ := h
    exact ⟨⟨rfl, rfl⟩, rfl, rfl, rfl, rfl, id⟩
  | some x =>
    obtain ⟨a, n⟩ := x
    rw [hp] at h
    simp only [bind_ok, Except.ok.injEq, Prod.mk.injEq] at h ⊢
    obtain ⟨m', h1, rfl, rfl⟩ := h
    exact ⟨⟨_, move_ledger h1, rfl, rfl⟩, rfl, rfl, rfl, rfl, fun ht => tally_move ht h1⟩

theorem proj_settle {w : World} {tw : TokenStaked.World} {vm : TokenStaked.State} {out out' : TokenStaked.Out}
    (h : TokenStaked.settle (proj w) vm out = .ok (tw, out')) : ∃ w', settle w vm out = .ok (w', out') ∧ proj w' = tw := by
  unfold TokenStaked.settle at h
  unfold settle
  cases hp : out.pay with
  | none =>
    rw [hp] at h
    simp only [Except.ok.injEq, Prod.mk.injEq] at h ⊢
    obtain ⟨rfl, rfl⟩ := h
    exact ⟨_, ⟨rfl, rfl⟩, rfl⟩
  | some x =>
    obtain ⟨a, n⟩ := x
    rw [hp] at h
    simp only [bind_ok, Except.ok.injEq, Prod.mk.injEq] at h ⊢
    obtain ⟨l, h1, rfl, rfl⟩ := h
    obtain ⟨m', h2, h3⟩ := ledger_move h1
    exact ⟨_, ⟨m', h2, rfl, rfl⟩, by simp only [proj]; rw [h3]⟩

/-- What a transaction does, seen from the voting module and its ledger. -/
inductive Seen (w w' : World) (e : FanToken.Env) : Call → Prop where
  | apart (c : FanToken.Call) (h : proj w' = proj w) : Seen w w' e (.fan c)
  | transfer (dst : Addr) (n : Nat)
      (h : TokenStaked.step (proj w) e.block (.transfer e.sender dst n) = .ok (proj w', {})) : Seen w w' e (.fan (.transfer dst n))
  | mint (r : Addr) (n : Nat)
      (h : TokenStaked.step (proj w) e.block (.mint r n) = .ok (proj w', {})) : Seen w w' e (.fan (.module (.mint r n)))
  | burn (n : Nat)
      (h : TokenStaked.step (proj w) e.block (.burn e.sender n) = .ok (proj w', {})) : Seen w w' e (.fan (.burn n))
  | vm (m : TokenStaked.Msg) (out : TokenStaked.Out)
      (h : TokenStaked.step (proj w) e.block (.exec e.sender m) = .ok (proj w', out)) : Seen w w' e (.vm m)
  | stake (n : Nat) (out : TokenStaked.Out)
      (h : TokenStaked.step (proj w) e.block (.stake e.sender n) = .ok (proj w', out)) : Seen w w' e (.stake n)

theorem seen {w w' : World} {mx : Nat} (hi : Inv w mx) {e : FanToken.Env} {call : Call} {out : TokenStaked.Out}
    (h : step w e call = .ok (w', out)) : Seen w w' e call := by
  cases call with
  | vm m =>
    simp only [step, bind_ok, require_ok, decide_eq_true_eq, Prod.exists] at h
    obtain ⟨_, h1, vm, o, h2, h3⟩ := h
    refine .vm m out ?_
    simp only [TokenStaked.step, bind_ok, require_ok, decide_eq_true_eq, Prod.exists]
    exact ⟨(), h1, vm, o, h2, (settle_proj h3).1⟩
  | stake n =>
    simp only [step, bind_ok, require_ok, decide_eq_true_eq, Prod.exists, Except.ok.injEq, Prod.mk.injEq] at h
    obtain ⟨_, h1, m', h2, vm, o, h3, rfl, rfl⟩ := h
    refine .stake n o ?_
    simp only [TokenStaked.step, bind_ok, require_ok, decide_eq_true_eq, Prod.exists, Except.ok.injEq, Prod.mk.injEq]
    exact ⟨(), h1, _, move_ledger h2, vm, o, h3, rfl, rfl⟩
  | fan c =>
    simp only [step, bind_ok, require_ok, decide_eq_true_eq, Prod.exists, Except.ok.injEq, Prod.mk.injEq] at h
    obtain ⟨_, h1, ch, u, h2, rfl, rfl⟩ := h
    obtain ⟨t, t1, t2, t3⟩ := hi.token
    have hsup : Verif.total (ledgerOf w.denom w.chain.bal) = t.supply := by
      have := hi.tally w.denom; rw [t1] at this; exact this
    by_cases hd : e.denom = w.denom
    · cases c with
      | factory nt =>
        obtain ⟨dao, g1, g2, _⟩ := factory_does h2
        rw [hd, t1] at g2; cases g2
      | issue a m x =>
        simp only [FanToken.step, FanToken.issue, bind_ok, require_ok, decide_eq_true_eq, Except.ok.injEq,
          Prod.mk.injEq] at h2
        obtain ⟨_, ⟨_, hn, rfl⟩, rfl, _⟩ := h2
        exact .apart _ rfl
      | module m =>
        simp only [FanToken.step, bind_ok, require_ok, decide_eq_true_eq, Except.ok.injEq, Prod.mk.injEq] at h2
        obtain ⟨_, _, c1, h2, rfl, _⟩ := h2
        cases m with
        | mint r n =>
          obtain ⟨t', g1, g2, g3, g4, g5, rfl⟩ := mint_ok.1 h2
          rw [hd, t1, Option.some.injEq] at g1
          subst g1
          refine .mint r n ?_
          have := hi.fits
          simp only [TokenStaked.step, bind_ok, require_ok, decide_eq_true_eq, Except.ok.injEq, Prod.mk.injEq,
            Ledger.credit_ok]
          refine ⟨(), by simp only [proj]; omega, _, ⟨?_, rfl⟩, ?_, trivial⟩
          · simp only [proj]; rw [ledgerOf_get, ← hd]; exact g5
          · simp only [proj]; rw [ledgerOf_get, hd, ledgerOf_set]
        | setAuthority a =>
          simp only [modMsg, bind_ok, orErr_ok, require_ok, decide_eq_true_eq, Except.ok.injEq] at h2
          obtain ⟨t', g1, _, g2, rfl⟩ := h2
          exact .apart _ rfl
        | setMinter a =>
          simp only [modMsg, bind_ok, orErr_ok, require_ok, decide_eq_true_eq, Except.ok.injEq] at h2
          obtain ⟨t', g1, _, g2, rfl⟩ := h2
          exact .apart _ rfl
      | transfer dst n =>
        simp only [FanToken.step, bind_ok, Except.ok.injEq, Prod.mk.injEq] at h2
        obtain ⟨m', h3, rfl, _⟩ := h2
        refine .transfer dst n ?_
        simp only [TokenStaked.step, bind_ok, require_ok, decide_eq_true_eq, Except.ok.injEq, Prod.mk.injEq]
        rw [hd] at h3
        exact ⟨(), h1, _, move_ledger h3, rfl, trivial⟩
      | burn n =>
        simp only [FanToken.step, bind_ok, orErr_ok, Ledger.debit_ok, Except.ok.injEq, Prod.mk.injEq] at h2
        obtain ⟨t', g1, _, ⟨g2, rfl⟩, rfl, _⟩ := h2
        refine .burn n ?_
        simp only [TokenStaked.step, bind_ok, require_ok, decide_eq_true_eq, Except.ok.injEq, Prod.mk.injEq,
          Ledger.debit_ok]
        refine ⟨(), h1, _, ⟨?_, rfl⟩, ?_, trivial⟩
        · simp only [proj]; rw [ledgerOf_get, ← hd]; exact g2
        · simp only [proj]; rw [ledgerOf_get, hd, ledgerOf_set]
    · refine .apart _ ?_
      simp only [proj]
      rw [(tally_step h2 hi.tally).2 _ (Ne.symm hd)]

/-- What a transaction does to the token of the DAO. -/
theorem inv_step {w w' : World} {mx : Nat} (hi : Inv w mx) {e : FanToken.Env} {call : Call} {out : TokenStaked.Out}
    (h : step w e call = .ok (w', out)) :
    Inv w' mx ∧ w'.denom = w.denom ∧ w'.self = w.self ∧ w'.chain.self = w.chain.self ∧ e.sender ≠ w.self ∧
      ∀ t t', w.chain.tokens.get w.denom = some t → w'.chain.tokens.get w'.denom = some t' →
        (t.supply < t'.supply → e.denom = w.denom ∧ e.sender = t.minter ∧
          ∃ r n, call = .fan (.module (.mint r n)) ∧ t'.supply = t.supply + n) ∧
        (t'.minter ≠ t.minter → e.denom = w.denom ∧ e.sender = t.minter ∧ call = .fan (.module (.setMinter t'.minter))) := by
  have same : w'.chain.tokens = w.chain.tokens → w'.denom = w.denom → 
      ∀ t t', w.chain.tokens.get w.denom = some t → w'.chain.tokens.get w'.denom = some t' → t' = t := by
    intro h1 h2 t t' g1 g2
    rw [h1, h2, g1, Option.some.injEq] at g2
    exact g2.symm
  cases call with
  | vm m =>
    simp only [step, bind_ok, require_ok, decide_eq_true_eq, Prod.exists] at h
    obtain ⟨_, h1, vm, o, h2, h3⟩ := h
    obtain ⟨_, g1, g2, g3, g4, g5⟩ := settle_proj h3
    refine ⟨⟨g5 hi.tally, by rw [g3, g1]; exact hi.token, hi.fits⟩, g1, g2, g4, h1, fun t t' k1 k2 => ?_⟩
    rw [same g3 g1 t t' k1 k2]
    exact ⟨fun h => absurd h (Nat.lt_irrefl _), fun h => absurd rfl h⟩
  | stake n =>
    simp only [step, bind_ok, require_ok, decide_eq_true_eq, Prod.exists, Except.ok.injEq, Prod.mk.injEq] at h
    obtain ⟨_, h1, m', h2, vm, o, h3, rfl, rfl⟩ := h
    refine ⟨⟨tally_move hi.tally h2, hi.token, hi.fits⟩, rfl, rfl, rfl, h1, fun t t' k1 k2 => ?_⟩
    rw [same rfl rfl t t' k1 k2]
    exact ⟨fun h => absurd h (Nat.lt_irrefl _), fun h => absurd rfl h⟩
  | fan c =>
    simp only [step, bind_ok, require_ok, decide_eq_true_eq, Prod.exists, Except.ok.injEq, Prod.mk.injEq] at h
    obtain ⟨_, h1, ch, u, h2, rfl, rfl⟩ := h
    obtain ⟨t, t1, t2, t3⟩ := hi.token
    obtain ⟨t', k1, k2, k3, k4, k5, k6⟩ := token_step h2 t1
    refine ⟨⟨(tally_step h2 hi.tally).1, ⟨t', k1, k2.trans t2, ?_⟩, hi.fits⟩, rfl, rfl, k6, h1, fun x x' g1 g2 => ?_⟩
    · have := k3 (t2 ▸ t3); rw [k2, t2] at this; exact this
    · rw [t1, Option.some.injEq] at g1
      simp only at g2
      rw [k1, Option.some.injEq] at g2
      subst g1; subst g2
      refine ⟨fun hh => ?_, fun hh => ?_⟩
      · obtain ⟨a1, a2, r, n, rfl, a4⟩ := k4 hh; exact ⟨a1, a2, r, n, rfl, a4⟩
      · obtain ⟨a1, a2, rfl⟩ := k5 hh; exact ⟨a1, a2, rfl⟩

end Verif.FanDao
