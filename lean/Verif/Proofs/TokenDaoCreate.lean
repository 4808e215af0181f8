import Verif.Spec.TokenDao
import Verif.Props.Issuer
/-!
# Proofs about the creation of a voting module with a new token
-/

namespace Verif.TokenDao
open Verif Verif.Spec.TokenDao

theorem supply_eq (c : Issuer.Chain) (d : Nat) : supply c d = Spec.Issuer.supply c d := rfl

theorem holds_le_supply (c : Issuer.Chain) (d : Nat) (a : Addr) : getD0 c.bal (d, a) ≤ supply c d := by
  unfold supply getD0
  generalize c.bal = m
  induction m with
  | nil => simp [AMap.get]
  | cons x m ih =>
    obtain ⟨k, v⟩ := x
    simp only [AMap.get, AMap.sum]
    split
    · rename_i h; subst h; simp
    · omega

/-- The issuer while the voting module still has `r` to mint. -/
def mid (self : Addr) (denom r : Nat) : Issuer.State :=
  { Issuer.instantiate self denom with minters := Issuer.setAllowance [] self r }

theorem setAllowance_again (a r n : Nat) :
    Issuer.setAllowance (Issuer.setAllowance [] a r) a n = Issuer.setAllowance [] a n := by
  unfold Issuer.setAllowance
  by_cases hr : r = 0 <;> by_cases hn : n = 0 <;> simp [hr, hn, AMap.set, AMap.erase]

theorem getD0_mid (self denom r a : Nat) : getD0 (mid self denom r).minters a = if self = a then r else 0 := by
  unfold mid
  simp only
  rw [Issuer.getD0_setAllowance]
  rfl

theorem mint_exec {self denom r here : Nat} {b : Block} {a n : Nat} (hn : n ≠ 0) (hle : n ≤ r) :
    Issuer.exec (mid self denom r) here b self (.mint a n) =
      .ok (mid self denom (r - n), [.mint denom n, .send denom a n]) := by
  have h1 : sub128 (getD0 (mid self denom r).minters self) n = .ok (r - n) := by
    rw [getD0_mid, if_pos rfl]
    exact (sub128_ok _ _ _).2 ⟨hle, rfl⟩
  simp only [Issuer.exec, Issuer.execMint, require]
  rw [if_pos (by simp [hn]), ok_bind, h1, ok_bind]
  have h2 : ({ mid self denom r with minters := Issuer.setAllowance (mid self denom r).minters self (r - n) } :
      Issuer.State) = mid self denom (r - n) := by
    unfold mid
    simp only [setAllowance_again]
  rw [h2]
  have h3 : Issuer.State.checkNotFrozen (mid self denom (r - n)) self a (mid self denom r).denom = .ok () := by
    rw [Issuer.checkNotFrozen_ok]
    intro h
    exact absurd h.1 (by simp [mid, Issuer.instantiate])
  rw [h3, ok_bind]
  rfl

/-- A mint of the voting module. -/
theorem mint_forward {self denom r here : Nat} {c : Issuer.Chain} {b : Block} {a n : Nat} {w' : Issuer.World} {u : Unit}
    (hs : Issuer.step ⟨here, mid self denom r, c⟩ { block := b, sender := self } (.exec (.mint a n)) = .ok (w', u)) :
    n ≠ 0 ∧ n ≤ r ∧ w'.here = here ∧ w'.st = mid self denom (r - n) ∧
      (∃ bal, w'.chain = { c with bal := bal }) ∧
      (∀ d q, getD0 w'.chain.bal (d, q) = getD0 c.bal (d, q) + if d = denom ∧ q = a then n else 0) ∧
      ∀ d, supply w'.chain d = supply c d + if d = denom then n else 0 := by
  have heff := Issuer.C56_mint_effect (w := ⟨here, mid self denom r, c⟩) (e := { block := b, sender := self }) hs
  obtain ⟨hn, hle, _, hh, hsup⟩ := heff
  have hle' : n ≤ r := by
    have := getD0_mid self denom r self
    rw [if_pos rfl] at this
    simpa [Issuer.State.mintAllowance, this] using hle
  obtain ⟨msgs, h1, h2, h3⟩ := Issuer.step_exec hs
  rw [mint_exec (by omega) hle'] at h1
  simp only [Except.ok.injEq, Prod.mk.injEq] at h1
  obtain ⟨h1, rfl⟩ := h1
  simp only [Issuer.Chain.runAll, bind_ok, Except.ok.injEq] at h2
  obtain ⟨c1, hm, c2, hsd, rfl⟩ := h2
  refine ⟨by omega, hle', h3, h1.symm, ?_, hh, hsup⟩
  simp only [Issuer.Chain.run, bind_ok, Except.ok.injEq] at hm
  obtain ⟨_, _, bal, _, rfl⟩ := hm
  obtain ⟨_, bal2, _, hc⟩ := Issuer.transfer_ok hsd
  exact ⟨bal2, hc⟩

/-- It goes through when it is covered and the supply fits. -/
theorem mint_runs {self denom r here : Nat} {c : Issuer.Chain} {b : Block} {a n : Nat} (hn : n ≠ 0) (hle : n ≤ r)
    (hadm : c.admin.get denom = some here) (hhook : c.hook.get denom = none) (hfit : supply c denom + n < U128) :
    ∃ w', Issuer.step ⟨here, mid self denom r, c⟩ { block := b, sender := self } (.exec (.mint a n)) = .ok (w', ()) := by
  have hb := holds_le_supply c denom here
  have hc : Ledger.credit c.bal (denom, here) n = .ok (AMap.set c.bal (denom, here) (getD0 c.bal (denom, here) + n)) :=
    Ledger.credit_ok.2 ⟨by omega, rfl⟩
  have hsup := Issuer.supply_credit hc denom
  generalize hb1 : AMap.set c.bal (denom, here) (getD0 c.bal (denom, here) + n) = bal1 at hc hsup
  have hg : getD0 bal1 (denom, here) = getD0 c.bal (denom, here) + n := by
    rw [← hb1, getD0_set, if_pos rfl]
  have hd : Ledger.debit bal1 (denom, here) n = .ok (AMap.set bal1 (denom, here) (getD0 bal1 (denom, here) - n)) :=
    Ledger.debit_ok.2 ⟨by omega, rfl⟩
  have hsup2 := Issuer.supply_debit hd denom
  generalize hb2 : AMap.set bal1 (denom, here) (getD0 bal1 (denom, here) - n) = bal2 at hd hsup2
  have hle2 := holds_le_supply { c with bal := bal2 } denom a
  simp only [if_true] at hsup hsup2
  have hcr : Ledger.credit bal2 (denom, a) n = .ok (AMap.set bal2 (denom, a) (getD0 bal2 (denom, a) + n)) := by
    refine Ledger.credit_ok.2 ⟨?_, rfl⟩
    unfold supply at hle2 hfit
    simp only at hle2
    omega
  have hmv : Ledger.move bal1 (denom, here) (denom, a) n = .ok (AMap.set bal2 (denom, a) (getD0 bal2 (denom, a) + n)) := by
    rw [Ledger.move, hd, ok_bind, hcr]
  have hask : ∀ st, Issuer.Chain.ask { c with bal := bal1 } st here here a denom true = .ok () := by
    intro st
    unfold Issuer.Chain.ask
    rw [if_neg (by simp [hhook])]
  refine ⟨⟨here, mid self denom (r - n), { c with bal := AMap.set bal2 (denom, a) (getD0 bal2 (denom, a) + n) }⟩, ?_⟩
  simp only [Issuer.step, mint_exec hn hle, ok_bind, Issuer.Chain.runAll, Issuer.Chain.run, Issuer.Chain.assertAdmin,
    require, hadm, decide_true, if_true, hc, Issuer.Chain.transfer, hask, hmv]

/-- The voting module's mints. -/
def mintsOf (l : List (Addr × Nat)) : List Issuer.Msg := l.map (fun x => .mint x.1 x.2)

theorem listed_cons (x : Addr × Nat) (l : List (Addr × Nat)) (a : Addr) :
    listed (x :: l) a = (if x.1 = a then x.2 else 0) + listed l a := by
  unfold listed
  by_cases h : x.1 = a <;> simp [List.filter, h]

theorem listed_append (l l' : List (Addr × Nat)) (a : Addr) : listed (l ++ l') a = listed l a + listed l' a := by
  unfold listed
  simp [List.filter_append]

theorem sumOf_cons (x : Addr × Nat) (l : List (Addr × Nat)) : sumOf (x :: l) = x.2 + sumOf l := rfl

theorem sumOf_append (l l' : List (Addr × Nat)) : sumOf (l ++ l') = sumOf l + sumOf l' := by
  unfold sumOf
  simp

theorem mints_forward {self denom here : Nat} {b : Block} (l : List (Addr × Nat)) : ∀ {r : Nat} {c : Issuer.Chain}
    {w' : Issuer.World}, sendAll self b (mintsOf l) ⟨here, mid self denom r, c⟩ = .ok w' →
    (∀ x ∈ l, x.2 ≠ 0) ∧ sumOf l ≤ r ∧ w'.here = here ∧ w'.st = mid self denom (r - sumOf l) ∧
      (∃ bal, w'.chain = { c with bal := bal }) ∧
      (∀ d q, getD0 w'.chain.bal (d, q) = getD0 c.bal (d, q) + if d = denom then listed l q else 0) ∧
      ∀ d, supply w'.chain d = supply c d + if d = denom then sumOf l else 0 := by
  induction l with
  | nil =>
    intro r c w' h
    simp only [mintsOf, List.map_nil, sendAll, Except.ok.injEq] at h
    subst h
    exact ⟨by simp, Nat.zero_le _, rfl, rfl, ⟨c.bal, rfl⟩, by simp [listed], by simp [sumOf]⟩
  | cons x l ih =>
    intro r c w' h
    simp only [mintsOf, List.map_cons, sendAll, bind_ok] at h
    obtain ⟨⟨w1, u⟩, h1, h2⟩ := h
    obtain ⟨hn, hle, hh, hst, ⟨bal, hch⟩, hbal, hsup⟩ := mint_forward h1
    obtain ⟨here1, st1, c1⟩ := w1
    simp only at hh hst hch hbal hsup h2
    subst hh hst
    obtain ⟨i1, i2, i3, i4, ⟨bal', i5⟩, i6, i7⟩ := ih (r := r - x.2) (c := c1) (w' := w') h2
    refine ⟨?_, ?_, i3, ?_, ⟨bal', by rw [i5, hch]⟩, ?_, ?_⟩
    · intro y hy
      rcases List.mem_cons.1 hy with rfl | hy
      · exact hn
      · exact i1 y hy
    · rw [sumOf_cons]; omega
    · rw [i4, sumOf_cons, Nat.sub_sub]
    · intro d q
      rw [i6, hbal, listed_cons]
      by_cases hd : d = denom
      · by_cases hq : q = x.1
        · subst hq; simp [hd]; omega
        · have hq' : ¬ x.1 = q := fun hc => hq hc.symm
          simp [hd, hq, hq']
      · simp [hd]
    · intro d
      rw [i7, hsup, sumOf_cons]
      by_cases hd : d = denom <;> simp [hd]; omega

theorem mints_run {self denom here : Nat} {b : Block} (l : List (Addr × Nat)) : ∀ {r : Nat} {c : Issuer.Chain},
    (∀ x ∈ l, x.2 ≠ 0) → sumOf l ≤ r → c.admin.get denom = some here → c.hook.get denom = none →
    supply c denom + sumOf l < U128 → ∃ w', sendAll self b (mintsOf l) ⟨here, mid self denom r, c⟩ = .ok w' := by
  induction l with
  | nil => intro r c _ _ _ _ _; exact ⟨_, rfl⟩
  | cons x l ih =>
    intro r c h0 hle hadm hhook hfit
    rw [sumOf_cons] at hle hfit
    obtain ⟨w1, h1⟩ := mint_runs (self := self) (denom := denom) (r := r) (here := here) (c := c) (b := b) (a := x.1)
      (n := x.2) (h0 x (List.mem_cons_self ..)) (by omega) hadm hhook (by omega)
    obtain ⟨hn, hle1, hh, hst, ⟨bal, hch⟩, hbal, hsup⟩ := mint_forward h1
    obtain ⟨here1, st1, c1⟩ := w1
    simp only at hh hst hch hbal hsup
    subst hh hst
    have hs1 := hsup denom
    rw [if_pos rfl] at hs1
    obtain ⟨w2, h2⟩ := ih (r := r - x.2) (c := c1) (fun y hy => h0 y (List.mem_cons_of_mem _ hy)) (by omega)
      (by rw [hch]; exact hadm) (by rw [hch]; exact hhook) (by omega)
    exact ⟨w2, by simp only [mintsOf, List.map_cons, sendAll, h1, ok_bind]; exact h2⟩

theorem sendAll_append {self : Addr} {b : Block} (l l' : List Issuer.Msg) (w : Issuer.World) :
    sendAll self b (l ++ l') w = sendAll self b l w >>= sendAll self b l' := by
  induction l generalizing w with
  | nil => simp only [List.nil_append, sendAll, ok_bind]
  | cons m l ih =>
    simp only [List.cons_append, sendAll]
    cases h : Issuer.step w { block := b, sender := self } (.exec m) with
    | error e => simp only [error_bind]
    | ok p => obtain ⟨w1, u⟩ := p; simp only [ok_bind]; exact ih w1

/-! ## The checks -/

theorem sumAmounts_ok {l : List (Addr × Nat)} {acc n : Nat} :
    TokenStaked.sumAmounts l acc = .ok n ↔ n = acc + sumOf l ∧ (l = [] ∨ acc + sumOf l < U128) := by
  induction l generalizing acc with
  | nil => simp only [TokenStaked.sumAmounts, Except.ok.injEq, sumOf, List.map_nil, List.sum_nil, Nat.add_zero, true_or, and_true]
           exact eq_comm
  | cons x l ih =>
    obtain ⟨a, m⟩ := x
    simp only [TokenStaked.sumAmounts, bind_ok, add128_ok, ih, sumOf_cons, reduceCtorEq, false_or]
    constructor
    · rintro ⟨_, ⟨h, rfl⟩, rfl, h2⟩
      refine ⟨by omega, ?_⟩
      rcases h2 with rfl | h2
      · simpa [sumOf] using h
      · omega
    · rintro ⟨rfl, h⟩
      exact ⟨acc + m, ⟨by omega, rfl⟩, by omega, Or.inr (by omega)⟩

theorem checkCount_ok {th : Option Active.ActiveThreshold} {n : Nat} {u : Unit} :
    TokenStaked.checkCount th n = .ok u ↔ (∀ k, th = some (.absolute k) → 0 < k ∧ k ≤ n) := by
  unfold TokenStaked.checkCount
  cases th with
  | none => simp
  | some t =>
    cases t with
    | percentage p => simp
    | absolute k =>
      simp only [Active.assertValidCount, bind_ok, require_ok, decide_eq_true_eq, Option.some.injEq,
        Active.ActiveThreshold.absolute.injEq, forall_eq']
      constructor
      · rintro ⟨_, h1, h2⟩; exact ⟨by omega, h2⟩
      · rintro ⟨h1, h2⟩; exact ⟨(), by omega, h2⟩

theorem checkPercentage_ok {th : Option Active.ActiveThreshold} {u : Unit} :
    TokenStaked.checkPercentage th = .ok u ↔ (∀ p, th = some (.percentage p) → 0 < p ∧ p ≤ DEC_ONE) := by
  unfold TokenStaked.checkPercentage
  cases th with
  | none => simp
  | some t =>
    cases t with
    | absolute k => simp
    | percentage p =>
      simp only [Active.assertValidPercentage, require_ok, decide_eq_true_eq, Option.some.injEq,
        Active.ActiveThreshold.percentage.injEq, forall_eq']
      constructor
      · rintro ⟨h1, h2⟩; exact ⟨by omega, h2⟩
      · rintro ⟨h1, h2⟩; exact ⟨by omega, h2⟩

theorem sensible_iff {th : Option Active.ActiveThreshold} {n : Nat} :
    Sensible th n ↔ (∀ p, th = some (.percentage p) → 0 < p ∧ p ≤ DEC_ONE) ∧
      (∀ k, th = some (.absolute k) → 0 < k ∧ k ≤ n) := by
  unfold Sensible
  cases th with
  | none => simp
  | some t => cases t <;> simp

theorem lasting_ok {d : Option Duration} {u : Unit} : Cw20Stake.validateDuration d = .ok u ↔ Lasting d := by
  unfold Cw20Stake.validateDuration Lasting
  cases d with
  | none => simp
  | some x => cases x <;> simp <;> omega

/-- The state of a new voting module. -/
def fresh (dao : Addr) (d : Option Duration) (th : Option Active.ActiveThreshold) : TokenStaked.State :=
  { dao := dao, unstakingDuration := d, staked := Snap.empty, stakedTotal := Snap.empty, claims := [], threshold := th, hooks := none }

theorem instantiate_ok {dao : Addr} {d : Option Duration} {th : Option Active.ActiveThreshold} {s : TokenStaked.State} :
    TokenStaked.instantiate dao d th = .ok s ↔
      Lasting d ∧ (∀ p, th = some (.percentage p) → 0 < p ∧ p ≤ DEC_ONE) ∧ s = fresh dao d th := by
  simp only [TokenStaked.instantiate, bind_ok, lasting_ok, checkPercentage_ok, Except.ok.injEq]
  constructor
  · rintro ⟨_, h1, _, h2, rfl⟩; exact ⟨h1, h2, rfl⟩
  · rintro ⟨h1, h2, rfl⟩; exact ⟨(), h1, (), h2, rfl⟩

/-- What is minted for a new token. -/
def allMints (dao : Addr) (t : NewToken) : List (Addr × Nat) := t.balances ++ TokenStaked.daoMint dao t.daoBalance

theorem sumOf_daoMint (dao : Addr) (o : Option Nat) : sumOf (TokenStaked.daoMint dao o) = o.getD 0 := by
  unfold TokenStaked.daoMint
  cases o with
  | none => rfl
  | some n => by_cases h : n = 0 <;> simp [h, sumOf]

theorem listed_daoMint (dao : Addr) (o : Option Nat) (a : Addr) :
    listed (TokenStaked.daoMint dao o) a = if a = dao then o.getD 0 else 0 := by
  unfold TokenStaked.daoMint
  cases o with
  | none => simp [listed]
  | some n =>
    by_cases h : n = 0
    · simp [h, listed]
    · by_cases ha : a = dao
      · simp [h, listed, ha]
      · have ha' : ¬ dao = a := fun hc => ha hc.symm
        simp [h, listed, ha, ha']

theorem daoMint_ne {dao : Addr} {o : Option Nat} {x : Addr × Nat} (hx : x ∈ TokenStaked.daoMint dao o) : x.2 ≠ 0 := by
  unfold TokenStaked.daoMint at hx
  cases o with
  | none => simp at hx
  | some n =>
    by_cases h : n = 0
    · simp [h] at hx
    · simp [h] at hx; rw [hx]; exact h

theorem setupMsgs_ok {vm : TokenStaked.State} {self : Addr} {t : NewToken} {msgs : List Issuer.Msg} :
    setupMsgs vm self t = .ok msgs ↔
      sumOf t.balances + t.daoBalance.getD 0 < U128 ∧ sumOf t.balances ≠ 0 ∧
      (∀ k, vm.threshold = some (.absolute k) → 0 < k ∧ k ≤ sumOf t.balances) ∧
      msgs = .setMinter self (sumOf t.balances + t.daoBalance.getD 0) ::
        (mintsOf (allMints vm.dao t) ++ [.updateOwnership (.transfer vm.dao none)]) := by
  simp only [setupMsgs, TokenStaked.replyNew, bind_ok, sumAmounts_ok, add128_ok, checkCount_ok, require_ok,
    decide_eq_true_eq, Except.ok.injEq]
  constructor
  · rintro ⟨mints, ⟨n, ⟨rfl, h1⟩, _, ⟨h2, rfl⟩, _, h3, _, h4, rfl⟩, m, ⟨rfl, _⟩, _, ⟨h5, rfl⟩, rfl⟩
    simp only [Nat.zero_add] at *
    exact ⟨h2, h4, h3, rfl⟩
  · rintro ⟨h1, h2, h3, rfl⟩
    have h0 : 0 + sumOf t.balances = sumOf t.balances := Nat.zero_add _
    refine ⟨_, ⟨sumOf t.balances, ⟨h0.symm, Or.inr (by omega)⟩, _, ⟨h1, rfl⟩, (), h3, (), h2, rfl⟩, sumOf t.balances,
      ⟨h0.symm, Or.inr (by omega)⟩, _, ⟨h1, rfl⟩, rfl⟩

end Verif.TokenDao
