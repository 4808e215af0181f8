import Verif.Props.Farms
/-!
# A staking contract and its reward contracts: concrete histories (C97)
-/

namespace Verif.Farms.Example
open Verif Verif.Farms Verif.Spec.Farms

/-- The staking contract at address 100, of owner 9, for the token at 50. Stakers 1 and 2 and the owner hold tokens; the
owner also holds another token. -/
def w0 : World :=
  { stake := { c := { config := ⟨50, none⟩, staked := Snap.empty, stakedTotal := Snap.empty.save () 0 1, claims := [],
                      balance := 0, hooks := none, ownership := { owner := some 9 } }
               self := 100, ledger := [(1, 1000), (2, 5000), (9, 100000)] }
    pools := [], tokens := [(.native 7, [(9, 3 * 10 ^ 38)])] }

theorem init : sys.init ⟨1, 1⟩ w0 := by
  have h0 : Cw20Stake.instantiate ⟨1, 1⟩ (some 9) 50 none = .ok w0.stake.c := by decide +kernel
  have h1 : total w0.stake.ledger < U128 := by decide +kernel
  have h2 : total ([(9, 3 * 10 ^ 38)] : Ledger Addr) < U128 := by decide +kernel
  have h3 : total ([] : Ledger Addr) < U128 := by decide +kernel
  refine ⟨⟨some 9, 50, none, h0, h1, by decide⟩, rfl, fun d => ?_⟩
  unfold World.ledger
  by_cases hd : d = w0.staked
  · rw [if_pos hd]; exact h1
  · rw [if_neg hd]
    by_cases h7 : (Asset.native 7) = d
    · subst h7; exact h2
    · have : w0.tokens.get d = none := by
        simp only [w0, AMap.get, beq_iff_eq, h7, if_false]
      rw [this]; exact h3

/-- Checks that a reward contract has not been used. -/
def unused (a : Addr) : List Event → Bool
  | [] => true
  | e :: log =>
    (match e.call with | .pool x _ => decide (x ≠ a) | _ => true) &&
      (!(staker e.call).isSome || !decide (Hooked e.pre a)) && unused a log

theorem unused_spec {a : Addr} {log : List Event} (h : unused a log = true) : Unused a log := by
  induction log with
  | nil => intro e he; cases he
  | cons x log ih =>
    simp only [unused, Bool.and_eq_true] at h
    intro e he
    rcases List.mem_cons.1 he with rfl | he
    · refine ⟨fun c hc => ?_, fun hs hh => ?_⟩
      · have := h.1.1
        rw [hc] at this
        simp at this
      · have := h.1.2
        simp [hs, hh] at this
    · exact ih h.2 e he

/-- Checks that a reward contract has been registered in time. -/
def registered (a : Addr) : List Event → Bool
  | [] => true
  | e :: log => (!(staker e.call).isSome || decide (Hooked e.pre a) || unused a log) && registered a log

theorem registered_spec {a : Addr} {log : List Event} (h : registered a log = true) : Registered a log := by
  induction log with
  | nil => intro l e bf he; simp at he
  | cons x log ih =>
    simp only [registered, Bool.and_eq_true] at h
    intro l e bf he hs
    cases l with
    | nil =>
      simp only [List.nil_append, List.cons.injEq] at he
      obtain ⟨rfl, rfl⟩ := he
      have := h.1
      simp only [hs, Bool.not_true, Bool.false_or, Bool.or_eq_true, decide_eq_true_eq] at this
      exact this.imp id unused_spec
    | cons y l =>
      simp only [List.cons_append, List.cons.injEq] at he
      exact ih h.2 l e bf he.2 hs

/-- Two reward contracts that pay in the staked token and one that pays in another, the first two registered with the
staking contract, one of them only after somebody has staked. -/
def calls : List (Block × Call) :=
  [(⟨2, 2⟩, .create 200 (some 9) (.cw20 50) 10),
   (⟨3, 3⟩, .stake (.send 1 100 .stake)),
   (⟨4, 4⟩, .stake (.exec 9 (.addHook 200))),
   (⟨4, 4⟩, .create 201 (some 9) (.cw20 50) 20),
   (⟨4, 4⟩, .stake (.exec 9 (.addHook 201))),
   (⟨5, 5⟩, .create 202 (some 9) (.native 7) 10),
   (⟨10, 10⟩, .pool 200 (.fund 9 1000)),
   (⟨10, 10⟩, .pool 201 (.fund 9 4000)),
   (⟨12, 12⟩, .stake (.send 2 300 .stake)),
   (⟨14, 14⟩, .pool 200 (.exec 1 .claim)),
   (⟨16, 16⟩, .stake (.exec 1 (.unstake 50))),
   (⟨17, 17⟩, .stake (.transfer 2 200 5)),
   (⟨18, 18⟩, .pool 201 (.exec 2 .claim))]

/-- **C97.** A history as the theorems assume it, in which stakers have received rewards from two contracts that pay in the
staked token, and have more to claim. -/
theorem C97_example : ∃ w b log, sys.Reach w b log ∧ Registered 200 log ∧ Registered 201 log ∧
    ExternalRewards.SCALE * funded 200 log < U256 ∧ ExternalRewards.SCALE * funded 201 log < U256 ∧
    (∀ a p, Hooked w a → w.pools.get a = some p → a = 200 ∨ a = 201) ∧
    received 200 1 log = 250 ∧ received 201 2 log = 942 ∧ pendingRewards w b 200 2 = .ok 471 ∧
    pendingRewards w b 201 1 = .ok 657 ∧ coins w 200 200 = 755 ∧ outside w 1 = true ∧
    (sys.step w b (.pool 200 (.exec 2 .claim))).isOk ∧
    (sys.step w b (.stake (.exec 1 (.unstake 50)))).isOk := by
  obtain ⟨w, b, log, hr, hp⟩ := Sys.check_run (M := sys) (s := w0) (b := ⟨1, 1⟩) (cs := calls)
    (p := fun w b log => registered 200 log && registered 201 log &&
      decide (ExternalRewards.SCALE * funded 200 log < U256) && decide (ExternalRewards.SCALE * funded 201 log < U256) &&
      decide (Hooks.items w.stake.c.hooks = [200, 201]) &&
      decide (received 200 1 log = 250) && decide (received 201 2 log = 942) &&
      decide (pendingRewards w b 200 2 = .ok 471) && decide (pendingRewards w b 201 1 = .ok 657) &&
      decide (coins w 200 200 = 755) && outside w 1 && (sys.step w b (.pool 200 (.exec 2 .claim))).isOk &&
      (sys.step w b (.stake (.exec 1 (.unstake 50)))).isOk)
    (by decide +kernel)
  simp only [Bool.and_eq_true, decide_eq_true_eq] at hp
  obtain ⟨⟨⟨⟨⟨⟨⟨⟨⟨⟨⟨⟨h1, h2⟩, h3⟩, h4⟩, h5⟩, h6⟩, h7⟩, h8⟩, h9⟩, h10⟩, h11⟩, h12⟩, h13⟩ := hp
  refine ⟨w, b, log, ⟨_, _, init, hr⟩, registered_spec h1, registered_spec h2, h3, h4, fun a p hh _ => ?_, h6, h7, h8, h9,
    h10, h11, h12, h13⟩
  unfold Hooked at hh
  rw [h5] at hh
  simpa using hh

/-- **C97.** Without registration the accounting is lost: the reward contract does not hear of the stakes, takes a late stake
for one that was always there, and promises more than it was ever given. The late staker cannot claim. -/
theorem C97_unregistered_witness : ∃ w b log, sys.Reach w b log ∧ ¬ Hooked w 200 ∧ funded 200 log = 1000 ∧
    pendingRewards w b 200 2 = .ok 40000 ∧ (∀ w' out, sys.step w b (.pool 200 (.exec 2 .claim)) ≠ .ok (w', out)) := by
  obtain ⟨w, b, log, hr, hp⟩ := Sys.check_run (M := sys) (s := w0) (b := ⟨1, 1⟩)
    (cs := [(⟨2, 2⟩, .create 200 (some 9) (.cw20 50) 10), (⟨3, 3⟩, .stake (.send 1 100 .stake)),
      (⟨10, 10⟩, .pool 200 (.fund 9 1000)), (⟨20, 20⟩, .pool 200 (.exec 1 .claim)),
      (⟨21, 21⟩, .stake (.send 2 4000 .stake)), (⟨22, 22⟩, .stake (.transfer 1 2 0))])
    (p := fun w b log => !decide (Hooked w 200) && decide (funded 200 log = 1000) &&
      decide (pendingRewards w b 200 2 = .ok 40000) && !(sys.step w b (.pool 200 (.exec 2 .claim))).isOk)
    (by decide +kernel)
  simp only [Bool.and_eq_true, decide_eq_true_eq, Bool.not_eq_true', decide_eq_false_iff_not] at hp
  refine ⟨w, b, log, ⟨_, _, init, hr⟩, hp.1.1.1, hp.1.1.2, hp.1.2, fun w' out h => ?_⟩
  have := hp.2
  rw [h] at this
  cases this

/-- The owner registers a reward contract and funds it with more than the scaled accounting can hold. -/
def trapped : List (Block × Call) :=
  [(⟨2, 2⟩, .create 202 (some 9) (.native 7) 10), (⟨3, 3⟩, .stake (.exec 9 (.addHook 202))),
   (⟨4, 4⟩, .stake (.send 1 100 .stake)), (⟨10, 10⟩, .pool 202 (.fund 9 (2 * 10 ^ 38)))]

/-- **C97.** A state as `C97_trap` assumes it: staker 1 holds a stake, the staking contract on its own would let them
unstake, no step that stakes or unstakes succeeds, and removing the hook frees the stakers again. -/
theorem C97_trap_witness : ∃ w b log p, sys.Reach w b log ∧ w.pools.get 202 = some p ∧ Hooked w 202 ∧
    p.c.finish ≤ 30 ∧ w.stake.c.total ≠ 0 ∧ b.height < 30 ∧
    U256 ≤ p.c.rate * (p.c.finish - p.c.lastUpdate) * ExternalRewards.SCALE ∧
    (Cw20Stake.step w.stake ⟨30, 30⟩ (.exec 1 (.unstake 100))).isOk ∧
    (∀ b' : Block, 30 ≤ b'.height → ∀ w' out, sys.step w b' (.stake (.exec 1 (.unstake 100))) ≠ .ok (w', out)) ∧
    ∃ w' out, sys.step w ⟨30, 30⟩ (.stake (.exec 9 (.removeHook 202))) = .ok (w', out) ∧
      (sys.step w' ⟨30, 30⟩ (.stake (.exec 1 (.unstake 100)))).isOk := by
  obtain ⟨w, b, log, hr, hp⟩ := Sys.check_run (M := sys) (s := w0) (b := ⟨1, 1⟩) (cs := trapped)
    (p := fun w b _ => (match w.pools.get 202 with
        | some p => decide (p.c.finish ≤ 30) &&
            decide (U256 ≤ p.c.rate * (p.c.finish - p.c.lastUpdate) * ExternalRewards.SCALE)
        | none => false) && decide (Hooked w 202) && decide (w.stake.c.total ≠ 0) && decide (b.height < 30) &&
      (Cw20Stake.step w.stake ⟨30, 30⟩ (.exec 1 (.unstake 100))).isOk &&
      (match sys.step w ⟨30, 30⟩ (.stake (.exec 9 (.removeHook 202))) with
        | .ok (w', _) => (sys.step w' ⟨30, 30⟩ (.stake (.exec 1 (.unstake 100)))).isOk
        | .error _ => false))
    (by decide +kernel)
  simp only [Bool.and_eq_true, decide_eq_true_eq] at hp
  obtain ⟨⟨⟨⟨⟨h1, h2⟩, h3⟩, h4⟩, h5⟩, h6⟩ := hp
  have hreach : sys.Reach w b log := ⟨_, _, init, hr⟩
  cases hw : w.pools.get 202 with
  | none => rw [hw] at h1; cases h1
  | some p =>
    rw [hw] at h1
    simp only [Bool.and_eq_true, decide_eq_true_eq] at h1
    refine ⟨w, b, log, p, hreach, hw, h2, h1.1, h3, h4, h1.2, h5, fun b' hb' => ?_, ?_⟩
    · exact C97_trap hreach (Nat.lt_of_lt_of_le h4 hb') hw h2 (Nat.le_trans h1.1 hb') h3 h1.2 _ rfl
    · cases hs : sys.step w ⟨30, 30⟩ (.stake (.exec 9 (.removeHook 202))) with
      | error e => rw [hs] at h6; cases h6
      | ok r => rw [hs] at h6; exact ⟨r.1, r.2, rfl, h6⟩

end Verif.Farms.Example
