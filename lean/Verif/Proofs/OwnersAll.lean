import Verif.Proofs.Owners
import Verif.Proofs.Roles
import Verif.Model.Cw20Stake
import Verif.Model.RewardDistributor
import Verif.Model.ExternalRewards
import Verif.Model.DaoRewards
import Verif.Model.Issuer
import Verif.Model.Vesting
import Verif.Model.PayrollFactory
/-!
# The contracts of the repository that use `cw_ownable`
-/

namespace Verif.Owners
open Verif Verif.Spec.Owners

/-- Every result of `r` satisfies `P`. -/
def All {α : Type} (P : α → Prop) (r : Res α) : Prop := ∀ x, r = .ok x → P x

theorem all_ok {α : Type} {P : α → Prop} {x : α} (h : P x) : All P (.ok x) := by
  intro y e; cases e; exact h

theorem all_error {α : Type} {P : α → Prop} {e : Err} : All P (.error e : Res α) := by
  intro y e; cases e

theorem all_bind {α β : Type} {P : β → Prop} {r : Res α} {g : α → Res β} (h : ∀ a, All P (g a)) : All P (r >>= g) := by
  intro y e
  obtain ⟨a, _, h2⟩ := (bind_ok _ _ _).1 e
  exact h a y h2

theorem all_bind' {α β : Type} {Q : α → Prop} {P : β → Prop} {r : Res α} {g : α → Res β} (h1 : All Q r)
    (h : ∀ a, Q a → All P (g a)) : All P (r >>= g) := by
  intro y e
  obtain ⟨a, h0, h2⟩ := (bind_ok _ _ _).1 e
  exact h a (h1 a h0) y h2

/-- Go through a function that leaves the ownership alone. -/
macro "keep" : tactic => `(tactic|
  repeat (first
    | (refine all_ok ?_; first | rfl | assumption)
    | exact all_error
    | (refine all_bind ?_; intro _)
    | split))

/-! ## cw20-stake -/
namespace Stake
open Verif.Cw20Stake

/-- The calls of `UpdateOwnership`. -/
def tells (b : Block) : Call → Option Said
  | .exec a (.updateOwnership x) => some ⟨b, a, x⟩
  | _ => none

theorem exec_own (s : State) (b : Block) (a : Addr) (m : Msg) (hm : ∀ x, m ≠ .updateOwnership x) :
    All (fun r => r.1.ownership = s.ownership) (exec s b a m) := by
  cases m with
  | updateOwnership x => exact absurd rfl (hm x)
  | receive from_ n m => cases m <;> simp only [exec, execReceive, execStake, execFund] <;> keep
  | unstake n => simp only [exec, execUnstake, release]; keep
  | claim => simp only [exec, execClaim]; keep
  | updateConfig d => simp only [exec, execUpdateConfig]; keep
  | addHook x => simp only [exec]; keep
  | removeHook x => simp only [exec]; keep

theorem settle_c (w : World) (c : State) (out : Out) : All (fun r => r.1.c = c) (settle w c out) := by
  unfold settle; keep

theorem owned : Owned sys (fun w => w.c.ownership) tells := by
  constructor
  · intro s e c s' out h hn
    revert h
    show step s e c = _ → _
    suffices hh : All (fun r => r.1.c.ownership = s.c.ownership) (step s e c) from fun h => hh _ h
    cases c with
    | exec a m =>
      simp only [step]
      refine all_bind fun _ => all_bind' (exec_own s.c e a m ?_) fun r hr => ?_
      · rintro x rfl; cases hn
      · exact fun y hy => by rw [settle_c _ _ _ y hy]; exact hr
    | send a n m =>
      simp only [step]
      refine all_bind fun _ => all_bind fun _ => all_bind' (exec_own s.c e _ (.receive a n m) ?_) fun r hr => ?_
      · intro x hx; cases hx
      · exact fun y hy => by rw [settle_c _ _ _ y hy]; exact hr
    | transfer a t n => simp only [step]; keep
    | mint t n => simp only [step]; keep
    | burn a n => simp only [step]; keep
  · intro s e c s' out x h hn
    cases c with
    | exec a m =>
      cases m with
      | updateOwnership y =>
        cases hn
        simp only [sys, step, exec, settle, bind_ok, require_ok, Prod.exists, Except.ok.injEq, Prod.mk.injEq] at h
        obtain ⟨_, _, c, o1, ⟨o, ho, rfl, rfl⟩, rfl, rfl⟩ := h
        exact ho
      | _ => cases hn
    | _ => cases hn

end Stake

/-! ## cw20-stake-reward-distributor -/
namespace Distributor
open Verif.RewardDistributor

/-- The calls of `UpdateOwnership`. -/
def tells (e : Env) : Call → Option Said
  | .exec a (.updateOwnership x) => some ⟨e.block, a, x⟩
  | _ => none

theorem exec_own (s : State) (e : Env) (bal : Addr → Nat) (a : Addr) (m : Msg) (hm : ∀ x, m ≠ .updateOwnership x) :
    All (fun r => r.1.ownership = s.ownership) (exec s e bal a m) := by
  cases m with
  | updateOwnership x => exact absurd rfl (hm x)
  | updateConfig k r t => simp only [exec, execUpdateConfig]; keep
  | distribute => simp only [exec, execDistribute]; keep
  | withdraw => simp only [exec, execWithdraw]; keep

theorem settle_c (w : World) (e : Env) (c : State) (out : Option RewardDistributor.Pay) : All (fun r => r.1.c = c) (settle w e c out) := by
  unfold settle; keep

theorem owned : Owned sys (fun w => w.c.ownership) tells := by
  constructor
  · intro s e c s' out h hn
    revert h
    show step s e c = _ → _
    suffices hh : All (fun r => r.1.c.ownership = s.c.ownership) (step s e c) from fun h => hh _ h
    cases c with
    | exec a m =>
      simp only [step]
      refine all_bind fun _ => all_bind' (exec_own s.c e _ a m ?_) fun r hr => ?_
      · rintro x rfl; cases hn
      · exact fun y hy => by rw [settle_c _ _ _ _ y hy]; exact hr
    | transfer t a d n => simp only [step]; keep
    | mint t d n => simp only [step]; keep
  · intro s e c s' out x h hn
    cases c with
    | exec a m =>
      cases m with
      | updateOwnership y =>
        cases hn
        simp only [sys, step, exec, bind_ok, require_ok, Prod.exists, Except.ok.injEq, Prod.mk.injEq] at h
        obtain ⟨_, _, c, o1, ⟨o, ho, rfl, rfl⟩, h⟩ := h
        simp only [settle, Except.ok.injEq, Prod.mk.injEq] at h
        obtain ⟨rfl, rfl⟩ := h
        exact ho
      | _ => cases hn
    | _ => cases hn

end Distributor

/-! ## cw20-stake-external-rewards -/
namespace External
open Verif.ExternalRewards

/-- The calls of `UpdateOwnership`. -/
def tells (b : Block) : Call → Option Said
  | .exec a (.updateOwnership x) => some ⟨b, a, x⟩
  | _ => none

theorem update_own (s : State) (b : Block) (k : Stakes) (a : Addr) :
    All (fun r => r.ownership = s.ownership) (updateRewards s b k a) := by
  unfold updateRewards; keep

theorem fund_own (s : State) (b : Block) (k : Stakes) (a : Addr) (n : Nat) :
    All (fun r => r.ownership = s.ownership) (execFund s b k a n) := by
  unfold execFund
  refine all_bind fun _ => all_bind' (update_own s b k a) fun r hr => ?_
  keep

theorem exec_own (s : State) (b : Block) (k : Stakes) (a : Addr) (m : Msg) (hm : ∀ x, m ≠ .updateOwnership x) :
    All (fun r => r.1.ownership = s.ownership) (exec s b k a m) := by
  cases m with
  | updateOwnership x => exact absurd rfl (hm x)
  | stakeChangeHook x => exact all_bind fun _ => all_bind' (update_own s b k x) fun r hr => all_ok hr
  | claim =>
    simp only [exec, execClaim]
    refine all_bind' (update_own s b k a) fun r hr => ?_
    keep
  | receive x n => exact all_bind fun _ => all_bind' (fund_own s b k x n) fun r hr => all_ok hr
  | fund n => exact all_bind fun _ => all_bind fun _ => all_bind' (fund_own s b k a n) fun r hr => all_ok hr
  | updateRewardDuration d =>
    have h1 : All (fun r => r.ownership = s.ownership) (execUpdateDuration s b a d) := by
      unfold execUpdateDuration; keep
    exact all_bind' h1 fun r hr => all_ok hr

theorem settle_c (w : World) (c : State) (out : ExternalRewards.Pay) : All (fun r => r.1.c = c) (settle w c out) := by
  unfold settle; keep

theorem step_own (s : World) (e : Block) (c : Call) (hn : tells e c = none) :
    All (fun r => r.1.c.ownership = s.c.ownership) (step s e c) := by
  cases c with
  | exec a m =>
    simp only [step]
    refine all_bind fun _ => all_bind fun _ => all_bind' (exec_own s.c e _ a m ?_) fun r hr => ?_
    · rintro x rfl; cases hn
    · exact fun y hy => by rw [settle_c _ _ _ y hy]; exact hr
  | fund a n =>
    simp only [step]
    refine all_bind fun _ => all_bind fun _ => all_bind' (exec_own s.c e _ _ _ ?_) fun r hr => ?_
    · intro x hx; unfold fundMsg at hx; split at hx <;> cases hx
    · exact fun y hy => by rw [settle_c _ _ _ y hy]; exact hr
  | transfer a t n => simp only [step]; keep
  | mint t n => simp only [step]; keep
  | burn a n => simp only [step]; keep
  | setStake a n hooked =>
    simp only [step]
    have h1 : All (fun r => r.c = s.c) (recordStake s e a n) := by unfold recordStake; keep
    refine all_bind' h1 fun r hr => ?_
    split
    · refine all_bind' (exec_own r.c e _ _ _ (fun x hx => by cases hx)) fun q hq => ?_
      exact fun y hy => by rw [settle_c _ _ _ y hy, ← hr]; exact hq
    · exact all_ok (by rw [hr])

theorem owned : Owned sys (fun w => w.c.ownership) tells := by
  constructor
  · intro s e c s' out h hn
    simp only [sys, bind_ok] at h
    obtain ⟨_, _, h⟩ := h
    exact step_own s e c hn _ h
  · intro s e c s' out x h hn
    cases c with
    | exec a m =>
      cases m with
      | updateOwnership y =>
        cases hn
        simp only [sys, step, exec, settle, bind_ok, require_ok, Prod.exists, Except.ok.injEq, Prod.mk.injEq] at h
        obtain ⟨_, _, _, _, _, _, c, o1, ⟨o, ho, rfl, rfl⟩, rfl, rfl⟩ := h
        exact ho
      | _ => cases hn
    | _ => cases hn

end External

/-! ## dao-rewards-distributor -/
namespace Rewards
open Verif.DaoRewards

/-- The calls of `UpdateOwnership`. -/
def tells (b : Block) : Call → Option Said
  | .exec a _ (.updateOwnership x) => some ⟨b, a, x⟩
  | _ => none

theorem update_own (s : State) (b : Block) (v : Addr → Answer) (a : Addr) (id : Nat) :
    All (fun r => r.ownership = s.ownership) (updateRewards s b v a id) := by
  unfold updateRewards; keep

theorem ids_own (b : Block) (v : Addr → Answer) (a : Addr) (ids : List Nat) (s : State) :
    All (fun r => r.ownership = s.ownership) (updateIds b v a ids s) := by
  induction ids generalizing s with
  | nil => exact all_ok rfl
  | cons i l ih => exact all_bind' (update_own s b v a i) fun r hr => fun y hy => (ih r y hy).trans hr

theorem members_own (b : Block) (v : Addr → Answer) (ids : List Nat) (l : List Addr) (s : State) :
    All (fun r => r.ownership = s.ownership) (updateMembers b v ids l s) := by
  induction l generalizing s with
  | nil => exact all_ok rfl
  | cons i l ih => exact all_bind' (ids_own b v i ids s) fun r hr => fun y hy => (ih r y hy).trans hr

theorem hook_own (s : State) (b : Block) (v : Addr → Answer) (a : Addr) (l : List Addr) :
    All (fun r => r.ownership = s.ownership) (execHook s b v a l) :=
  all_bind fun _ => members_own _ _ _ _ _

theorem announce_own (b : Block) (v : Addr → Answer) (l via : List Addr) (s : State) :
    All (fun r => r.ownership = s.ownership) (announce b v l via s) := by
  induction via generalizing s with
  | nil => exact all_ok rfl
  | cons i l ih => exact all_bind' (hook_own s b v i _) fun r hr => fun y hy => (ih r y hy).trans hr

theorem fund_own (s : State) (b : Block) (v : Addr → Answer) (a : Addr) (id : Nat) (d : Dist) (n : Nat) :
    All (fun r => r.ownership = s.ownership) (execFund s b v a id d n) := by
  unfold execFund; keep

theorem exec_own (s : State) (b : Block) (v : Addr → Answer) (a : Addr) (coins : List (Nat × Nat)) (m : Msg)
    (hm : ∀ x, m ≠ .updateOwnership x) : All (fun r => r.1.ownership = s.ownership) (exec s b v a coins m) := by
  cases m with
  | updateOwnership x => exact absurd rfl (hm x)
  | hook l => exact all_bind' (hook_own s b v a l) fun r hr => all_ok hr
  | create t r vp hk o dest =>
    have h1 : All (fun r => r.ownership = s.ownership) (execCreate s b v a coins t r vp hk o dest) := by
      unfold execCreate
      refine all_bind fun _ => all_bind fun _ => all_bind fun _ => all_bind fun _ => ?_
      split
      · exact all_ok rfl
      · exact all_bind fun _ => fund_own _ _ _ _ _ _ _
    exact all_bind' h1 fun r hr => all_ok hr
  | update id r vp hk o dest =>
    have h1 : All (fun r => r.ownership = s.ownership) (execUpdate s b v a id r vp hk o dest) := by
      unfold execUpdate
      refine all_bind fun _ => all_bind fun _ => all_bind fun _ => all_ok ?_
      cases hk <;> rfl
    exact all_bind fun _ => all_bind' h1 fun r hr => all_ok hr
  | fund id =>
    have h1 : All (fun r => r.ownership = s.ownership) (execFundNative s b v a coins id) := by
      exact all_bind fun _ => all_bind fun _ => fund_own _ _ _ _ _ _ _
    exact all_bind' h1 fun r hr => all_ok hr
  | claim id =>
    refine all_bind fun _ => all_bind' (update_own s b v a id) fun r hr => ?_
    keep
  | withdraw id => simp only [exec, execWithdraw]; keep

theorem owned : Owned sys (fun w => w.c.ownership) tells := by
  constructor
  · intro s e c s' out h hn
    revert h
    show step s e c = _ → _
    suffices hh : All (fun r => r.1.c.ownership = s.c.ownership) (step s e c) from fun h => hh _ h
    refine all_bind fun _ => all_bind fun _ => ?_
    cases c with
    | exec a coins m =>
      refine all_bind fun _ => all_bind fun _ => all_bind' (exec_own s.c e _ a coins m ?_) fun r hr => ?_
      · rintro x rfl; cases hn
      · exact all_bind fun _ => all_ok hr
    | send t a n id =>
      refine all_bind fun _ => all_bind fun _ => ?_
      have h1 : All (fun r => r.ownership = s.c.ownership) (execReceive s.c e (s.answers e) t a n id) :=
        all_bind fun _ => all_bind fun _ => fund_own _ _ _ _ _ _ _
      exact all_bind' h1 fun r hr => all_ok hr
    | change vp diffs via => exact all_bind fun _ => all_bind' (announce_own _ _ _ _ _) fun r hr => all_ok hr
    | transfer t a d n => exact all_bind fun _ => all_bind fun _ => all_ok rfl
  · intro s e c s' out x h hn
    cases c with
    | exec a coins m =>
      cases m with
      | updateOwnership y =>
        cases hn
        simp only [sys, step, exec, bind_ok, require_ok, Except.ok.injEq, Prod.mk.injEq] at h
        obtain ⟨_, _, _, _, _, _, _, _, r, ⟨_, _, o, ho, rfl⟩, _, _, rfl, rfl⟩ := h
        exact ho
      | _ => cases hn
    | _ => cases hn

end Rewards

/-! ## cw-tokenfactory-issuer -/
namespace TokenIssuer
open Verif.Issuer

/-- The calls of `UpdateOwnership`. -/
def tells (e : Env) : Call → Option Said
  | .exec (.updateOwnership x) => some ⟨e.block, e.sender, x⟩
  | _ => none

theorem exec_own (s : State) (here : Addr) (b : Block) (a : Addr) (m : Msg) (hm : ∀ x, m ≠ .updateOwnership x) :
    All (fun r => r.1.owner = s.owner) (exec s here b a m) := by
  cases m with
  | updateOwnership x => exact absurd rfl (hm x)
  | setHook x => simp only [exec]; refine all_bind fun _ => all_ok ?_; cases x <;> rfl
  | _ => simp only [exec, execMint, execBurn, execFreeze, execDeny, execAllow]; keep

theorem owned : Owned sys (fun w => w.st.owner) tells := by
  constructor
  · intro s e c s' out h hn
    revert h
    show step s e c = _ → _
    suffices hh : All (fun r => r.1.st.owner = s.st.owner) (step s e c) from fun h => hh _ h
    cases c with
    | exec m =>
      refine all_bind' (exec_own s.st s.here e.block e.sender m ?_) fun r hr => all_bind fun _ => all_ok hr
      rintro x rfl; cases hn
    | chain m => exact all_bind fun _ => all_bind fun _ => all_ok rfl
  · intro s e c s' out x h hn
    cases c with
    | exec m =>
      cases m with
      | updateOwnership y =>
        cases hn
        simp only [sys, step, exec, bind_ok, Prod.exists, Except.ok.injEq, Prod.mk.injEq] at h
        obtain ⟨c, o1, ⟨o, ho, rfl, rfl⟩, _, _, rfl, _⟩ := h
        exact ho
      | _ => cases hn
    | _ => cases hn

end TokenIssuer

/-! ## cw-vesting -/
namespace Vest
open Verif.Vesting

/-- The calls of `UpdateOwnership`. -/
def tells (e : Env) : Call → Option Said
  | .msg (.updateOwnership x) => some ⟨e.block, e.sender, x⟩
  | _ => none

theorem exec_own (s : State) (e : Env) (m : Msg) (hm : ∀ x, m ≠ .updateOwnership x) :
    All (fun r => r.1.owner = s.owner) (exec s e m) := by
  cases m with
  | updateOwnership x => exact absurd rfl (hm x)
  | registerSlash v t n u =>
    have h1 : All (fun r => r.owner = s.owner) (registerSlash s v (t / 1000000000) n u) := by
      unfold registerSlash; keep
    exact all_bind fun _ => all_bind fun _ => all_bind' h1 fun r hr => all_ok hr
  | _ => simp only [exec, receive, distribute, cancel, withdraw, delegate, redelegate, undelegate, setWithdrawAddress]; keep

theorem settle_c (t : Nat) (l : List Vesting.Pay) (w : World) : All (fun r => r.c = w.c) (settle t l w) := by
  induction l generalizing w with
  | nil => exact all_ok rfl
  | cons p l ih =>
    have h1 : All (fun r => r.c = w.c) (settle1 w t p) := by unfold settle1; keep
    exact all_bind' h1 fun r hr => fun y hy => (ih r y hy).trans hr

theorem owned : Owned sys (fun w => w.c.owner) tells := by
  constructor
  · intro s e c s' out h hn
    revert h
    show step s e c = _ → _
    suffices hh : All (fun r => r.1.c.owner = s.c.owner) (step s e c) from fun h => hh _ h
    cases c with
    | msg m =>
      refine all_bind' (exec_own s.c e m ?_) fun r hr => ?_
      · rintro x rfl; cases hn
      · exact all_bind' (settle_c _ _ _) fun y hy => all_ok (by rw [hy]; exact hr)
    | donate n => exact all_ok rfl
    | slashBonded n => exact all_bind fun _ => all_ok rfl
    | slashUnbonding i n => exact all_ok rfl
  · intro s e c s' out x h hn
    cases c with
    | msg m =>
      cases m with
      | updateOwnership y =>
        cases hn
        simp only [sys, step, exec, bind_ok, require_ok, Except.ok.injEq, Prod.mk.injEq] at h
        obtain ⟨r, ⟨_, _, o, ho, rfl⟩, w1, hs, rfl, _⟩ := h
        rw [settle_c _ _ _ _ hs]
        exact ho
      | _ => cases hn
    | _ => cases hn

end Vest

/-! ## cw-payroll-factory -/
namespace Payroll
open Verif.PayrollFactory

/-- The calls of `UpdateOwnership`. -/
def tells (e : Env) : Call → Option Said
  | .msg (.updateOwnership x) => some ⟨e.block, e.sender, x⟩
  | _ => none

theorem exec_own (s : State) (b : Block) (a : Addr) (f : List (Nat × Nat)) (m : Msg) (hm : ∀ x, m ≠ .updateOwnership x) :
    All (fun r => r.1.owner = s.owner) (exec s b a f m) := by
  cases m with
  | updateOwnership x => exact absurd rfl (hm x)
  | _ => simp only [exec, receive, instantiateContract]; keep

theorem finish_own (w : World) (e : Env) (r : Option Create) : All (fun r => r.1.c.owner = w.c.owner) (finish w e r) := by
  unfold finish
  split
  · exact all_ok rfl
  · refine all_bind' (Q := fun x => x.c.owner = w.c.owner) ?_ fun r hr => all_ok hr
    unfold create
    refine all_bind fun _ => all_bind fun _ => all_bind fun _ => all_bind fun _ => all_bind fun _ => ?_
    refine all_bind' (Q := fun x => x.1.owner = w.c.owner) ?_ fun r hr => all_bind fun _ => all_ok hr
    unfold reply; keep

theorem run_own (w : World) (e : Env) (a : Addr) (f : List (Nat × Nat)) (m : Msg) (hm : ∀ x, m ≠ .updateOwnership x) :
    All (fun r => r.1.c.owner = w.c.owner) (run w e a f m) :=
  all_bind' (exec_own w.c e.block a f m hm) fun r hr => fun y hy => (finish_own _ _ _ y hy).trans hr

theorem owned : Owned sys (fun w => w.c.owner) tells := by
  constructor
  · intro s e c s' out h hn
    revert h
    show step s e c = _ → _
    suffices hh : All (fun r => r.1.c.owner = s.c.owner) (step s e c) from fun h => hh _ h
    cases c with
    | msg m =>
      refine all_bind fun _ => all_bind fun _ => run_own _ _ _ _ _ ?_
      rintro x rfl; cases hn
    | cw20Send t p n m =>
      refine all_bind fun _ => all_bind fun _ => run_own _ _ _ _ _ ?_
      intro x hx; cases hx
    | transfer t d n => exact all_bind fun _ => all_bind fun _ => all_ok rfl
  · intro s e c s' out x h hn
    cases c with
    | msg m =>
      cases m with
      | updateOwnership y =>
        cases hn
        simp only [sys, step, run, exec, bind_ok, require_ok, Except.ok.injEq] at h
        obtain ⟨_, _, bal, _, r, ⟨o, ho, rfl⟩, h⟩ := h
        simp only [finish, Except.ok.injEq, Prod.mk.injEq] at h
        obtain ⟨rfl, _⟩ := h
        exact ho
      | _ => cases hn
    | _ => cases hn

end Payroll

/-! ## cw721-roles -/
namespace Role
open Verif.Roles

/-- The calls of `UpdateOwnership`. -/
def tells (e : Env) : Msg → Option Said
  | .updateOwnership x => some ⟨e.block, e.sender, x⟩
  | _ => none

theorem owned : Owned sys (fun s => s.ownership) tells := by
  constructor
  · intro s e c s' out h hn
    have hd := exec_does h
    cases hd with
    | own => cases hn
    | _ => rfl
  · intro s e c s' out x h hn
    cases c with
    | updateOwnership y =>
      cases hn
      simp only [sys, exec, dispatch, bind_ok, Except.ok.injEq, Prod.mk.injEq] at h
      obtain ⟨_, _, o, ho, rfl, _⟩ := h
      exact ho
    | _ => cases hn

end Role
end Verif.Owners
