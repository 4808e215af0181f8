import Verif.Model.RewardDistributor
/-!
# Specification vocabulary for cw20-stake-reward-distributor
-/

namespace Verif.Spec.RewardDistributor
open Verif Verif.RewardDistributor

/-- The tokens `t` held by `a`. -/
def coins (w : World) (t a : Addr) : Nat := getD0 w.ledger (t, a)

/-- The height of the last successful distribution or configuration update, at first that of the
instantiation, `h0`. -/
def since (h0 : Nat) : List (Ev World Env Call (Option Pay)) → Nat
  | [] => h0
  | e :: log =>
    match e.call with
    | .exec _ .distribute => e.env.block.height
    | .exec _ (.updateConfig _ _ _) => e.env.block.height
    | _ => since h0 log

/-- The tokens that left the contract with distributions. -/
def distributed : List (Ev World Env Call (Option Pay)) → Nat
  | [] => 0
  | e :: log =>
    distributed log +
      match e.call with
      | .exec _ .distribute => coins e.pre e.pre.c.token e.pre.self - coins e.post e.pre.c.token e.pre.self
      | _ => 0

/-- The height of the newest call. -/
def height (h0 : Nat) : List (Ev World Env Call (Option Pay)) → Nat
  | [] => h0
  | e :: _ => e.env.block.height

/-- The rate in force times the blocks, summed over the time between the calls since `h0`. -/
def accrual (h0 : Nat) : List (Ev World Env Call (Option Pay)) → Nat
  | [] => 0
  | e :: log => accrual h0 log + e.pre.c.rate * (e.env.block.height - height h0 log)

end Verif.Spec.RewardDistributor
