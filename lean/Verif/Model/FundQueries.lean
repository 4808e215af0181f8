import Verif.Model.FundDistributor
import Verif.Model.Paginate
/-!
# The queries of cw-fund-distributor

The contract keeps cw20 tokens and native denominations in two maps and lists them by queries of their own; `FundDistributor`
has one map for both, so the queries pick out the entries of one kind. Tokens are ordered by their numbers here, on chain
by their names.
-/

namespace Verif.FundDistributor
open Verif Verif.Paginate

/-- The token of a number: a cw20 token or a native denomination. -/
def ofKind (cw20 : Bool) (x : Nat) : Token := if cw20 then .cw20 x else .native x

/-- The number of a token, if it is of a kind. -/
def numberOf (cw20 : Bool) : Token → Option Nat
  | .cw20 x => if cw20 then some x else none
  | .native x => if cw20 then none else some x

/-- `CW20_BALANCES` or `NATIVE_BALANCES`, contracts/distribution/cw-fund-distributor/src/state.rs:15-17. -/
def poolOf (cw20 : Bool) (s : State) : AMap Nat Nat :=
  s.balances.filterMap (fun x => (numberOf cw20 x.1).map (fun k => (k, x.2)))

/-- `query_native_denoms`, contracts/distribution/cw-fund-distributor/src/contract.rs:420-433, and `query_cw20_tokens`
(435-448). -/
def poolList (cw20 : Bool) (s : State) : List (Nat × Nat) := range (poolOf cw20 s) none .asc

/-- One entry of the answers. -/
def entitlementEntry (cw20 : Bool) (s : State) (a : Addr) (share : Nat) (x : Nat × Nat) : Res (Nat × Nat) := do
  let n ← entitlement x.2 share (getD0 s.claims (a, ofKind cw20 x.1))
  .ok (x.1, n)

/-- `query_native_entitlements`, contracts/distribution/cw-fund-distributor/src/contract.rs:492-519, and
`query_cw20_entitlements` (521-548). -/
def entitlementsPage (cw20 : Bool) (s : State) (e : Env) (a : Addr) (start limit : Option Nat) :
    Res (List (Nat × Nat)) := do
  let share ← relativeShare s e a
  (paginateMap (poolOf cw20 s) start limit .desc).mapM (entitlementEntry cw20 s a share)

end Verif.FundDistributor
