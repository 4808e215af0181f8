import Verif.Model.TokenStaked
import Verif.Model.NftStaked
import Verif.Model.Roles
/-!
# The voting power queries, with the height left out

`VotingPowerAtHeight` and `TotalPowerAtHeight` take an optional height and answer with a power and a height.
`now` is the block in which the question is asked. dao-voting-cw20-staked and dao-voting-cw4 have these
queries in their own models.
-/

namespace Verif.TokenStaked
open Verif

/-- `query_voting_power_at_height`, contracts/voting/dao-voting-token-staked/src/contract.rs:422-434. -/
def powerQuery (s : State) (now : Block) (a : Addr) (h : Option Nat) : Nat × Nat :=
  let x := h.getD now.height
  (powerAt s a x, x)

/-- `query_total_power_at_height`, contracts/voting/dao-voting-token-staked/src/contract.rs:436-446. -/
def totalQuery (s : State) (now : Block) (h : Option Nat) : Nat × Nat :=
  let x := h.getD now.height
  (totalPowerAt s x, x)

end Verif.TokenStaked

namespace Verif.NftStaked
open Verif

/-- `query_voting_power_at_height`, contracts/voting/dao-voting-cw721-staked/src/contract.rs:577-589. -/
def powerQuery (s : State) (now : Block) (a : Addr) (h : Option Nat) : Nat × Nat :=
  let x := h.getD now.height
  (powerAt s a x, x)

/-- `query_total_power_at_height`, contracts/voting/dao-voting-cw721-staked/src/contract.rs:591-597. -/
def totalQuery (s : State) (now : Block) (h : Option Nat) : Nat × Nat :=
  let x := h.getD now.height
  (totalPowerAt s x, x)

end Verif.NftStaked

namespace Verif.Roles.Voting
open Verif

/-- `query_voting_power_at_height`, contracts/voting/dao-voting-cw721-roles/src/contract.rs:107-128: the power
is the role contract's answer to the same optional height. -/
def powerQuery (w : World) (now : Block) (a : Addr) (h : Option Nat) : Nat × Nat :=
  (power w a h, h.getD now.height)

/-- `query_total_power_at_height`, contracts/voting/dao-voting-cw721-roles/src/contract.rs:130-147. -/
def totalQuery (w : World) (now : Block) (h : Option Nat) : Nat × Nat :=
  (totalPower w h, h.getD now.height)

end Verif.Roles.Voting
