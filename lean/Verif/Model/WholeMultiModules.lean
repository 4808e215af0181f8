import Verif.Model.WholeMulti
import Verif.Model.WholeDaoModules
import Verif.Model.PowerQueries
/-!
# What the voting modules answer when asked for the total power without a height
-/

namespace Verif.WholeMulti

/-- dao-voting-token-staked, contracts/voting/dao-voting-token-staked/src/contract.rs:436-446. -/
def tokenStakedNow : TotalNow TokenStaked.World := fun w b => (TokenStaked.totalQuery w.c b none).1

/-- dao-voting-cw721-staked, contracts/voting/dao-voting-cw721-staked/src/contract.rs:591-597. -/
def nftStakedNow : TotalNow NftStaked.World := fun w b => (NftStaked.totalQuery w.c b none).1

/-- dao-voting-cw20-staked, contracts/voting/dao-voting-cw20-staked/src/contract.rs:277-291. -/
def cw20StakedNow : TotalNow Cw20Voting.World := fun w b => (Cw20Voting.totalPower w b none).1

/-- dao-voting-onft-staked, contracts/voting/dao-voting-onft-staked/src/contract.rs:637-643. -/
def onftStakedNow : TotalNow OnftStaked.World := fun w b => (OnftStaked.totalPower w b none).1

/-- dao-voting-cw4, contracts/voting/dao-voting-cw4/src/contract.rs:154-164. -/
def cw4Now : TotalNow Cw4Voting.World := fun w b => (Cw4Voting.totalPower w b none).1

/-- dao-voting-cw721-roles, contracts/voting/dao-voting-cw721-roles/src/contract.rs:130-147. -/
def rolesNow : TotalNow Roles.Voting.World := fun w b => (Roles.Voting.totalQuery w b none).1

end Verif.WholeMulti
