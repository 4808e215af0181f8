import Verif.Model.WholeCondorcet
import Verif.Model.WholeMultiModules
/-!
# What the voting modules answer when asked for powers without a height
-/

namespace Verif.WholeCondorcet

/-- dao-voting-token-staked, contracts/voting/dao-voting-token-staked/src/contract.rs:422-446. -/
def tokenStakedNow : Now TokenStaked.World :=
  ⟨fun w a b => (TokenStaked.powerQuery w.c b a none).1, WholeMulti.tokenStakedNow⟩

/-- dao-voting-cw721-staked, contracts/voting/dao-voting-cw721-staked/src/contract.rs:577-597. -/
def nftStakedNow : Now NftStaked.World :=
  ⟨fun w a b => (NftStaked.powerQuery w.c b a none).1, WholeMulti.nftStakedNow⟩

/-- dao-voting-cw20-staked, contracts/voting/dao-voting-cw20-staked/src/contract.rs:256-291. -/
def cw20StakedNow : Now Cw20Voting.World :=
  ⟨fun w a b => (Cw20Voting.power w b a none).1, WholeMulti.cw20StakedNow⟩

/-- dao-voting-onft-staked, contracts/voting/dao-voting-onft-staked/src/contract.rs:623-643. -/
def onftStakedNow : Now OnftStaked.World :=
  ⟨fun w a b => (OnftStaked.power w b a none).1, WholeMulti.onftStakedNow⟩

/-- dao-voting-cw4, contracts/voting/dao-voting-cw4/src/contract.rs:132-164. -/
def cw4Now : Now Cw4Voting.World :=
  ⟨fun w a b => (Cw4Voting.power w b a none).1, WholeMulti.cw4Now⟩

/-- dao-voting-cw721-roles, contracts/voting/dao-voting-cw721-roles/src/contract.rs:107-147. -/
def rolesNow : Now Roles.Voting.World :=
  ⟨fun w a b => (Roles.Voting.powerQuery w b a none).1, WholeMulti.rolesNow⟩

end Verif.WholeCondorcet
