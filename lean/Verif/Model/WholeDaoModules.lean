import Verif.Model.WholeDao
import Verif.Model.TokenStaked
import Verif.Model.NftStaked
import Verif.Model.Cw20Voting
import Verif.Model.Cw4Voting
import Verif.Model.OnftStaked
import Verif.Model.Roles
/-!
# The voting modules a DAO may have
-/

namespace Verif.WholeDao

/-- dao-voting-token-staked. The answers model contracts/voting/dao-voting-token-staked/src/contract.rs:422-446; the
weight is the stake. -/
def tokenStaked : VotingModule TokenStaked.World Block TokenStaked.Call TokenStaked.Out where
  sys := TokenStaked.sys
  power w a x := TokenStaked.powerAt w.c a x
  total w x := TokenStaked.totalPowerAt w.c x
  weight w a := w.c.stakedOf a
  totalWeight w := w.c.total

/-- dao-voting-cw721-staked. The answers model contracts/voting/dao-voting-cw721-staked/src/contract.rs:577-597; the
weight is the number of staked NFTs. -/
def nftStaked : VotingModule NftStaked.World Block NftStaked.Call NftStaked.Out where
  sys := NftStaked.sys
  power w a x := NftStaked.powerAt w.c a x
  total w x := NftStaked.totalPowerAt w.c x
  weight w a := w.c.balanceOf a
  totalWeight w := w.c.total

/-- dao-voting-cw20-staked over cw20-stake. The answers model
contracts/voting/dao-voting-cw20-staked/src/contract.rs:256-291; the block asked in does not matter when a height is
given. The weight is the stake. -/
def cw20Staked : VotingModule Cw20Voting.World Block Cw20Voting.Call Cw20Voting.Out where
  sys := Cw20Voting.sys
  power w a x := (Cw20Voting.power w ⟨x, 0⟩ a (some x)).1
  total w x := (Cw20Voting.totalPower w ⟨x, 0⟩ (some x)).1
  weight w a := w.s.c.stakedOf a
  totalWeight w := w.s.c.total

/-- dao-voting-cw4 over cw4-group. The answers model contracts/voting/dao-voting-cw4/src/contract.rs:132-164; the block
asked in does not matter when a height is given. The weight is that of the group. -/
def cw4 : VotingModule Cw4Voting.World Block Cw4Voting.VCall Unit where
  sys := Cw4Voting.sys
  power w a x := (Cw4Voting.power w ⟨x, 0⟩ a (some x)).1
  total w x := (Cw4Voting.totalPower w ⟨x, 0⟩ (some x)).1
  weight w a := (w.group.members.get a).getD 0
  totalWeight w := (w.group.total.get ()).getD 0

/-- dao-voting-onft-staked. The answers model contracts/voting/dao-voting-onft-staked/src/contract.rs:623-643; the block
asked in does not matter when a height is given. The weight is the number of staked NFTs. -/
def onftStaked : VotingModule OnftStaked.World Block OnftStaked.Call OnftStaked.Out where
  sys := OnftStaked.sys
  power w a x := (OnftStaked.power w ⟨x, 0⟩ a (some x)).1
  total w x := (OnftStaked.totalPower w ⟨x, 0⟩ (some x)).1
  weight w a := w.n.c.balanceOf a
  totalWeight w := w.n.c.total

/-- dao-voting-cw721-roles over cw721-roles. The answers model
contracts/voting/dao-voting-cw721-roles/src/contract.rs:107-147; the weight is that of the role contract. -/
def roles : VotingModule Roles.Voting.World Roles.Env Roles.Voting.Call Roles.Out where
  sys := Roles.Voting.sysExisting
  power w a x := Roles.Voting.power w a (some x)
  total w x := Roles.Voting.totalPower w (some x)
  weight w a := (w.roles.members.get a).getD 0
  totalWeight w := (w.roles.total.get ()).getD 0

end Verif.WholeDao
