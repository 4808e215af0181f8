import Verif.Props.WholeMulti
import Verif.Props.WholeDaoModules
import Verif.Model.WholeMultiModules
/-!
# C81: which voting modules fit a multiple choice module
-/

namespace Verif.WholeMulti
open Verif
open Verif.Spec.WholeMulti
open Verif.WholeDao (tokenStaked nftStaked cw20Staked onftStaked cw4 roles)
open Verif.Spec.WholeDao (Lawful)

/-- **C81.** dao-voting-token-staked. -/
theorem C81_token_staked : Lawful tokenStaked ∧ AnswersNow tokenStaked tokenStakedNow :=
  ⟨WholeDao.C80_token_staked, fun _ _ _ => rfl⟩

/-- **C81.** dao-voting-cw721-staked. -/
theorem C81_nft_staked : Lawful nftStaked ∧ AnswersNow nftStaked nftStakedNow :=
  ⟨WholeDao.C80_nft_staked, fun _ _ _ => rfl⟩

/-- **C81.** dao-voting-cw20-staked. -/
theorem C81_cw20_staked : Lawful cw20Staked ∧ AnswersNow cw20Staked cw20StakedNow :=
  ⟨WholeDao.C80_cw20_staked, fun _ _ _ => rfl⟩

/-- **C81.** dao-voting-onft-staked. -/
theorem C81_onft_staked : Lawful onftStaked ∧ AnswersNow onftStaked onftStakedNow :=
  ⟨WholeDao.C80_onft_staked, fun _ _ _ => rfl⟩

/-- **C81.** With a module that answers for the current height the total of every proposal is that of the height whose
powers count. -/
theorem C81_totals {S E C O : Type} {V : WholeDao.VotingModule S E C O} {N : TotalNow S} (hN : AnswersNow V N)
    {decode : Nat → DaoCore.CosmosMsg} {w : World S} {b : Block} {log : List (Event S E C)}
    (h : (sys V N decode).Reach w b log) : TotalsOfHeight V N log := totals_now hN h

/-- **C81.** dao-voting-cw4, if nobody changes the group in the block of a proposal before it is made. Otherwise this is
false of the code: `C81_cw4_witness`. -/
theorem C81_cw4_partial {decode : Nat → DaoCore.CosmosMsg} {w0 w : World Cw4Voting.World} {b0 b : Block}
    {log : List (Event Cw4Voting.World Block Cw4Voting.VCall)} (hi : Init cw4 b0 w0)
    (hr : (sys cw4 cw4Now decode).Run w0 b0 log w b) (hq : Settled b0 log) :
    Lawful cw4 ∧ TotalsOfHeight cw4 cw4Now log :=
  ⟨WholeDao.C80_cw4, totals_newest WholeDao.C80_cw4 (fun _ _ => rfl) hi hr hq⟩

/-- **C81.** dao-voting-cw721-roles, if nobody changes roles in the block of a proposal before it is made. Otherwise this
is false of the code: `C81_roles_witness`. -/
theorem C81_roles_partial {decode : Nat → DaoCore.CosmosMsg} {w0 w : World Roles.Voting.World} {b0 b : Block}
    {log : List (Event Roles.Voting.World Roles.Env Roles.Voting.Call)} (hi : Init roles b0 w0)
    (hr : (sys roles rolesNow decode).Run w0 b0 log w b) (hq : Settled b0 log) :
    Lawful roles ∧ TotalsOfHeight roles rolesNow log :=
  ⟨WholeDao.C80_roles, totals_newest WholeDao.C80_roles (fun _ _ => rfl) hi hr hq⟩

end Verif.WholeMulti
