import Verif.Props.WholeCondorcetLive
import Verif.Props.WholeDaoModules
import Verif.Model.WholeCondorcetModules
/-!
# C94: which voting modules fit a condorcet module
-/

namespace Verif.WholeCondorcet
open Verif
open Verif.Spec.WholeCondorcet
open Verif.WholeDao (tokenStaked nftStaked cw20Staked onftStaked cw4 roles)
open Verif.Spec.WholeDao (Lawful)

/-- **C94.** dao-voting-token-staked. -/
theorem C94_token_staked : Lawful tokenStaked ∧ AnswersNow tokenStaked tokenStakedNow :=
  ⟨WholeDao.C80_token_staked, fun _ _ _ => ⟨rfl, fun _ => rfl⟩⟩

/-- **C94.** dao-voting-cw721-staked. -/
theorem C94_nft_staked : Lawful nftStaked ∧ AnswersNow nftStaked nftStakedNow :=
  ⟨WholeDao.C80_nft_staked, fun _ _ _ => ⟨rfl, fun _ => rfl⟩⟩

/-- **C94.** dao-voting-cw20-staked. -/
theorem C94_cw20_staked : Lawful cw20Staked ∧ AnswersNow cw20Staked cw20StakedNow :=
  ⟨WholeDao.C80_cw20_staked, fun _ _ _ => ⟨rfl, fun _ => rfl⟩⟩

/-- **C94.** dao-voting-onft-staked. -/
theorem C94_onft_staked : Lawful onftStaked ∧ AnswersNow onftStaked onftStakedNow :=
  ⟨WholeDao.C80_onft_staked, fun _ _ _ => ⟨rfl, fun _ => rfl⟩⟩

/-- **C94.** With a module that answers for the current height the total of every proposal is that of the height whose
powers count. -/
theorem C94_totals {S E C O : Type} {V : WholeDao.VotingModule S E C O} {N : Now S} (hN : AnswersNow V N)
    {decode : Nat → DaoCore.CosmosMsg} {w : World S} {b : Block} {log : List (Event S E C)}
    (h : (sys V N decode).Reach w b log) : TotalsOfHeight V N log := totals_now hN h

/-- **C94.** With such a module only members propose: the proposer has power at the height of the proposal, so that at
least one vote can be cast. -/
theorem C94_proposer {S E C O : Type} {V : WholeDao.VotingModule S E C O} {N : Now S} (hN : AnswersNow V N)
    {decode : Nat → DaoCore.CosmosMsg} {w w' : World S} {b : Block} {log : List (Event S E C)}
    (h : (sys V N decode).Reach w b log) {e : Env} (hb : b.le e.block) (hnow : w.core.core.voting = some w.voteAddr)
    {c : List (List Nat)} {out : Out} (hs : (sys V N decode).step w e (.prop (.propose c)) = .ok (w', out)) :
    V.power w.vote e.sender e.block.height ≠ 0 := by
  obtain ⟨⟨o, _, hp⟩, _⟩ := prop_effect (decode := decode) hs
  have hpow := Condorcet.C25_proposer_member hp
  obtain ⟨l, b1, hv, hb1⟩ := vote_reach h
  have hwired : Wired w w.prop.dao := ⟨(belongs h).1, hnow⟩
  simp only [propEnv, if_pos hwired] at hpow
  rw [(hN hv _ (Block.le_trans hb1 hb)).2] at hpow
  exact hpow

/-- **C94.** dao-voting-cw4, if nobody changes the group in the block of a proposal before it is made. Otherwise this is
false of the code: `C94_cw4_witness`. -/
theorem C94_cw4_partial {decode : Nat → DaoCore.CosmosMsg} {w0 w : World Cw4Voting.World} {b0 b : Block}
    {log : List (Event Cw4Voting.World Block Cw4Voting.VCall)} (hi : Init cw4 b0 w0)
    (hr : (sys cw4 cw4Now decode).Run w0 b0 log w b) (hq : Settled b0 log) :
    Lawful cw4 ∧ TotalsOfHeight cw4 cw4Now log :=
  ⟨WholeDao.C80_cw4, totals_newest WholeDao.C80_cw4 (fun _ _ => ⟨rfl, fun _ => rfl⟩) hi hr hq⟩

/-- **C94.** dao-voting-cw721-roles, if nobody changes roles in the block of a proposal before it is made. Otherwise this
is false of the code: `C94_roles_witness`. -/
theorem C94_roles_partial {decode : Nat → DaoCore.CosmosMsg} {w0 w : World Roles.Voting.World} {b0 b : Block}
    {log : List (Event Roles.Voting.World Roles.Env Roles.Voting.Call)} (hi : Init roles b0 w0)
    (hr : (sys roles rolesNow decode).Run w0 b0 log w b) (hq : Settled b0 log) :
    Lawful roles ∧ TotalsOfHeight roles rolesNow log :=
  ⟨WholeDao.C80_roles, totals_newest WholeDao.C80_roles (fun _ _ => ⟨rfl, fun _ => rfl⟩) hi hr hq⟩

end Verif.WholeCondorcet
