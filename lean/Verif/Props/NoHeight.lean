import Verif.Model.PowerQueries
import Verif.Props.TokenStaked
import Verif.Props.NftStaked
import Verif.Props.Cw20Voting
import Verif.Props.Roles
/-!
# C70: asking for voting power without naming a height

dao-voting-cw4 is in `Verif.Props.Cw4Voting`.
-/

namespace Verif
open Verif

/-- **C70**, dao-voting-token-staked. Asked without a height, the module answers for the height of the block
it is asked in: the power and the height are those it answers for that height, and calls in that block, before
or after the question, change nothing. -/
theorem TokenStaked.C70_token {w w' : TokenStaked.World} {b b' now : Block}
    {log log' : List (Ev TokenStaked.World Block TokenStaked.Call TokenStaked.Out)}
    (h : TokenStaked.sys.Reach w b log) (hr : TokenStaked.sys.Run w b log' w' b')
    (hx : ∀ e ∈ log', now.height ≤ e.env.height) (a : Addr) :
    TokenStaked.powerQuery w'.c now a none = TokenStaked.powerQuery w.c now a (some now.height) ∧
    TokenStaked.totalQuery w'.c now none = TokenStaked.totalQuery w.c now (some now.height) ∧
    (b.height < now.height → TokenStaked.powerQuery w'.c now a none = (w.c.stakedOf a, now.height) ∧
      TokenStaked.totalQuery w'.c now none = (w.c.total, now.height)) := by
  have e := TokenStaked.C30_token_stable h hr hx a
  simp only [TokenStaked.powerQuery, TokenStaked.totalQuery, Option.getD_none, Option.getD_some]
  refine ⟨by rw [e.1], by rw [e.2], fun hb => ?_⟩
  have e' := TokenStaked.C30_token_history h hr hb hx a
  rw [e'.1, e'.2]; exact ⟨rfl, rfl⟩

/-- **C70**, dao-voting-cw721-staked, likewise. -/
theorem NftStaked.C70_nft {w w' : NftStaked.World} {b b' now : Block}
    {log log' : List (Ev NftStaked.World Block NftStaked.Call NftStaked.Out)}
    (h : NftStaked.sys.Reach w b log) (hr : NftStaked.sys.Run w b log' w' b')
    (hx : ∀ e ∈ log', now.height ≤ e.env.height) (a : Addr) :
    NftStaked.powerQuery w'.c now a none = NftStaked.powerQuery w.c now a (some now.height) ∧
    NftStaked.totalQuery w'.c now none = NftStaked.totalQuery w.c now (some now.height) ∧
    (b.height < now.height → NftStaked.powerQuery w'.c now a none = (w.c.balanceOf a, now.height) ∧
      NftStaked.totalQuery w'.c now none = (w.c.total, now.height)) := by
  have e := NftStaked.C30_nft_stable h hr hx a
  simp only [NftStaked.powerQuery, NftStaked.totalQuery, Option.getD_none, Option.getD_some]
  refine ⟨by rw [e.1], by rw [e.2], fun hb => ?_⟩
  have e' := NftStaked.C30_nft_history h hr hb hx a
  rw [e'.1, e'.2]; exact ⟨rfl, rfl⟩

/-- **C70**, dao-voting-cw20-staked, likewise. -/
theorem Cw20Voting.C70_cw20 {w w' : Cw20Voting.World} {b b' now : Block}
    {log log' : List (Ev Cw20Voting.World Block Cw20Voting.Call Cw20Voting.Out)}
    (h : Cw20Voting.sys.Reach w b log) (hr : Cw20Voting.sys.Run w b log' w' b')
    (hx : ∀ e ∈ log', now.height ≤ e.env.height) (a : Addr) :
    Cw20Voting.power w' now a none = Cw20Voting.power w now a (some now.height) ∧
    Cw20Voting.totalPower w' now none = Cw20Voting.totalPower w now (some now.height) ∧
    (b.height < now.height → Cw20Voting.power w' now a none = (w.s.c.stakedOf a, now.height) ∧
      Cw20Voting.totalPower w' now none = (w.s.c.total, now.height)) := by
  have e0 : ∀ v : Cw20Voting.World, Cw20Voting.power v now a none = Cw20Voting.power v now a (some now.height) ∧
      Cw20Voting.totalPower v now none = Cw20Voting.totalPower v now (some now.height) := fun v => ⟨rfl, rfl⟩
  have e := Cw20Voting.C30_cw20_voting_stable h hr hx a now now
  rw [(e0 w').1, (e0 w').2]
  exact ⟨e.1, e.2, fun hb => Cw20Voting.C30_cw20_voting_history h hr hb hx a now⟩

/-- **C70**, dao-voting-cw721-roles, when nothing was called yet in the block the question is asked in.
Otherwise this is false of the code: `C70_roles_witness`. -/
theorem Roles.Voting.C70_roles_partial {w : Roles.Voting.World} {b now : Block}
    {log : List (Ev Roles.Voting.World Roles.Env Roles.Voting.Call Roles.Out)}
    (h : Roles.Voting.sysExisting.Reach w b log) (hb : b.height < now.height) (a : Addr) :
    Roles.Voting.powerQuery w now a none = Roles.Voting.powerQuery w now a (some now.height) ∧
    Roles.Voting.totalQuery w now none = Roles.Voting.totalQuery w now (some now.height) := by
  have e := Roles.Voting.C30_roles_voting_history h .refl hb (by simp) a
  simp only [Roles.Voting.powerQuery, Roles.Voting.totalQuery, Option.getD_none, Option.getD_some]
  rw [e.1, e.2]; exact ⟨rfl, rfl⟩

/-- **C70**, why not always for dao-voting-cw721-roles: after a mint in the same block the answer without a
height says height 12 and weight 4; the answer for height 12 is no weight. -/
theorem Roles.Voting.C70_roles_witness : ∃ w b log, Roles.Voting.sysExisting.Reach w b log ∧
    Roles.Voting.powerQuery w b 5 none = (4, 12) ∧ Roles.Voting.powerQuery w b 5 (some 12) = (0, 12) ∧
    Roles.Voting.totalQuery w b none = (4, 12) ∧ Roles.Voting.totalQuery w b (some 12) = (0, 12) := by
  obtain ⟨w, b, log, hr, hp⟩ := Sys.check_run (M := Roles.Voting.sysExisting)
    (s := ⟨1, 2, 3, Roles.instantiate ⟨10, 100⟩ 1⟩) (b := ⟨10, 100⟩)
    (cs := [(⟨⟨12, 120⟩, 1⟩, .roles (.mint 1 5 none none 4))])
    (p := fun w b _ => decide (Roles.Voting.powerQuery w b 5 none = (4, 12) ∧
      Roles.Voting.powerQuery w b 5 (some 12) = (0, 12) ∧
      Roles.Voting.totalQuery w b none = (4, 12) ∧ Roles.Voting.totalQuery w b (some 12) = (0, 12)))
    (by decide +kernel)
  exact ⟨w, b, log, ⟨_, _, ⟨[], _, _, ⟨1, rfl⟩, .refl⟩, hr⟩, of_decide_eq_true hp⟩

/-- **C70**, a case for dao-voting-token-staked: 80 staked in block 2 and 20 in block 3; asked in block 3
after the second call, the answer is 80 at height 3, and 100 in block 4. -/
theorem TokenStaked.C70_token_example : ∃ w b log,
    TokenStaked.sys.Run TokenStaked.exW ⟨1, 1⟩ log w b ∧
    TokenStaked.powerQuery w.c ⟨3, 3⟩ 2 none = (80, 3) ∧ TokenStaked.powerQuery w.c ⟨4, 4⟩ 2 none = (100, 4) ∧
    TokenStaked.totalQuery w.c ⟨3, 3⟩ none = (80, 3) ∧ TokenStaked.totalQuery w.c ⟨4, 4⟩ none = (100, 4) := by
  obtain ⟨w, b, log, hr, hp⟩ := Sys.check_run (M := TokenStaked.sys) (s := TokenStaked.exW) (b := ⟨1, 1⟩)
    (cs := [(⟨2, 2⟩, .stake 2 80), (⟨3, 3⟩, .stake 2 20)])
    (p := fun w _ _ => decide (
      TokenStaked.powerQuery w.c ⟨3, 3⟩ 2 none = (80, 3) ∧ TokenStaked.powerQuery w.c ⟨4, 4⟩ 2 none = (100, 4) ∧
      TokenStaked.totalQuery w.c ⟨3, 3⟩ none = (80, 3) ∧ TokenStaked.totalQuery w.c ⟨4, 4⟩ none = (100, 4)))
    (by decide +kernel)
  exact ⟨w, b, log, hr, of_decide_eq_true hp⟩

end Verif
