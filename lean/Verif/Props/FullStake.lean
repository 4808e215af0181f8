import Verif.Props.TokenStaked
import Verif.Props.NftStaked
/-!
# C73: when everything is staked the DAO is active

For dao-voting-token-staked and dao-voting-cw721-staked; for dao-voting-cw20-staked see
`Verif.Props.Cw20Voting`.
-/

namespace Verif

/-- **C73.** dao-voting-token-staked: with the whole supply of the coin staked the DAO is active, whatever
percentage is set, and whatever count that is at most the supply. -/
theorem TokenStaked.C73_token_full {w : TokenStaked.World} {b : Block}
    {log : List (Ev TokenStaked.World Block TokenStaked.Call TokenStaked.Out)}
    (h : TokenStaked.sys.Reach w b log) (hall : w.c.total = total w.ledger)
    (ht : ∀ n, w.c.threshold = some (.absolute n) → n ≤ total w.ledger) :
    TokenStaked.active w.c (total w.ledger) = .ok true := by
  have hre := Active.C32_reachable (TokenStaked.inv_reach h).supply
  unfold TokenStaked.active
  rw [hall]
  rcases TokenStaked.threshold_valid h with e | ⟨n, e, hn⟩ | ⟨p, e, hv⟩
  · rw [e]; rfl
  · rw [e]
    show Except.ok _ = _
    rw [decide_eq_true (ht n e)]
  · rw [e]; exact hre.1 p hv

/-- **C73.** dao-voting-cw721-staked: with all of at least one NFT staked the DAO is active from the next block
on, whatever percentage is set, and whatever count that is at most the number of NFTs. -/
theorem NftStaked.C73_nft_full {w : NftStaked.World} {b now : Block}
    {log : List (Ev NftStaked.World Block NftStaked.Call NftStaked.Out)}
    (h : NftStaked.sys.Reach w b log) (hall : w.c.total = w.owners.length) (h0 : 0 < w.c.total)
    (ht : ∀ n, w.c.threshold = some (.absolute n) → n ≤ w.owners.length) (hb : b.height < now.height) :
    NftStaked.active w.c now w.owners.length = .ok true := by
  have hpow : NftStaked.totalPowerAt w.c now.height = w.owners.length := by
    rw [(NftStaked.C30_nft_history h .refl hb (by simp) 0).2, hall]
  have hsup : w.owners.length < U128 := Nat.lt_trans (NftStaked.inv_reach h).small NftStaked.U64_lt_U128
  have hre := Active.C32_reachable hsup
  unfold NftStaked.active
  rw [hpow]
  cases e : w.c.threshold with
  | none => rfl
  | some t =>
    cases t with
    | absolute n =>
      show Except.ok _ = _
      rw [decide_eq_true (ht n e)]
    | percentage p =>
      have := hre.1 p (NftStaked.threshold_valid h e)
      simp only [Active.isActiveNft, if_neg (show ¬ w.owners.length = 0 by omega)]
      exact this

/-- All 250 coins of the example staked: active at 40 percent. -/
theorem TokenStaked.C73_token_example : ∃ w b log, TokenStaked.sys.Run TokenStaked.exW ⟨1, 1⟩ log w b ∧
    w.c.total = total w.ledger ∧ 0 < w.c.total ∧ TokenStaked.active w.c (total w.ledger) = .ok true := by
  obtain ⟨w, b, log, hr, hp⟩ := Sys.check_run (M := TokenStaked.sys) (s := TokenStaked.exW) (b := ⟨1, 1⟩)
    (cs := [(⟨2, 2⟩, .stake 2 100), (⟨2, 2⟩, .stake 3 100), (⟨3, 3⟩, .stake 1 50)])
    (p := fun w _ _ => decide (w.c.total = total w.ledger ∧ 0 < w.c.total ∧
      TokenStaked.active w.c (total w.ledger) = .ok true)) (by decide +kernel)
  exact ⟨w, b, log, hr, of_decide_eq_true hp⟩

/-- All four NFTs of the example collection staked: active at 40 percent. -/
theorem NftStaked.C73_nft_example : ∃ w b log, NftStaked.sys.Run NftStaked.exW ⟨1, 1⟩ log w b ∧
    w.c.total = w.owners.length ∧ 0 < w.c.total ∧ NftStaked.active w.c ⟨9, 9⟩ w.owners.length = .ok true := by
  obtain ⟨w, b, log, hr, hp⟩ := Sys.check_run (M := NftStaked.sys) (s := NftStaked.exW) (b := ⟨1, 1⟩)
    (cs := [(⟨2, 2⟩, .send 2 4), (⟨2, 2⟩, .send 2 5), (⟨3, 3⟩, .send 3 6), (⟨4, 4⟩, .send 5 7)])
    (p := fun w _ _ => decide (w.c.total = w.owners.length ∧ 0 < w.c.total ∧
      NftStaked.active w.c ⟨9, 9⟩ w.owners.length = .ok true)) (by decide +kernel)
  exact ⟨w, b, log, hr, of_decide_eq_true hp⟩

end Verif
