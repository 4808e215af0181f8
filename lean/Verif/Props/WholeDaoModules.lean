import Mathlib.Data.List.Dedup
import Verif.Props.WholeDao
import Verif.Model.WholeDaoModules
import Verif.Props.TokenStaked
import Verif.Props.NftStaked
import Verif.Props.Cw20Voting
import Verif.Props.Cw4Voting
import Verif.Props.OnftStaked
import Verif.Props.Roles
/-!
# C80: every voting module keeps what a DAO relies on
-/

namespace Verif.WholeDao
open Verif Verif.Voting Verif.Spec Verif.Spec.WholeDao

/-- Only finitely many keys have a value at a height. -/
theorem snap_support {V : Type} (s : Snap Addr V) (x : Nat) :
    ∃ L : List Addr, L.Nodup ∧ ∀ a, a ∉ L → s.atHeight a x = none := by
  refine ⟨(s.cur.map (·.1) ++ s.log.map (·.1.1)).dedup, List.nodup_dedup _, ?_⟩
  intro a ha
  rw [List.mem_dedup, List.mem_append, not_or] at ha
  unfold Snap.atHeight
  have h1 : Snap.oldest a x s.log = none := by
    rw [Snap.oldest_none]
    intro e he hk
    exact absurd (List.mem_map.2 ⟨e, he, hk⟩) ha.2
  rw [h1]
  cases hg : s.cur.get a with
  | none => rfl
  | some v => exact absurd (List.mem_map.2 ⟨_, AMap.mem_of_get hg, rfl⟩) ha.1

/-- **C80.** dao-voting-token-staked. -/
theorem C80_token_staked : Lawful tokenStaked where
  history h hr hb hx := ⟨fun a => (TokenStaked.C30_token_history h hr hb hx a).1, (TokenStaked.C30_token_history h hr hb hx 0).2⟩
  stable h hr hx := ⟨fun a => (TokenStaked.C30_token_stable h hr hx a).1, (TokenStaked.C30_token_stable h hr hx 0).2⟩
  sums {s _ _} h x := by
    obtain ⟨L, hL, h0⟩ := snap_support s.c.staked x
    have hz : ∀ a, a ∉ L → TokenStaked.powerAt s.c a x = 0 := fun a ha => by
      unfold TokenStaked.powerAt; rw [h0 a ha]; rfl
    exact ⟨L, hL, hz, TokenStaked.C31_total_at_height h x hL hz⟩

/-- **C80.** dao-voting-cw721-staked. -/
theorem C80_nft_staked : Lawful nftStaked where
  history h hr hb hx := ⟨fun a => (NftStaked.C30_nft_history h hr hb hx a).1, (NftStaked.C30_nft_history h hr hb hx 0).2⟩
  stable h hr hx := ⟨fun a => (NftStaked.C30_nft_stable h hr hx a).1, (NftStaked.C30_nft_stable h hr hx 0).2⟩
  sums {s _ _} h x := by
    obtain ⟨L, hL, h0⟩ := snap_support s.c.balances x
    have hz : ∀ a, a ∉ L → NftStaked.powerAt s.c a x = 0 := fun a ha => by
      unfold NftStaked.powerAt; rw [h0 a ha]; rfl
    exact ⟨L, hL, hz, NftStaked.C33_total_at_height h x hL hz⟩

/-- **C80.** dao-voting-cw20-staked. -/
theorem C80_cw20_staked : Lawful cw20Staked where
  history {_ _ _ _ _ _ x} h hr hb hx :=
    ⟨fun a => congrArg Prod.fst (Cw20Voting.C30_cw20_voting_history h hr hb hx a ⟨x, 0⟩).1,
      congrArg Prod.fst (Cw20Voting.C30_cw20_voting_history h hr hb hx 0 ⟨x, 0⟩).2⟩
  stable {_ _ _ _ _ _ x} h hr hx :=
    ⟨fun a => congrArg Prod.fst (Cw20Voting.C30_cw20_voting_stable h hr hx a ⟨x, 0⟩ ⟨x, 0⟩).1,
      congrArg Prod.fst (Cw20Voting.C30_cw20_voting_stable h hr hx 0 ⟨x, 0⟩ ⟨x, 0⟩).2⟩
  sums {s _ _} h x := by
    obtain ⟨L, hL, h0⟩ := snap_support s.s.c.staked x
    have hz : ∀ a, a ∉ L → (Cw20Voting.power s ⟨x, 0⟩ a (some x)).1 = 0 := fun a ha => by
      unfold Cw20Voting.power Cw20Stake.stakedAt; simp only [Option.getD_some]; rw [h0 a ha]; rfl
    exact ⟨L, hL, hz, Cw20Voting.C72_total h (some x) hL hz⟩

/-- **C80.** dao-voting-cw4. -/
theorem C80_cw4 : Lawful cw4 where
  history {_ _ _ _ _ _ x} h hr hb hx :=
    ⟨fun a => congrArg Prod.fst (Cw4Voting.C30_cw4_history h hr hb hx a ⟨x, 0⟩).1,
      congrArg Prod.fst (Cw4Voting.C30_cw4_history h hr hb hx 0 ⟨x, 0⟩).2⟩
  stable {_ _ _ _ _ _ x} h hr hx :=
    ⟨fun a => congrArg Prod.fst (Cw4Voting.C30_cw4_stable h hr hx a ⟨x, 0⟩ ⟨x, 0⟩).1,
      congrArg Prod.fst (Cw4Voting.C30_cw4_stable h hr hx 0 ⟨x, 0⟩ ⟨x, 0⟩).2⟩
  sums {s _ _} h x := by
    obtain ⟨L, hL, h0⟩ := snap_support s.group.members x
    have hz : ∀ a, a ∉ L → (Cw4Voting.power s ⟨x, 0⟩ a (some x)).1 = 0 := fun a ha => by
      unfold Cw4Voting.power; simp only; rw [h0 a ha]; rfl
    exact ⟨L, hL, hz, Cw4Voting.C71_total h (some x) hL hz⟩

/-- **C80.** dao-voting-onft-staked. -/
theorem C80_onft_staked : Lawful onftStaked where
  history {_ _ _ _ _ _ x} h hr hb hx :=
    ⟨fun a => congrArg Prod.fst (OnftStaked.C30_onft_history h hr hb hx a ⟨x, 0⟩).1,
      congrArg Prod.fst (OnftStaked.C30_onft_history h hr hb hx 0 ⟨x, 0⟩).2⟩
  stable {_ _ _ _ _ _ x} h hr hx :=
    ⟨fun a => congrArg Prod.fst (OnftStaked.C30_onft_stable h hr hx a ⟨x, 0⟩ ⟨x, 0⟩).1,
      congrArg Prod.fst (OnftStaked.C30_onft_stable h hr hx 0 ⟨x, 0⟩ ⟨x, 0⟩).2⟩
  sums {s _ _} h x := by
    obtain ⟨L, hL, h0⟩ := snap_support s.n.c.balances x
    have hz : ∀ a, a ∉ L → (OnftStaked.power s ⟨x, 0⟩ a (some x)).1 = 0 := fun a ha => by
      unfold OnftStaked.power; simp only [Option.getD_some]; rw [h0 a ha]; rfl
    exact ⟨L, hL, hz, OnftStaked.C74_total_at_height h ⟨x, 0⟩ x hL hz⟩

/-- The role contract under the voting module. -/
theorem reach_roles {w : Roles.Voting.World} {b : Block}
    {log : List (Ev Roles.Voting.World Roles.Env Roles.Voting.Call Roles.Out)}
    (h : Roles.Voting.sysExisting.Reach w b log) : ∃ l, Roles.sys.Reach w.roles b l := by
  obtain ⟨b0, w0, ⟨l0, h0⟩, hr⟩ := h
  induction hr with
  | refl => exact ⟨l0, h0⟩
  | @step s1 s2 b1 log env call out hr hb hs ih =>
    obtain ⟨l, hl⟩ := ih
    have hs : Roles.Voting.step s1 env call = .ok (s2, out) := hs
    cases call with
    | voting => simp [Roles.Voting.step] at hs
    | roles m =>
      simp only [Roles.Voting.step, bind_ok, Except.ok.injEq, Prod.mk.injEq] at hs
      obtain ⟨_, _, ⟨s', o⟩, hx, rfl, rfl⟩ := hs
      exact ⟨_, hl.step (M := Roles.sys) (env := env) (call := m) hb hx⟩

/-- **C80.** dao-voting-cw721-roles. -/
theorem C80_roles : Lawful roles where
  history h hr hb hx :=
    ⟨fun a => (Roles.Voting.C30_roles_voting_history h hr hb hx a).1, (Roles.Voting.C30_roles_voting_history h hr hb hx 0).2⟩
  stable h hr hx :=
    ⟨fun a => (Roles.Voting.C30_roles_voting_stable h hr hx a).1, (Roles.Voting.C30_roles_voting_stable h hr hx 0).2⟩
  sums {s _ _} h x := by
    obtain ⟨L, hL, h0⟩ := snap_support s.roles.members x
    have hz : ∀ a, a ∉ L → Roles.Voting.power s a (some x) = 0 := fun a ha => by
      unfold Roles.Voting.power Roles.memberAt; simp only; rw [h0 a ha]; rfl
    obtain ⟨l1, hr⟩ := reach_roles h
    exact ⟨L, hL, hz, Roles.C58_total_at_height hr x hL hz⟩

end Verif.WholeDao
