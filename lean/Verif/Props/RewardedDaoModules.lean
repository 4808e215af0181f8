import Verif.Props.RewardedDao
import Verif.Props.WholeDaoModules
/-!
# C86: the voting modules of this repository tell their listeners as they should
-/

namespace Verif.RewardedDao
open Verif Verif.WholeDao Verif.Spec.WholeDao Verif.Spec.RewardedDao

variable {S E C O : Type} {V : Telling S E C O}

/-- One call changes at most one member's weight and then tells every listener of that member. -/
def OneMember (V : Telling S E C O) (s s' : S) (o : O) : Prop :=
  ((∀ a, V.weight s' a = V.weight s a) ∧ V.told o = []) ∨
  ∃ a, (∀ x, x ≠ a → V.weight s' x = V.weight s x) ∧ (∀ m ∈ V.told o, m.2 = [a]) ∧
    ∀ r ∈ V.listeners s, ∃ m ∈ V.told o, m.1 = r

theorem tells_of (h : ∀ {s s' : S} {e : E} {c : C} {o : O}, V.sys.step s e c = .ok (s', o) → OneMember V s s' o) : Tells V := by
  refine ⟨?_, ?_⟩
  · intro s s' e c o hs m hm
    rcases h hs with ⟨_, h2⟩ | ⟨a, h1, h2, _⟩
    · rw [h2] at hm; cases hm
    · rw [h2 m hm]
      exact ⟨by simp, fun x hx => h1 x (by simpa using hx)⟩
  · intro s s' e c o hs r hr hm
    rcases h hs with ⟨h1, _⟩ | ⟨a, _, _, h3⟩
    · exact h1
    · obtain ⟨m, h4, h5⟩ := h3 r hr
      exact absurd h5 (hm m h4)

theorem prepared {α : Type} (h : Hooks.HookList) (f : Addr → α) (p : α → Addr × List Addr) (a : Addr)
    (hp : ∀ r, p (f r) = (r, [a])) :
    (∀ m ∈ (Hooks.prepareHooks h (fun _ r => f r)).map p, m.2 = [a]) ∧
      ∀ r ∈ Hooks.items h, ∃ m ∈ (Hooks.prepareHooks h (fun _ r => f r)).map p, m.1 = r := by
  have e : (Hooks.prepareHooks h (fun _ r => f r)).map p = (Hooks.items h).map (fun r => (r, [a])) := by
    unfold Hooks.prepareHooks
    rw [List.map_map]
    have : (p ∘ fun q : Addr × Nat => f q.1) = (fun r => (r, [a])) ∘ Prod.fst := by
      funext q; exact hp q.1
    rw [this, ← List.map_map, List.zipIdx_map_fst]
  rw [e]
  refine ⟨?_, ?_⟩
  · intro m hm
    obtain ⟨r, _, rfl⟩ := List.mem_map.1 hm
    rfl
  · intro r hr
    exact ⟨(r, [a]), List.mem_map.2 ⟨r, hr, rfl⟩, rfl⟩

theorem save_ne {s : Snap Addr Nat} {a x : Addr} {n h : Nat} (hx : x ≠ a) :
    ((s.save a n h).get x).getD 0 = (s.get x).getD 0 := by
  rw [Snap.get_save, if_neg (fun e => hx e.symm)]

/-- C86: dao-voting-token-staked tells every listener of every change. -/
theorem C86_token_staked : Tells tokenStaked := by
  refine tells_of ?_
  intro s s' e c o hs
  have hd := TokenStaked.step_effect hs
  clear hs
  have hp := fun i a n => prepared s.c.hooks (fun r => (⟨r, i, a, n⟩ : Cw20Stake.HookMsg)) (fun m => (m.to, [m.staker])) a
    (fun _ => rfl)
  cases hd with
  | stake a n l ha hn hl => exact .inr ⟨a, fun x hx => save_ne hx, hp true a n⟩
  | payout a n l out ha hn hs ht hd hl hh =>
    refine .inr ⟨a, fun x hx => save_ne hx, ?_⟩
    show (∀ m ∈ o.hooks.map _, _) ∧ ∀ r ∈ _, ∃ m ∈ o.hooks.map _, _
    rw [hh]; exact hp false a n
  | unbond a n d out ha hn hs ht hd hlen hh =>
    refine .inr ⟨a, fun x hx => save_ne hx, ?_⟩
    show (∀ m ∈ o.hooks.map _, _) ∧ ∀ r ∈ _, ∃ m ∈ o.hooks.map _, _
    rw [hh]; exact hp false a n
  | claim => exact .inl ⟨fun _ => rfl, rfl⟩
  | admin m c hs hm => exact .inl ⟨fun a => by show (c.staked.get a).getD 0 = _; rw [hs.staked]; rfl, rfl⟩
  | transfer => exact .inl ⟨fun _ => rfl, rfl⟩
  | mint => exact .inl ⟨fun _ => rfl, rfl⟩
  | burn => exact .inl ⟨fun _ => rfl, rfl⟩

theorem nft_one {w w' : NftStaked.World} {b : Block} {c : NftStaked.Call} {o : NftStaked.Out}
    (hd : NftStaked.Effect w b c w' o) : OneMember nftStaked w w' o := by
  have hp := fun i a n => prepared w.c.hooks (fun r => (⟨r, i, a, n⟩ : NftStaked.HookMsg)) (fun m => (m.to, [m.staker])) a
    (fun _ => rfl)
  cases hd with
  | stake a t o' ho hos ha => exact .inr ⟨a, fun x hx => save_ne hx, hp true a [t]⟩
  | payout a ts m o' out ha hts hm hd ht hba ho hh hsend =>
    refine .inr ⟨a, fun x hx => save_ne hx, ?_⟩
    show (∀ m ∈ o.hooks.map _, _) ∧ ∀ r ∈ _, ∃ m ∈ o.hooks.map _, _
    rw [hh]; exact hp false a ts
  | unbond a ts m d out ha hts hm hd hlen ht hba hh hsend =>
    refine .inr ⟨a, fun x hx => save_ne hx, ?_⟩
    show (∀ m ∈ o.hooks.map _, _) ∧ ∀ r ∈ _, ∃ m ∈ o.hooks.map _, _
    rw [hh]; exact hp false a ts
  | claim => exact .inl ⟨fun _ => rfl, rfl⟩
  | admin m c hs hm => exact .inl ⟨fun a => by show (c.balances.get a).getD 0 = _; rw [hs.balances]; rfl, rfl⟩
  | transfer => exact .inl ⟨fun _ => rfl, rfl⟩
  | mint => exact .inl ⟨fun _ => rfl, rfl⟩
  | burn => exact .inl ⟨fun _ => rfl, rfl⟩

/-- C86: dao-voting-cw721-staked tells every listener of every change. -/
theorem C86_nft_staked : Tells nftStaked := tells_of (fun hs => nft_one (NftStaked.step_effect hs))

/-- C86: dao-voting-onft-staked tells every listener of every change. -/
theorem C86_onft_staked : Tells onftStaked := by
  refine tells_of ?_
  intro s s' e c o hs
  have hd := OnftStaked.step_effect hs
  clear hs
  have hp := fun i a n => prepared s.n.c.hooks (fun r => (⟨r, i, a, n⟩ : NftStaked.HookMsg)) (fun m => (m.to, [m.staker])) a
    (fun _ => rfl)
  cases hd with
  | prepare => exact .inl ⟨fun _ => rfl, rfl⟩
  | confirm a ts ha hp' hs =>
    generalize OnftStaked.sortDedup ts = l
    cases l with
    | nil =>
      refine .inl ⟨fun x => ?_, rfl⟩
      show ((s.n.c.balances.save a (s.n.c.balanceOf a + 0) e.height).get x).getD 0 = (s.n.c.balances.get x).getD 0
      rw [Snap.get_save]
      split
      · rename_i hax; subst hax; rfl
      · rfl
    | cons t l =>
      refine .inr ⟨a, fun x hx => save_ne hx, ?_, ?_⟩
      · intro m hm
        obtain ⟨k, hk, rfl⟩ := List.mem_map.1 hm
        obtain ⟨ks, hks, hk⟩ := List.mem_flatten.1 hk
        obtain ⟨t', _, rfl⟩ := List.mem_map.1 hks
        exact (hp true a [t']).1 _ (List.mem_map.2 ⟨k, hk, rfl⟩)
      · intro r hr
        obtain ⟨m, hm, h⟩ := (hp true a [t]).2 r hr
        obtain ⟨k, hk, rfl⟩ := List.mem_map.1 hm
        exact ⟨_, List.mem_map.2 ⟨k, List.mem_flatten.2 ⟨_, List.mem_map.2 ⟨t, List.mem_cons_self, rfl⟩, hk⟩, rfl⟩, h⟩
  | cancel => exact .inl ⟨fun _ => rfl, rfl⟩
  | shared a m m' n out hm ha he hx => exact nft_one he
  | transfer => exact .inl ⟨fun _ => rfl, rfl⟩
  | mint => exact .inl ⟨fun _ => rfl, rfl⟩
  | burn => exact .inl ⟨fun _ => rfl, rfl⟩

/-- C86: cw20-stake, under dao-voting-cw20-staked, tells every listener of every change. -/
theorem C86_cw20_staked : Tells cw20Staked := by
  refine tells_of ?_
  intro s s' e c o hs
  cases c with
  | update a t =>
    replace hs : Cw20Voting.step s e (.update a t) = .ok (s', o) := hs
    simp only [Cw20Voting.step, Cw20Voting.updateThreshold, bind_ok, Except.ok.injEq, Prod.mk.injEq] at hs
    obtain ⟨_, ⟨_, _, _, _, _, _, rfl⟩, rfl, rfl⟩ := hs
    exact .inl ⟨fun _ => rfl, rfl⟩
  | stake c =>
    replace hs : Cw20Voting.step s e (.stake c) = .ok (s', o) := hs
    simp only [Cw20Voting.step, bind_ok, Except.ok.injEq, Prod.mk.injEq] at hs
    obtain ⟨⟨w', o'⟩, h1, rfl, rfl⟩ := hs
    have hd := Cw20Stake.step_effect h1
    clear h1
    have hp := fun i a n => prepared s.s.c.hooks (fun r => (⟨r, i, a, n⟩ : Cw20Stake.HookMsg)) (fun m => (m.to, [m.staker])) a
      (fun _ => rfl)
    cases hd with
    | stake a n k l ha hl hk hs => exact .inr ⟨a, fun x hx => save_ne hx, hp true a k⟩
    | fund => exact .inl ⟨fun _ => rfl, rfl⟩
    | payout a m n l out ha hn ht hm hs hb hd hl ho hh =>
      refine .inr ⟨a, fun x hx => save_ne hx, ?_⟩
      show (∀ m ∈ o'.hooks.map _, _) ∧ ∀ r ∈ _, ∃ m ∈ o'.hooks.map _, _
      rw [hh]; exact hp false a m
    | unbond a m n d out ha hn ht hm hs hb hd hlen ho hh =>
      refine .inr ⟨a, fun x hx => save_ne hx, ?_⟩
      show (∀ m ∈ o'.hooks.map _, _) ∧ ∀ r ∈ _, ∃ m ∈ o'.hooks.map _, _
      rw [hh]; exact hp false a m
    | claim => exact .inl ⟨fun _ => rfl, rfl⟩
    | admin a m c hs hm => exact .inl ⟨fun a => by show (c.staked.get a).getD 0 = _; rw [hs.staked]; rfl, rfl⟩
    | transfer => exact .inl ⟨fun _ => rfl, rfl⟩
    | mint => exact .inl ⟨fun _ => rfl, rfl⟩
    | burn => exact .inl ⟨fun _ => rfl, rfl⟩

/-- C86: cw721-roles, under dao-voting-cw721-roles, tells every listener of every change. -/
theorem C86_roles : Tells roles := by
  refine tells_of ?_
  intro s s' e c o hs
  cases c with
  | voting => cases hs
  | roles m =>
    replace hs : Roles.Voting.step s e (.roles m) = .ok (s', o) := hs
    simp only [Roles.Voting.step, bind_ok, Except.ok.injEq, Prod.mk.injEq] at hs
    obtain ⟨_, _, ⟨w', o'⟩, h1, rfl, rfl⟩ := hs
    have hd := Roles.exec_does h1
    clear h1
    have hp := fun a x y => prepared s.roles.hooks (fun r => (⟨r, a, x, y⟩ : Roles.HookMsg)) (fun m => (m.to, [m.member])) a
      (fun _ => rfl)
    cases hd with
    | mint hT hTw hn hfree hc hc' => exact .inr ⟨_, fun x hx => save_ne hx, hp _ _ _⟩
    | burn ht hT ho hle hle' hc =>
      refine .inr ⟨_, fun x hx => ?_, hp _ _ _⟩
      show ((Roles.setMember _ _ _ _).get x).getD 0 = _
      unfold Roles.setMember
      split
      · rw [Snap.get_remove, if_neg (fun e => hx e.symm)]; rfl
      · exact save_ne hx
    | raise ht hT hlt hTw hn => exact .inr ⟨_, fun x hx => save_ne hx, hp _ _ _⟩
    | lower ht hT hlt hle hle' => exact .inr ⟨_, fun x hx => save_ne hx, hp _ _ _⟩
    | transfer => exact .inl ⟨fun _ => rfl, rfl⟩
    | send => exact .inl ⟨fun _ => rfl, rfl⟩
    | role => exact .inl ⟨fun _ => rfl, rfl⟩
    | uri => exact .inl ⟨fun _ => rfl, rfl⟩
    | addHook => exact .inl ⟨fun _ => rfl, rfl⟩
    | removeHook => exact .inl ⟨fun _ => rfl, rfl⟩
    | own => exact .inl ⟨fun _ => rfl, rfl⟩

/-- C86: so `C86_bound_partial`, `C86_backed_partial` and `C86_share` are about all of these modules. -/
theorem C86_modules : (Lawful tokenStaked.toVotingModule ∧ Tells tokenStaked) ∧
    (Lawful nftStaked.toVotingModule ∧ Tells nftStaked) ∧ (Lawful onftStaked.toVotingModule ∧ Tells onftStaked) ∧
    (Lawful cw20Staked.toVotingModule ∧ Tells cw20Staked) ∧ Lawful roles.toVotingModule ∧ Tells roles :=
  ⟨⟨C80_token_staked, C86_token_staked⟩, ⟨C80_nft_staked, C86_nft_staked⟩, ⟨C80_onft_staked, C86_onft_staked⟩,
    ⟨C80_cw20_staked, C86_cw20_staked⟩, C80_roles, C86_roles⟩

end Verif.RewardedDao
