import Verif.Proofs.Listings
import Verif.Props.TokenStaked
import Verif.Props.Cw20Stake
import Verif.Props.NftStaked
import Verif.Props.Roles
import Verif.Props.PreProposeApproval
/-!
# C103: the lists of stakers, members, staked tokens and submissions
-/

namespace Verif.Listings
open Verif Verif.Paginate
open Verif.Spec.Listings
open Verif.Spec.Paginate (InOrder)

/-- **C103.** Two clients that follow the same pages of the same state see the same. -/
theorem C103_once {V : Type} {page : Option Nat → Res (List (Nat × V))} {l l' : List (Nat × V)}
    (h : Pages page none l) (h' : Pages page none l') : l = l' := pages_unique h h'

theorem sum_range (m : AMap Nat Nat) (o : Order) : ((range m none o).map Prod.snd).sum = Verif.total m :=
  ((range_perm m o).map Prod.snd).sum_nat

theorem stakers_pos {limit : Option Nat} (hl : limit ≠ some 0) : 0 < min (limit.getD STAKERS_DEFAULT) STAKERS_MAX := by
  have : 0 < limit.getD STAKERS_DEFAULT := by
    cases limit with
    | none => show 0 < STAKERS_DEFAULT; decide
    | some l => show 0 < l; cases l <;> simp at hl ⊢
  have h2 : 0 < STAKERS_MAX := by decide
  omega

/-- What a list of stakers or members has to be: in order of addresses, everybody with a stake with it, nobody with
a wrong one, and all stakes add up to the total. -/
structure Complete (l : List (Addr × Nat)) (staked : Addr → Nat) (total : Nat) : Prop where
  order : InOrder .asc l
  right : ∀ a n, (a, n) ∈ l → staked a = n
  all : ∀ a, staked a ≠ 0 → (a, staked a) ∈ l
  sum : (l.map Prod.snd).sum = total

theorem complete_range {m : AMap Nat Nat} (hm : AMap.WF m) {staked : Addr → Nat} {t : Nat}
    (hs : ∀ a, staked a = (m.get a).getD 0) (ht : t = Verif.total m) : Complete (range m none .asc) staked t where
  order := range_inOrder hm none .asc
  right a n h := by rw [hs, (mem_all hm).1 h]; rfl
  all a h := by
    rw [hs] at h ⊢
    rcases e : m.get a with _ | n
    · rw [e] at h; exact absurd rfl h
    · exact (mem_all hm).2 e
  sum := by rw [sum_range, ht]

/-- **C103.** The pages of `ListStakers` of dao-voting-token-staked show everybody who has a stake, with it; the
stakes shown add up to the total power. -/
theorem C103_token_stakers {w : TokenStaked.World} {b : Block}
    {log : List (Ev TokenStaked.World Block TokenStaked.Call TokenStaked.Out)} (h : TokenStaked.sys.Reach w b log)
    (limit : Option Nat) (hl : limit ≠ some 0) :
    ∃ l, Pages (fun start => tokenStakers w.c start limit) none l ∧ Complete l w.c.stakedOf w.c.total :=
  ⟨_, pages_plain (TokenStaked.inv_reach h).wf (stakers_pos hl) (fun _ => rfl),
    complete_range (TokenStaked.inv_reach h).wf (fun _ => rfl) (TokenStaked.inv_reach h).sum⟩

/-- **C103.** The same for `ListStakers` of cw20-stake. -/
theorem C103_cw20_stakers {w : Cw20Stake.World} {b : Block}
    {log : List (Ev Cw20Stake.World Block Cw20Stake.Call Cw20Stake.Out)} (h : Cw20Stake.sys.Reach w b log)
    (limit : Option Nat) (hl : limit ≠ some 0) :
    ∃ l, Pages (fun start => cw20Stakers w.c start limit) none l ∧ Complete l w.c.stakedOf w.c.total :=
  ⟨_, pages_paginate (Cw20Stake.inv_reach h).wf hl (fun _ => rfl),
    complete_range (Cw20Stake.inv_reach h).wf (fun _ => rfl) (Cw20Stake.inv_reach h).sum⟩

/-- **C103.** The same for `ListMembers` of cw721-roles, where moreover exactly those are shown of whom the `Member`
query says that they are members. -/
theorem C103_members {s : Roles.State} {b : Block} {log : List Spec.Roles.Event} (h : Roles.sys.Reach s b log)
    (limit : Option Nat) (hl : limit ≠ some 0) :
    ∃ l, Pages (fun start => roleMembers s start limit) none l ∧
      Complete l (fun a => (Roles.memberNow s a).getD 0) (Roles.totalNow s) ∧
      ∀ a n, (a, n) ∈ l ↔ Roles.memberNow s a = some n :=
  ⟨_, pages_plain (Roles.inv_reach h).wfM (stakers_pos hl) (fun _ => rfl),
    complete_range (Roles.inv_reach h).wfM (fun _ => rfl) (Roles.C58_total h).1,
    fun _ _ => mem_all (Roles.inv_reach h).wfM⟩

/-- **C103.** The pages of `StakedNfts` of an address show exactly the NFTs it has staked, once each; there are as many
as its voting power. -/
theorem C103_nfts {w : NftStaked.World} {b : Block}
    {log : List (Ev NftStaked.World Block NftStaked.Call NftStaked.Out)} (h : NftStaked.sys.Reach w b log)
    (a : Addr) (limit : Option Nat) (hl : limit ≠ some 0) :
    ∃ l, Pages (fun start => stakedNfts w.c a start limit) none l ∧ InOrder .asc l ∧
      (∀ t, (t, ()) ∈ l ↔ w.c.staked.get (a, t) = some ()) ∧ l.length = w.c.balanceOf a := by
  have hi := NftStaked.inv_reach h
  have hw := under_WF hi.wf a
  refine ⟨_, pages_paginate (limit := limit) hw hl (fun start => ?_), range_inOrder hw none .asc, ?_, ?_⟩
  · unfold stakedNfts paginateMap; cases limit <;> rfl
  · intro t; rw [mem_all hw, get_under hi.wf]
  · rw [(range_perm _ _).length_eq, hi.bal a]
    have e := sum_under (fun _ (_ : Unit) => 1) w.c.staked a
    unfold NftStaked.count
    rw [← e]
    simp

section Approval
open Verif.PrePropose Verif.PrePropose.App Verif.Spec.Approval
variable {M : PropModule}

theorem lists_WF {w : AWorld M} {b : Block} {log : List (Event M)} (h : (asys M).Reach w b log) :
    w.app.pending.WF ∧ w.app.completed.WF := by
  refine Sys.Reach.induct (P := fun (w : AWorld M) _ _ => w.app.pending.WF ∧ w.app.completed.WF) ?_ ?_ h
  · intro b w h0
    obtain ⟨_, _, h2, h3, _⟩ := h0
    rw [h2, h3]; exact ⟨AMap.WF_nil, AMap.WF_nil⟩
  · intro w b l env call out w' _ ih _ hs
    replace hs : astep w env call = .ok (w', out) := hs
    cases call with
    | submit p =>
      simp only [astep, stepSubmit, bind_ok, require_ok, Except.ok.injEq, Prod.mk.injEq] at hs
      obtain ⟨_, _, bal, _, _, _, takes, _, id, _, rfl, _⟩ := hs
      exact ⟨AMap.WF_set ih.1 _ _, ih.2⟩
    | approve id =>
      simp only [astep, stepApprove, bind_ok, require_ok, Prod.exists] at hs
      obtain ⟨_, _, bal, _, _, _, s, _, mod, o, _, hs⟩ := hs
      simp only [Except.ok.injEq, Prod.mk.injEq] at hs
      obtain ⟨rfl, _⟩ := hs
      exact ⟨AMap.WF_erase ih.1 _, AMap.WF_set ih.2 _ _⟩
    | reject id =>
      simp only [astep, stepReject, bind_ok, require_ok, Except.ok.injEq, Prod.mk.injEq] at hs
      obtain ⟨_, _, bal, _, _, _, s, _, _, _, rfl, _⟩ := hs
      exact ⟨AMap.WF_erase ih.1 _, AMap.WF_set ih.2 _ _⟩
    | updateApprover a =>
      simp only [astep, stepUpdateApprover, bind_ok, require_ok, Except.ok.injEq, Prod.mk.injEq] at hs
      obtain ⟨_, _, bal, _, _, _, rfl, _⟩ := hs
      exact ih
    | addHook a =>
      simp only [astep, stepHook, bind_ok, require_ok, Except.ok.injEq, Prod.mk.injEq] at hs
      obtain ⟨_, _, bal, _, _, _, _, _, rfl, _⟩ := hs
      exact ih
    | removeHook a =>
      simp only [astep, stepHook, bind_ok, require_ok, Except.ok.injEq, Prod.mk.injEq] at hs
      obtain ⟨_, _, bal, _, _, _, _, _, rfl, _⟩ := hs
      exact ih
    | base c =>
      simp only [astep, stepBase, bind_ok, require_ok, Prod.exists] at hs
      obtain ⟨_, _, b', o, _, hs⟩ := hs
      simp only [Except.ok.injEq, Prod.mk.injEq] at hs
      obtain ⟨rfl, _⟩ := hs
      exact ih

/-- **C103.** The pages of the lists of pending and of completed submissions show each submission ever made exactly
once, in one of the two lists: with the pending if nobody decided about it, else with the completed, with the decision.
In both orders. -/
theorem C103_submissions (L : Lawful M) {w : AWorld M} {b : Block} {log : List (Event M)} (h : (asys M).Reach w b log)
    (o : Order) (limit : Option Nat) (hl : limit ≠ some 0) :
    ∃ p c, Pages (fun start => pendingList w.app o start limit) none p ∧
      Pages (fun start => completedList w.app o start limit) none c ∧ InOrder o p ∧ InOrder o c ∧
      (∀ id s, (id, s) ∈ p ↔
        AMap.get (submissions log) id = some s ∧ ∀ e ∈ log, e.call ≠ .approve id ∧ e.call ≠ .reject id) ∧
      (∀ id s, (id, (s, Decision.rejected)) ∈ c ↔
        AMap.get (submissions log) id = some s ∧ ∃ e ∈ log, e.call = .reject id) ∧
      (∀ id s pid, (id, (s, Decision.approved pid)) ∈ c ↔
        AMap.get (submissions log) id = some s ∧ ∃ e ∈ log, e.call = .approve id ∧ e.out.newId = some pid) := by
  obtain ⟨h1, h2⟩ := lists_WF h
  refine ⟨_, _, pages_paginate h1 hl (fun _ => rfl), pages_paginate h2 hl (fun _ => rfl), range_inOrder h1 none o,
    range_inOrder h2 none o, ?_, ?_, ?_⟩
  · intro id s; rw [mem_all h1]; exact (C54_records L h id s).1
  · intro id s; rw [mem_all h2]; exact (C54_records L h id s).2.1
  · intro id s pid; rw [mem_all h2]; exact (C54_records L h id s).2.2.1 pid

end Approval

end Verif.Listings
