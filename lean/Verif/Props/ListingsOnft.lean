import Verif.Props.ListingsOthers
import Verif.Proofs.OnftStaked
/-!
# C103: the list of staked NFTs of dao-voting-onft-staked
-/

namespace Verif.Listings
open Verif Verif.Paginate Verif.OnftStaked Verif.Spec.OnftStaked
open Verif.Spec.Listings
open Verif.Spec.Paginate (InOrder)

/-- **C103.** The pages of `StakedNfts` of dao-voting-onft-staked show exactly the NFTs an address has staked, once each;
there are no more than its voting power, and exactly as many while the DAO spares the NFTs that are kept. -/
theorem C103_onfts {w : OnftStaked.World} {b : Block} {log : List Spec.OnftStaked.Event} (h : OnftStaked.sys.Reach w b log)
    (a : Addr) (limit : Option Nat) (hl : limit ≠ some 0) :
    ∃ l, Pages (fun start => stakedNfts w.n.c a start limit) none l ∧ InOrder .asc l ∧
      (∀ t, (t, ()) ∈ l ↔ w.n.c.staked.get (a, t) = some ()) ∧ l.length ≤ w.n.c.balanceOf a ∧
      ((∀ e ∈ log, Spares e) → l.length = w.n.c.balanceOf a) := by
  have hi := basic_reach h
  have hw := under_WF hi.wf a
  have hlen : (range (under w.n.c.staked a) none .asc).length = NftStaked.count w.n.c.staked a := by
    rw [(range_perm _ _).length_eq]
    have e := sum_under (fun _ (_ : Unit) => 1) w.n.c.staked a
    unfold NftStaked.count
    rw [← e]
    simp
  refine ⟨_, pages_paginate (limit := limit) hw hl (fun start => ?_), range_inOrder hw none .asc, ?_, ?_, fun hs => ?_⟩
  · unfold stakedNfts paginateMap; cases limit <;> rfl
  · intro t; rw [mem_all hw, get_under hi.wf]
  · rw [hlen]; exact hi.le a
  · rw [hlen, (good_reach h hs).inv.bal a]

end Verif.Listings
