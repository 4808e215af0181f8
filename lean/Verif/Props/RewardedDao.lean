import Verif.Proofs.RewardedDaoRun
import Verif.Props.DaoRewards
import Verif.Props.DaoRewardsAccrual
/-!
# C86: rewards for the members of a real voting module
-/

namespace Verif.RewardedDao
open Verif Verif.WholeDao Verif.Spec.WholeDao Verif.Spec.RewardedDao
open Verif.Spec.DaoRewards (fundedTotal claimedTotal clawedTotal ran units)

variable {S E C O : Type} {V : Telling S E C O} {b0 b b' : Block} {w0 w : World S} {log : List (Event S E C)}

theorem claimable_eq (L : Lawful V.toVotingModule) {aw : DaoRewards.World} {ab : Block} (h : Sim V b0 log w b aw ab)
    (hb : b.le b') (id : Nat) (a : Addr) : Spec.DaoRewards.claimable aw b' id a = claimable V w b' id a := by
  unfold Spec.DaoRewards.claimable claimable
  rw [h.answers L hb.1, h.c]
  cases DaoRewards.queryPending w.rew.c b' (answers V w b') a id <;> rfl

/-- C86: with a voting module that records powers and tells its listeners as it should, all that was claimed from a
distribution and clawed back, and all that can still be claimed by any members, is never more than what was funded.
Missing (hence `_partial`): histories that are not `Regular`; see the witnesses. -/
theorem C86_bound_partial (L : Lawful V.toVotingModule) (T : Tells V) (h0 : Init V b0 w0) (hr : (sys V).Run w0 b0 log w b)
    (id : Nat) (hreg : Regular V b0 id log) (hb : b.le b') (hh : b.height < b'.height ∨ b = b') (as : List Addr)
    (has : as.Nodup) :
    claimedTotal id (rewardsLog log) + clawedTotal id (rewardsLog log) + (as.map (claimable V w b' id)).sum ≤
      fundedTotal id (rewardsLog log) := by
  obtain ⟨aw0, alog, aw, ab, hi, hrun, hsim, hm⟩ := sim_run L T h0 hr
  have hn := now_trans hsim.blk hb hh
  have := DaoRewards.C45_bound_partial hi hrun id (hm.announced id hreg.listening hreg.others) (hm.same id hreg.same)
    (hm.calm id hreg.calm) hn.1 hn.2 as has
  rw [hm.claimed, hm.clawed, hm.funded] at this
  have he : as.map (Spec.DaoRewards.claimable aw b' id) = as.map (claimable V w b' id) :=
    List.map_congr_left (fun a _ => claimable_eq L hsim hb id a)
  rw [he] at this
  exact this

/-- C86: in such histories the distributor can always pay all that its members can claim. -/
theorem C86_backed_partial (L : Lawful V.toVotingModule) (T : Tells V) (h0 : Init V b0 w0) (hr : (sys V).Run w0 b0 log w b)
    (t : Token) (ids : List Nat) (hids : ids.Nodup)
    (hall : ∀ id, id ∈ ids ↔ ∃ d, w.rew.c.dists.get id = some d ∧ d.token = t)
    (hreg : ∀ id ∈ ids, Regular V b0 id log) (hb : b.le b') (hh : b.height < b'.height ∨ b = b') (as : List Addr)
    (has : as.Nodup) :
    (ids.map (fun id => (as.map (claimable V w b' id)).sum)).sum ≤ getD0 w.rew.bal (t, w.rew.me) := by
  obtain ⟨aw0, alog, aw, ab, hi, hrun, hsim, hm⟩ := sim_run L T h0 hr
  have hn := now_trans hsim.blk hb hh
  have := DaoRewards.C45_backed_partial hi hrun t ids hids (by rw [hsim.c]; exact hall)
    (fun id hid => hm.announced id (hreg id hid).listening (hreg id hid).others) (fun id hid => hm.same id (hreg id hid).same)
    (fun id hid => hm.calm id (hreg id hid).calm) hn.1 hn.2 as has
  rw [hsim.bal, hsim.me] at this
  have he : ∀ id, as.map (Spec.DaoRewards.claimable aw b' id) = as.map (claimable V w b' id) :=
    fun id => List.map_congr_left (fun a _ => claimable_eq L hsim hb id a)
  simp only [he] at this
  exact this

/-- C86: as long as nothing happens, what a member can claim from a linear distribution grows by their share, in the
voting module, of the amount per period for each whole period, up to one unit of rounding on either side. -/
theorem C86_share (L : Lawful V.toVotingModule) (T : Tells V) (h0 : Init V b0 w0) (hr : (sys V).Run w0 b0 log w b)
    {id : Nat} {a : Addr} (hreg : Regular V b0 id log) {b1 b2 : Block} (hb : b.le b1) (hlt : b.height < b1.height)
    (hb2 : b1.le b2) {d : DaoRewards.Dist} {amount : Nat} {dur : Duration} {c : Bool}
    (hd : w.rew.c.dists.get id = some d) (hrate : d.epoch.rate = .linear amount dur c) (hvp : d.vp = w.vp)
    (hT : 0 < V.totalWeight w.vote) (hP : V.weight w.vote a < U128) (h1 : Shows V w b1 id a) (h2 : Shows V w b2 id a) :
    claimable V w b2 id a ≤ claimable V w b1 id a +
      V.weight w.vote a * (amount * (ran d b2 / units dur - ran d b1 / units dur)) / V.totalWeight w.vote + 2 ∧
    claimable V w b1 id a +
      V.weight w.vote a * (amount * (ran d b2 / units dur - ran d b1 / units dur)) / V.totalWeight w.vote ≤
      claimable V w b2 id a + 1 := by
  obtain ⟨aw0, alog, aw, ab, hi, hrun, hsim, hm⟩ := sim_run L T h0 hr
  have hbb : b.le b2 := Block.le_trans hb hb2
  have := DaoRewards.C46_share (a := a) hi hrun (hm.announced id hreg.listening hreg.others) (hm.same id hreg.same)
    (hm.calm id hreg.calm) (Block.le_trans hsim.blk.1 hb) hb2 (d := d) (by rw [hsim.c]; exact hd) hrate
    (by rw [hvp]; exact Nat.lt_of_le_of_lt hsim.since hlt) (by rw [hvp, hsim.curT]; exact hT)
    (by rw [hvp, hsim.cur]; exact hP)
    (by unfold Spec.DaoRewards.Shows; rw [hsim.answers L hb.1, hsim.c]; exact h1)
    (by unfold Spec.DaoRewards.Shows; rw [hsim.answers L hbb.1, hsim.c]; exact h2)
  rw [hvp, hsim.cur, hsim.curT, claimable_eq L hsim hb, claimable_eq L hsim hbb] at this
  exact this

/-- C86: if no distribution has the sender of the hook messages as its hook caller, a call of the voting module that
tells the distributor of a change fails. -/
theorem C86_locked (h : w.rew.c.hooks.get w.caller = none) {e : E} {m : C} {s' : S} {o : O}
    (hs : V.sys.step w.vote e m = .ok (s', o)) (ht : ∃ x ∈ V.told o, x.1 = w.rew.me) :
    ¬ ∃ w' out, step V w b (.vote e m) = .ok (w', out) := by
  rintro ⟨w', out, hst⟩
  simp only [step, bind_ok, require_ok, decide_eq_true_eq, Except.ok.injEq, Prod.mk.injEq] at hst
  obtain ⟨_, _, _, _, _, _, ⟨s1, o1⟩, h1, c', h2, _⟩ := hst
  rw [hs] at h1
  cases h1
  rw [deliver_eq] at h2
  obtain ⟨x, hx, hme⟩ := ht
  cases hm : mine w.rew.me (V.told o) with
  | nil => exact mine_nil hm x hx hme
  | cons m1 rest =>
    rw [hm] at h2
    simp only [deliverMine, bind_ok, DaoRewards.execHook, h, orErr] at h2
    obtain ⟨_, ⟨_, hh, _⟩, _⟩ := h2
    cases hh

end Verif.RewardedDao
