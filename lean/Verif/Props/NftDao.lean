import Verif.Props.NftDaoCreate
import Verif.Props.WholeDaoModules
/-!
# C92: NFTs staked from a collection of the DAO's own are safe, unless the creation gave permissions
-/

namespace Verif.NftDao
open Verif Verif.Spec.NftDao
open Verif.Spec.TokenDao (Lasting Sensible)
open Verif.NftStaked (afterStake afterUnstake hookMsgs powerAt totalPowerAt)

/-! ## Every transaction is one of the module over the owners only -/

/-- A step of a history as it is seen there. -/
def imageEv (e : Event) : Option (Ev NftStaked.World Block NftStaked.Call NftStaked.Out) :=
  match image e.pre.self e.env.sender e.call with
  | some k => some ⟨proj e.pre, e.env.block, k, e.out, proj e.post⟩
  | none => none

/-- A history as it is seen there. -/
def imageLog (log : List Event) : List (Ev NftStaked.World Block NftStaked.Call NftStaked.Out) := log.filterMap imageEv

theorem init_image {b : Block} {w : World} (h : plain.init b w) : Clean w ∧ NftStaked.sys.init b (proj w) ∧
    ∃ nft d th, w.vm = freshVm b w.vm.dao nft d th := by
  have hsh := init_shape h
  obtain ⟨dao, self, addr, d, t, initial, n1, n2, n3, hm, h⟩ := h
  have key : ∀ {w1 : World}, newModule b dao self addr d t initial = .ok w1 →
      Clean w1 ∧ w1.vm = freshVm b dao addr d t ∧ NftStaked.instantiate b dao addr none d t = .ok (freshVm b dao addr d t) := by
    intro w1 h1
    obtain ⟨hl, _, w2, h3, _, _, h6, rfl⟩ := newModule_ok.1 h1
    obtain ⟨c1, c2, c3⟩ := harmless_run (clean_start b dao self addr d t) hm h3
    exact ⟨⟨c1.ops, c1.app, c1.nft⟩, c2, instantiate_ok.2 ⟨hl, (TokenDao.sensible_iff.1 h6).1, rfl⟩⟩
  have hfin : Clean w ∧ w.vm = freshVm b dao addr d t ∧ NftStaked.instantiate b dao addr none d t = .ok (freshVm b dao addr d t) := by
    rcases h with h | h
    · obtain ⟨w1, h1, rfl⟩ := create_ok.1 h
      obtain ⟨k1, k2, k3⟩ := key h1
      exact ⟨⟨k1.ops, k1.app, k1.nft⟩, k2, k3⟩
    · exact key h
  obtain ⟨k1, k2, k3⟩ := hfin
  refine ⟨k1, ⟨dao, addr, none, d, t, ?_, Or.inr rfl, hsh.2.2.2.2.2.1, hsh.2.2.2.2.2.2⟩, addr, d, t, by rw [k2]; rfl⟩
  show NftStaked.instantiate b dao addr none d t = .ok w.vm
  rw [k2]; exact k3

theorem reach_image {w : World} {b : Block} {log : List Event} (h : plain.Reach w b log) :
    Clean w ∧ ∃ b', b'.le b ∧ NftStaked.sys.Reach (proj w) b' (imageLog log) := by
  refine Sys.Reach.induct (M := plain)
    (P := fun w b log => Clean w ∧ ∃ b', b'.le b ∧ NftStaked.sys.Reach (proj w) b' (imageLog log)) ?_ ?_ h
  · intro b s hi
    obtain ⟨h1, h2, _⟩ := init_image hi
    exact ⟨h1, b, Block.le_refl _, b, _, h2, .refl⟩
  · intro s b l env call out s' hreach ih hb hs
    obtain ⟨h1, b1, h2, h3⟩ := ih
    have hi := NftStaked.inv_reach h3
    obtain ⟨h4, h5, h6⟩ := step_image h1 hi hs
    refine ⟨clean_step h1 hs, ?_⟩
    cases hk : image s.self env.sender call with
    | none =>
      refine ⟨b1, Block.le_trans h2 hb, ?_⟩
      have e : imageLog (⟨s, env, call, out, s'⟩ :: l) = imageLog l := by
        simp only [imageLog, List.filterMap_cons, imageEv, hk]
      rw [e, h6 hk]; exact h3
    | some k =>
      refine ⟨env.block, Block.le_refl _, ?_⟩
      have e : imageLog (⟨s, env, call, out, s'⟩ :: l) = ⟨proj s, env.block, k, out, proj s'⟩ :: imageLog l := by
        simp only [imageLog, List.filterMap_cons, imageEv, hk]
      rw [e]
      exact Sys.Reach.step (M := NftStaked.sys) (env := env.block) h3 (Block.le_trans h2 hb) (h5 k hk)

theorem inv_plain {w : World} {b : Block} {log : List Event} (h : plain.Reach w b log) : NftStaked.Inv (proj w) := by
  obtain ⟨_, _, _, h⟩ := reach_image h
  exact NftStaked.inv_reach h

/-- A `SendNft` to the module changes the owner of that token only. -/
theorem send_other {w w' : World} {e : Env} {t q : Tok} {out : NftStaked.Out}
    (hs : step w e (.coll (.send w.self q)) = .ok (w', out)) (hne : q ≠ t) : owner w' t = owner w t ∧ w'.self = w.self := by
  simp only [step, bind_ok] at hs
  obtain ⟨_, _, hs⟩ := hs
  obtain ⟨c, hc, h1⟩ := collStep_ok hs
  have he := exec_effect hc
  have hc' : c.tokens.get t = w.coll.tokens.get t := by
    generalize hm : CollMsg.send w.self q = m at he
    cases he with
    | send t' dst o ho may => cases hm; exact AMap.get_set_ne _ _ hne
    | approvals m hp => subst hm; exact absurd hp id
    | operators m hp => subst hm; exact absurd hp id
    | _ => cases hm
  rcases h1 with ⟨_, rfl, _⟩ | ⟨t, _, _, rfl, _⟩
  · exact ⟨hc', rfl⟩
  · exact ⟨hc', rfl⟩

theorem staker_image {w : World} {b : Block} {log : List Event} (h : plain.Reach w b log) (t : Tok) :
    staker t log = Spec.NftStaked.staker t (imageLog log) := by
  refine Sys.Reach.induct (M := plain) (P := fun _ _ log => staker t log = Spec.NftStaked.staker t (imageLog log)) ?_ ?_ h
  · intro b s hi; rfl
  · intro s b l env call out s' hreach ih hb hs
    have hs' : step s env call = .ok (s', out) := hs
    obtain ⟨h1, b1, h2, h3⟩ := reach_image hreach
    have hi := NftStaked.inv_reach h3
    obtain ⟨h4, h5, h6⟩ := step_image h1 hi hs
    unfold staker
    by_cases hc : call = .coll (.send s.self t)
    · subst hc
      have e : imageLog (⟨s, env, .coll (.send s.self t), out, s'⟩ :: l) =
          ⟨proj s, env.block, .send env.sender t, out, proj s'⟩ :: imageLog l := by
        simp only [imageLog, List.filterMap_cons, imageEv, image, if_true]
      rw [e]
      simp [Spec.NftStaked.staker]
    · rw [if_neg hc]
      cases hk : image s.self env.sender call with
      | none =>
        have e : imageLog (⟨s, env, call, out, s'⟩ :: l) = imageLog l := by
          simp only [imageLog, List.filterMap_cons, imageEv, hk]
        have hp := h6 hk
        rw [e, if_neg, ih]
        rintro ⟨g1, g2⟩
        have e1 : s'.coll.tokens = s.coll.tokens := congrArg NftStaked.World.owners hp
        apply g2
        simp only [owner, e1, h4]
        exact g1
      | some k =>
        have e : imageLog (⟨s, env, call, out, s'⟩ :: l) = ⟨proj s, env.block, k, out, proj s'⟩ :: imageLog l := by
          simp only [imageLog, List.filterMap_cons, imageEv, hk]
        rw [e]
        have gen : (∀ a q, k ≠ .send a q) → (if owner s t = some s.self ∧ owner s' t ≠ some s'.self then none else staker t l) =
            Spec.NftStaked.staker t (⟨proj s, env.block, k, out, proj s'⟩ :: imageLog l) := by
          intro hk'
          cases k with
          | send a q => exact absurd rfl (hk' a q)
          | _ => rw [ih]; rfl
        cases k with
        | send a q =>
          have hq : call = .coll (.send s.self q) ∧ a = env.sender := by
            cases call with
            | vm m => simp [image] at hk
            | coll m =>
              cases m with
              | send d q' =>
                simp only [image, Option.some.injEq] at hk
                split at hk
                · rename_i hd; cases hk; exact ⟨by rw [hd], rfl⟩
                · cases hk
              | _ => simp [image] at hk
          obtain ⟨rfl, rfl⟩ := hq
          have hne : q ≠ t := by rintro rfl; exact hc rfl
          obtain ⟨o1, o2⟩ := send_other hs' hne
          rw [if_neg (by rintro ⟨g1, g2⟩; exact g2 (by rw [o1, o2]; exact g1)), ih]
          simp [Spec.NftStaked.staker, hne]
        | _ => exact gen (by simp)

/-! ## Custody -/

/-- **C92.** The module's records are right: an NFT is staked by `a` or waited for by `a` exactly when `a` sent it to the
module and the module has not given it away since. -/
theorem C92_custody {w : World} {b : Block} {log : List Event} (h : plain.Reach w b log) (a : Addr) (t : Tok) :
    staker t log = some a ↔ t ∈ w.vm.stakedNfts a ∨ t ∈ waiting w a := by
  obtain ⟨_, _, _, h1⟩ := reach_image h
  rw [staker_image h]
  exact NftStaked.C33_custody h1 a t

/-- **C92.** What is staked or waited for is in the module's hands, is one person's, and is staked or waited for but not both. -/
theorem C92_held {w : World} {b : Block} {log : List Event} (h : plain.Reach w b log) (a : Addr) (t : Tok) :
    ((t ∈ w.vm.stakedNfts a ∨ t ∈ waiting w a) → owner w t = some w.self ∧
      ∀ a', (t ∈ w.vm.stakedNfts a' ∨ t ∈ waiting w a') → a' = a) ∧
    ¬ (t ∈ w.vm.stakedNfts a ∧ t ∈ waiting w a) ∧ (waiting w a).Nodup := by
  obtain ⟨_, _, _, h1⟩ := reach_image h
  obtain ⟨h2, h3, h4⟩ := NftStaked.C33_once h1 a t
  exact ⟨h4, h3, h2⟩

/-- **C92.** An address's power is the number of different NFTs it has staked; all of them are in the module's hands. -/
theorem C92_power {w : World} {b : Block} {log : List Event} (h : plain.Reach w b log) (a : Addr) :
    w.vm.balanceOf a = (w.vm.stakedNfts a).length ∧ (w.vm.stakedNfts a).Nodup ∧
      ∀ t ∈ w.vm.stakedNfts a, owner w t = some w.self := by
  obtain ⟨_, _, _, h1⟩ := reach_image h
  obtain ⟨h2, h3⟩ := NftStaked.C33_power h1 a
  exact ⟨h2, h3, fun t ht => ((C92_held h a t).1 (Or.inl ht)).1⟩

/-- **C92.** An NFT leaves the module only to the one who staked it, in a call of their own: an unstake naming it when there is
no waiting time, or a claim. Nobody else can move, burn or stake it again, whatever they were approved for before. -/
theorem C92_returned {w w' : World} {b : Block} {log : List Event} {e : Env} {call : Call} {out : NftStaked.Out}
    (h : plain.Reach w b log) (hs : plain.step w e call = .ok (w', out)) {t : Tok} (h1 : owner w t = some w.self)
    (h2 : owner w' t ≠ some w'.self) :
    staker t log = some e.sender ∧ owner w' t = some e.sender ∧
      (call = .vm .claimNfts ∧ t ∈ waiting w e.sender ∨
        ∃ ts, call = .vm (.unstake ts) ∧ t ∈ ts ∧ t ∈ w.vm.stakedNfts e.sender ∧ w.vm.unstakingDuration = none) := by
  obtain ⟨hc, b1, _, hr⟩ := reach_image h
  have hi := NftStaked.inv_reach hr
  obtain ⟨g1, g2, g3⟩ := step_image hc hi hs
  rw [staker_image h]
  cases hk : image w.self e.sender call with
  | none =>
    exfalso
    have hp := g3 hk
    apply h2
    have e1 : w'.coll.tokens = w.coll.tokens := congrArg NftStaked.World.owners hp
    simp only [owner, e1, g1]; exact h1
  | some k =>
    obtain ⟨a, k1, k2, k3⟩ := NftStaked.C33_returned (b' := e.block) hr (g2 k hk) (t := t) h1 h2
    have hk' : ∀ m, k = .exec a m → call = .vm m ∧ a = e.sender := by
      rintro m rfl
      cases call with
      | vm m' => simp only [image, Option.some.injEq, NftStaked.Call.exec.injEq] at hk; exact ⟨by rw [hk.2], hk.1.symm⟩
      | coll m' =>
        cases m' with
        | send d q =>
          simp only [image, Option.some.injEq] at hk
          split at hk <;> cases hk
        | _ => simp [image] at hk
    rcases k3 with ⟨k3, k4⟩ | ⟨ts, k3, k4, k5, k6⟩
    · obtain ⟨rfl, rfl⟩ := hk' _ k3
      exact ⟨k1, k2, Or.inl ⟨rfl, k4⟩⟩
    · obtain ⟨rfl, rfl⟩ := hk' _ k3
      exact ⟨k1, k2, Or.inr ⟨ts, rfl, k4, k5, k6⟩⟩

theorem may_iff {w : World} {b : Block} {a : Addr} {t : Tok} :
    MayMove w b a t ↔ ∃ o, w.coll.tokens.get t = some o ∧ w.coll.May b a o t := by
  unfold MayMove Coll.May owner
  have e1 : w.coll.isApproved b t a = true ↔ ∃ l e, w.coll.approvals.get t = some l ∧ (a, e) ∈ l ∧ e.isExpired b = false := by
    unfold Coll.isApproved
    cases hg : w.coll.approvals.get t with
    | none => simp
    | some l =>
      simp only [Option.getD_some, List.any_eq_true, Bool.and_eq_true, decide_eq_true_eq, Bool.not_eq_true', Option.some.injEq]
      constructor
      · rintro ⟨⟨x, e⟩, h1, h2, h3⟩
        simp only at h2 h3
        subst h2
        exact ⟨l, e, rfl, h1, h3⟩
      · rintro ⟨_, e, rfl, h1, h2⟩; exact ⟨_, h1, rfl, h2⟩
  have e2 : ∀ o, w.coll.isOperator b o a = true ↔ ∃ e, w.coll.operators.get (o, a) = some e ∧ e.isExpired b = false := by
    intro o
    unfold Coll.isOperator
    cases hg : w.coll.operators.get (o, a) with
    | none => simp
    | some e => simp
  simp only [e1, e2]

/-- **C92.** Whoever may move an NFT that is not in the module's hands, its owner for one, can stake it, at any time: it counts
for the one who sends it. -/
theorem C92_stakeable {w : World} {b b' : Block} {log : List Event} (h : plain.Reach w b log) {a : Addr} {t : Tok}
    (ha : a ≠ w.self) (ha' : a ≠ w.coll.addr) (hm : MayMove w b' a t) :
    ∃ w' out, plain.step w ⟨b', a⟩ (.coll (.send w.self t)) = .ok (w', out) ∧ owner w' t = some w.self ∧
      t ∈ w'.vm.stakedNfts a ∧ w'.vm.balanceOf a = w.vm.balanceOf a + 1 ∧ w'.vm.total = w.vm.total + 1 := by
  obtain ⟨hc, b1, _, hr⟩ := reach_image h
  obtain ⟨o, ho, hmay⟩ := may_iff.1 hm
  have hos := hc.not_may ho ha hmay
  obtain ⟨x', out, k1, k2, k3, k4, k5⟩ := NftStaked.C33_stakeable (b' := b') hr (a := a) (t := t) (o := o) ho hos ha
  have k1' : NftStaked.step (proj w) b' (.send a t) = .ok (x', out) := k1
  simp only [NftStaked.step, bind_ok] at k1'
  obtain ⟨_, _, ⟨v, o'⟩, hv, k1'⟩ := k1'
  simp only [Except.ok.injEq, Prod.mk.injEq] at k1'
  obtain ⟨rfl, rfl⟩ := k1'
  have hv' : NftStaked.exec w.vm b' (w.coll.tokens.set t w.self).length w.coll.addr (.receiveNft a t) = .ok (v, o') := by
    simp only [NftStaked.exec, hc.nft] at hv ⊢; exact hv
  have hd : decide (a ≠ w.self ∧ a ≠ w.coll.addr) = true := decide_eq_true ⟨ha, ha'⟩
  refine ⟨{ w with coll := { w.coll with tokens := w.coll.tokens.set t w.self, approvals := w.coll.approvals.erase t }, vm := v },
    o', ?_, k2, k3, k4, k5⟩
  simp only [plain, sysOf, step, hd, require, if_true, ok_bind, collStep, Coll.exec, Coll.move,
    (canSend_ok (u := ())).2 ⟨o, ho, hmay⟩, notify, hv']

/-- A call of the module over the owners only goes through here too. -/
theorem vm_runs {w : World} {x' : NftStaked.World} {b' : Block} {a : Addr} {m : NftStaked.Msg} {out : NftStaked.Out}
    (ha' : a ≠ w.coll.addr) (h : NftStaked.step (proj w) b' (.exec a m) = .ok (x', out)) :
    ∃ w', step w ⟨b', a⟩ (.vm m) = .ok (w', out) ∧ proj w' = x' := by
  simp only [NftStaked.step, bind_ok, require_ok, decide_eq_true_eq] at h
  obtain ⟨_, ⟨ha, _⟩, ⟨v, o'⟩, hv, ow, hg, h⟩ := h
  simp only [Except.ok.injEq, Prod.mk.injEq] at h hg
  obtain ⟨rfl, rfl⟩ := h
  obtain ⟨c', g1, g2⟩ := giveBack_runs (b := b') (c := w.coll) hg
  have hd : decide (a ≠ w.self ∧ a ≠ w.coll.addr) = true := decide_eq_true ⟨ha, ha'⟩
  have hv' : NftStaked.exec w.vm b' w.coll.tokens.length a m = .ok (v, o') := hv
  refine ⟨{ w with vm := v, coll := c' }, ?_, by rw [← g2]; rfl⟩
  simp only [step, hd, require, if_true, ok_bind, hv']
  rw [show giveBack b' w.self o'.send w.coll = .ok c' from g1]
  rfl

/-- **C92.** A staker can unstake at any time: any different NFTs they staked, as long as at most 70 of theirs wait. Without a
waiting time they have them back at once. -/
theorem C92_unstakeable {w : World} {b b' : Block} {log : List Event} (h : plain.Reach w b log) {a : Addr} {ts : List Tok}
    (ha : a ≠ w.self) (ha' : a ≠ w.coll.addr) (hts : ts ≠ []) (hn : ts.Nodup) (hst : ∀ t ∈ ts, t ∈ w.vm.stakedNfts a)
    (hlen : w.vm.unstakingDuration = none ∨ (waiting w a).length + ts.length ≤ 70) :
    ∃ w' out, plain.step w ⟨b', a⟩ (.vm (.unstake ts)) = .ok (w', out) ∧
      w'.vm.balanceOf a + ts.length = w.vm.balanceOf a ∧
      (w.vm.unstakingDuration = none → ∀ t ∈ ts, owner w' t = some a) ∧
      (∀ d, w.vm.unstakingDuration = some d → w'.vm.claims.of a = w.vm.claims.of a ++ ts.map (fun t => ⟨t, d.after b'⟩)) := by
  obtain ⟨hc, b1, _, hr⟩ := reach_image h
  obtain ⟨x', out, k⟩ := NftStaked.C33_unstakeable (b' := b') hr (a := a) ha
    (by show a ≠ w.vm.nft; rw [← hc.nft]; exact ha') hts hn hst hlen
  obtain ⟨w', h1, rfl⟩ := vm_runs (w := w) ha' k
  obtain ⟨_, _, _, _, u1, _, u2⟩ := NftStaked.C33_unstake hr k
  refine ⟨w', out, h1, u1, ?_, ?_⟩
  · intro hd
    rw [show (proj w).c.unstakingDuration = none from hd] at u2
    exact u2.1
  · intro d hd
    rw [show (proj w).c.unstakingDuration = some d from hd] at u2
    exact u2.2

/-- **C92.** Once the waiting time of an NFT is over the one who waits for it can take it, with all others that are ripe. -/
theorem C92_claimable {w : World} {b b' : Block} {log : List Event} (h : plain.Reach w b log) {a : Addr} (ha : a ≠ w.self)
    (ha' : a ≠ w.coll.addr) {cl : NftClaim} (hcl : cl ∈ w.vm.claims.of a) (hm : cl.releaseAt.isExpired b' = true) :
    ∃ w' out, plain.step w ⟨b', a⟩ (.vm .claimNfts) = .ok (w', out) ∧
      (∀ x ∈ w.vm.claims.of a, x.releaseAt.isExpired b' = true → owner w' x.token = some a) ∧
        w'.vm.claims.of a = (w.vm.claims.of a).filter (fun x => !x.releaseAt.isExpired b') := by
  obtain ⟨hc, b1, _, hr⟩ := reach_image h
  obtain ⟨x', out, k, k1, k2⟩ := NftStaked.C33_claimable (b' := b') hr (a := a) ha
    (by show a ≠ w.vm.nft; rw [← hc.nft]; exact ha') hcl hm
  obtain ⟨w', h1, rfl⟩ := vm_runs (w := w) ha' k
  exact ⟨w', out, h1, k1, k2⟩

end Verif.NftDao
