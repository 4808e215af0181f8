import Verif.Props.NftDao
/-!
# C92: the powers add up, and what an operator of the module can do
-/

namespace Verif.NftDao
open Verif Verif.Spec.NftDao
open Verif.NftStaked (afterStake afterUnstake hookMsgs powerAt totalPowerAt)

/-! ## Powers, after any creation -/

/-- The stakes add up. -/
structure Books (s : NftStaked.State) : Prop where
  wf : s.balances.cur.WF
  sum : s.total = Verif.total s.balances.cur

theorem books_stake {s : NftStaked.State} (h : Books s) (b : Block) (a : Addr) (t : Tok) : Books (afterStake s b a t) := by
  refine ⟨AMap.WF_set h.wf _ _, ?_⟩
  have h1 := AMap.sum_set (fun (_ : Addr) (v : Nat) => v) s.balances.cur a (s.balanceOf a + 1)
  rw [at_val, ← total_eq, ← total_eq] at h1
  have h2 := h.sum
  have h3 : s.balanceOf a = getD0 s.balances.cur a := rfl
  have h4 : (afterStake s b a t).total = s.total + 1 := NftStaked.total_save _ _ _
  have h5 : (afterStake s b a t).balances.cur = s.balances.cur.set a (s.balanceOf a + 1) := rfl
  rw [h4, h5]; omega

theorem books_unstake {s : NftStaked.State} (h : Books s) (b : Block) (a : Addr) {n : Nat} (m : AMap (Addr × Tok) Unit)
    (h1 : n ≤ s.total) (h2 : n ≤ s.balanceOf a) : Books (afterUnstake s b a n m) := by
  refine ⟨AMap.WF_set h.wf _ _, ?_⟩
  have h3 := AMap.sum_set (fun (_ : Addr) (v : Nat) => v) s.balances.cur a (s.balanceOf a - n)
  rw [at_val, ← total_eq, ← total_eq] at h3
  have h4 := h.sum
  have h5 : s.balanceOf a = getD0 s.balances.cur a := rfl
  have h6 : (afterUnstake s b a n m).total = s.total - n := NftStaked.total_save _ _ _
  have h7 : (afterUnstake s b a n m).balances.cur = s.balances.cur.set a (s.balanceOf a - n) := rfl
  rw [h6, h7]; omega

/-- What a call does to the stakes. -/
theorem exec_writes {s s' : NftStaked.State} {b : Block} {n : Nat} {a : Addr} {m : NftStaked.Msg} {out : NftStaked.Out}
    (h : NftStaked.exec s b n a m = .ok (s', out)) :
    Snap.Writes b.height s.balances s'.balances ∧ Snap.Writes b.height s.totalStaked s'.totalStaked ∧ (Books s → Books s') := by
  cases m with
  | receiveNft x t =>
    simp only [NftStaked.exec] at h
    obtain ⟨_, rfl, _⟩ := NftStaked.stake_inv h
    exact ⟨Snap.Writes.one _ _ _ _, Snap.Writes.one _ _ _ _, fun hb => books_stake hb b x t⟩
  | unstake ts =>
    simp only [NftStaked.exec] at h
    obtain ⟨_, _, h1, h2, m, _, ⟨_, rfl, _⟩ | ⟨d, _, _, rfl, _⟩⟩ := NftStaked.unstake_inv h
    · exact ⟨Snap.Writes.one _ _ _ _, Snap.Writes.one _ _ _ _, fun hb => books_unstake hb b a m h1 h2⟩
    · refine ⟨Snap.Writes.one _ _ _ _, Snap.Writes.one _ _ _ _, fun hb => ?_⟩
      obtain ⟨b1, b2⟩ := books_unstake hb b a m h1 h2
      exact ⟨b1, b2⟩
  | claimNfts =>
    simp only [NftStaked.exec] at h
    obtain ⟨_, rfl, _⟩ := NftStaked.claim_inv h; exact ⟨.refl, .refl, fun hb => ⟨hb.wf, hb.sum⟩⟩
  | updateConfig d =>
    simp only [NftStaked.exec, bind_ok, require_ok, Except.ok.injEq, Prod.mk.injEq] at h
    obtain ⟨_, _, _, _, rfl, _⟩ := h; exact ⟨.refl, .refl, fun hb => ⟨hb.wf, hb.sum⟩⟩
  | addHook x =>
    simp only [NftStaked.exec, bind_ok, require_ok, Except.ok.injEq, Prod.mk.injEq] at h
    obtain ⟨_, _, _, _, rfl, _⟩ := h; exact ⟨.refl, .refl, fun hb => ⟨hb.wf, hb.sum⟩⟩
  | removeHook x =>
    simp only [NftStaked.exec, bind_ok, require_ok, Except.ok.injEq, Prod.mk.injEq] at h
    obtain ⟨_, _, _, _, rfl, _⟩ := h; exact ⟨.refl, .refl, fun hb => ⟨hb.wf, hb.sum⟩⟩
  | updateActiveThreshold t =>
    simp only [NftStaked.exec, bind_ok, require_ok, Except.ok.injEq, Prod.mk.injEq] at h
    obtain ⟨_, _, _, _, rfl, _⟩ := h; exact ⟨.refl, .refl, fun hb => ⟨hb.wf, hb.sum⟩⟩

theorem collStep_writes {w w' : World} {b : Block} {s : Addr} {m : CollMsg} {out : NftStaked.Out}
    (h : collStep w b s m = .ok (w', out)) :
    Snap.Writes b.height w.vm.balances w'.vm.balances ∧ Snap.Writes b.height w.vm.totalStaked w'.vm.totalStaked ∧
      (Books w.vm → Books w'.vm) := by
  obtain ⟨c, _, ⟨_, rfl, _⟩ | ⟨t, rfl, _, rfl, _⟩⟩ := collStep_ok h
  · exact ⟨.refl, .refl, id⟩
  · exact ⟨Snap.Writes.one _ _ _ _, Snap.Writes.one _ _ _ _, fun hb => books_stake hb b s t⟩

theorem step_writes {w w' : World} {e : Env} {call : Call} {out : NftStaked.Out} (hs : step w e call = .ok (w', out)) :
    Snap.Writes e.block.height w.vm.balances w'.vm.balances ∧ Snap.Writes e.block.height w.vm.totalStaked w'.vm.totalStaked ∧
      (Books w.vm → Books w'.vm) := by
  cases call with
  | coll m =>
    simp only [step, bind_ok] at hs
    obtain ⟨_, _, hs⟩ := hs
    exact collStep_writes hs
  | vm m =>
    simp only [step, bind_ok] at hs
    obtain ⟨_, _, ⟨c, o⟩, he, cl, hg, hs⟩ := hs
    simp only [Except.ok.injEq, Prod.mk.injEq] at hs
    obtain ⟨rfl, rfl⟩ := hs
    exact exec_writes he

theorem runList_writes {b : Block} {l : List CollMsg} {w w' : World} (h : runList b l w = .ok w') :
    Snap.Writes b.height w.vm.balances w'.vm.balances ∧ Snap.Writes b.height w.vm.totalStaked w'.vm.totalStaked ∧
      (Books w.vm → Books w'.vm) := by
  induction l generalizing w with
  | nil => simp only [runList, Except.ok.injEq] at h; subst h; exact ⟨.refl, .refl, id⟩
  | cons m l ih =>
    simp only [runList, bind_ok] at h
    obtain ⟨⟨w1, o⟩, h1, h⟩ := h
    obtain ⟨i1, i2, i3⟩ := collStep_writes h1
    obtain ⟨j1, j2, j3⟩ := ih h
    exact ⟨i1.trans j1, i2.trans j2, fun hb => j3 (i3 hb)⟩

theorem init_writes {ok : Addr → List CollMsg → Prop} {b : Block} {w : World} (h : Init ok b w) :
    Snap.Writes b.height Snap.empty w.vm.balances ∧ Snap.Writes b.height Snap.empty w.vm.totalStaked ∧ Books w.vm := by
  obtain ⟨dao, self, addr, d, t, initial, _, _, _, _, h⟩ := h
  have key : ∀ {w1 : World}, newModule b dao self addr d t initial = .ok w1 →
      Snap.Writes b.height Snap.empty w1.vm.balances ∧ Snap.Writes b.height Snap.empty w1.vm.totalStaked ∧ Books w1.vm := by
    intro w1 h1
    obtain ⟨_, _, w2, h3, _, _, _, rfl⟩ := newModule_ok.1 h1
    obtain ⟨i1, i2, i3⟩ := runList_writes h3
    refine ⟨i1, Snap.Writes.trans (Snap.Writes.one _ _ _ _) i2, i3 ⟨AMap.WF_nil, ?_⟩⟩
    exact NftStaked.total_save _ _ _
  rcases h with h | h
  · obtain ⟨w1, h1, rfl⟩ := create_ok.1 h
    have hk := key (w1 := w1) h1
    exact hk
  · exact key h

theorem snapshotted (ok : Addr → List CollMsg → Prop) :
    (sysOf ok).Snapshotted (fun w => w.vm.balances) ∧ (sysOf ok).Snapshotted (fun w => w.vm.totalStaked) := by
  refine ⟨⟨?_, ?_⟩, ⟨?_, ?_⟩⟩
  · intro b s h; exact (init_writes h).1.upTo (Snap.upTo_empty _) (Nat.le_refl _)
  · intro s env call s' out h; exact (step_writes h).1
  · intro b s h; exact (init_writes h).2.1.upTo (Snap.upTo_empty _) (Nat.le_refl _)
  · intro s env call s' out h; exact (step_writes h).2.1

theorem books_reach {ok : Addr → List CollMsg → Prop} {w : World} {b : Block} {log : List Event}
    (h : (sysOf ok).Reach w b log) : Books w.vm :=
  Sys.Reach.induct (M := sysOf ok) (P := fun w _ _ => Books w.vm) (fun _ _ hi => (init_writes hi).2.2)
    (fun _ _ _ _ _ _ _ _ ih _ hs => (step_writes hs).2.2 ih) h

/-- dao-voting-cw721-staked with a collection of its own, for a DAO. The answers model
contracts/voting/dao-voting-cw721-staked/src/contract.rs:577-597. -/
def votingModule (ok : Addr → List CollMsg → Prop) : WholeDao.VotingModule World Env Call NftStaked.Out where
  sys := sysOf ok
  power w a x := powerAt w.vm a x
  total w x := totalPowerAt w.vm x
  weight w a := w.vm.balanceOf a
  totalWeight w := w.vm.total

/-- **C92.** Whatever messages made the collection: what the module answers for a height is what was staked before it, does not
change any more from then on, and the total is the sum of all powers. -/
theorem C92_lawful (ok : Addr → List CollMsg → Prop) : Spec.WholeDao.Lawful (votingModule ok) where
  history h hr hb hx := by
    refine ⟨fun a => ?_, ?_⟩
    · exact congrArg (Option.getD · 0) ((snapshotted ok).1.current h hr hb hx a)
    · exact congrArg (Option.getD · 0) ((snapshotted ok).2.current h hr hb hx ())
  stable h hr hx := by
    refine ⟨fun a => ?_, ?_⟩
    · exact congrArg (Option.getD · 0) ((snapshotted ok).1.stable h hr hx a)
    · exact congrArg (Option.getD · 0) ((snapshotted ok).2.stable h hr hx ())
  sums {w b l} h x := by
    obtain ⟨L, hL, h0⟩ := WholeDao.snap_support w.vm.balances x
    have hz : ∀ a, a ∉ L → powerAt w.vm a x = 0 := fun a ha => by unfold powerAt; rw [h0 a ha]; rfl
    refine ⟨L, hL, hz, ?_⟩
    have h' : (sysOf ok).Reach w b l := h
    obtain ⟨w1, b1, l1, l2, rfl, h1, hr, hx, hb⟩ := h'.split x
    have e1 := (snapshotted ok).1.stable h1 hr hx
    have e2 := (snapshotted ok).2.stable h1 hr hx ()
    show totalPowerAt w.vm x = (L.map (fun a => powerAt w.vm a x)).sum
    have hz' : ∀ a, a ∉ L → powerAt w1.vm a x = 0 := fun a ha => by
      have := hz a ha; unfold powerAt at this ⊢; rw [← e1 a]; exact this
    have e3 : totalPowerAt w.vm x = totalPowerAt w1.vm x := congrArg (Option.getD · 0) e2
    have e4 : (L.map (fun a => powerAt w.vm a x)).sum = (L.map (fun a => powerAt w1.vm a x)).sum := by
      congr 1; apply List.map_congr_left; intro a _; exact congrArg (Option.getD · 0) (e1 a)
    rw [e3, e4]
    rcases hb with hb | ⟨rfl, hi⟩
    · have f1 : ∀ a, powerAt w1.vm a x = getD0 w1.vm.balances.cur a := fun a =>
        congrArg (Option.getD · 0) (Snap.atHeight_future ((snapshotted ok).1.upTo h1) hb a)
      have f2 : totalPowerAt w1.vm x = w1.vm.total :=
        congrArg (Option.getD · 0) (Snap.atHeight_future ((snapshotted ok).2.upTo h1) hb ())
      have hbk := books_reach h1
      rw [f2, hbk.sum, ← total_eq_sum hbk.wf hL (fun a ha => by rw [← f1]; exact hz' a ha)]
      congr 1; apply List.map_congr_left; intro a _; exact (f1 a).symm
    · obtain ⟨i1, i2, i3⟩ := init_writes hi
      by_cases hlt : b1.height < x
      · have f1 : ∀ a, powerAt w1.vm a x = getD0 w1.vm.balances.cur a := fun a =>
          congrArg (Option.getD · 0) (Snap.atHeight_future ((snapshotted ok).1.upTo h1) hlt a)
        have f2 : totalPowerAt w1.vm x = w1.vm.total :=
          congrArg (Option.getD · 0) (Snap.atHeight_future ((snapshotted ok).2.upTo h1) hlt ())
        rw [f2, i3.sum, ← total_eq_sum i3.wf hL (fun a ha => by rw [← f1]; exact hz' a ha)]
        congr 1; apply List.map_congr_left; intro a _; exact (f1 a).symm
      · have g1 : ∀ a, powerAt w1.vm a x = 0 := fun a => by
          unfold powerAt
          rw [i1.atHeight (Snap.upTo_empty 0) (Nat.zero_le _) (Nat.not_lt.1 hlt) a]; rfl
        have g2 : totalPowerAt w1.vm x = 0 := by
          unfold totalPowerAt
          rw [i2.atHeight (Snap.upTo_empty 0) (Nat.zero_le _) (Nat.not_lt.1 hlt) ()]; rfl
        rw [g2]
        symm
        rw [List.sum_eq_zero]
        intro y hy
        obtain ⟨a, _, rfl⟩ := List.mem_map.1 hy
        exact g1 a

/-! ## An operator of the module -/

/-- **C92.** The condition on the listed messages is needed. If the module has an operator, that account can take any NFT that
is staked, at once: the victim keeps the voting power and can never unstake it while the operator keeps the NFT. -/
theorem C92_operator_takes {w : World} {b : Block} {x : Addr} {t : Tok} {e : Expiration} (hx : x ≠ w.self)
    (hx' : x ≠ w.coll.addr) (hop : w.coll.operators.get (w.self, x) = some e) (he : e.isExpired b = false)
    (ht : owner w t = some w.self) :
    ∃ w', sys.step w ⟨b, x⟩ (.coll (.transfer x t)) = .ok (w', {}) ∧ owner w' t = some x ∧ w'.vm = w.vm := by
  have hd : decide (x ≠ w.self ∧ x ≠ w.coll.addr) = true := decide_eq_true ⟨hx, hx'⟩
  have hm : w.coll.May b x w.self t := Or.inr (Or.inr (by unfold Coll.isOperator; rw [hop]; simp [he]))
  refine ⟨{ w with coll := { w.coll with tokens := w.coll.tokens.set t x, approvals := w.coll.approvals.erase t } }, ?_, ?_, rfl⟩
  · simp only [sys, sysOf, step, hd, require, if_true, ok_bind, collStep, Coll.exec, Coll.move,
      (canSend_ok (u := ())).2 ⟨_, ht, hm⟩, notify]
  · simp [owner]

/-- One more vote from an NFT the module already has. -/
theorem again {w : World} {b : Block} {x : Addr} {t : Tok} {e : Expiration} (hx : x ≠ w.self) (hx' : x ≠ w.coll.addr)
    (hnft : w.coll.addr = w.vm.nft) (hop : w.coll.operators.get (w.self, x) = some e) (he : e.isExpired b = false)
    (ht : owner w t = some w.self) (hb : Books w.vm) (hfit : w.vm.total + 1 < U128) :
    ∃ w' out, step w ⟨b, x⟩ (.coll (.send w.self t)) = .ok (w', out) ∧ owner w' t = some w'.self ∧ w'.self = w.self ∧
      w'.coll.addr = w.coll.addr ∧ w'.vm.nft = w.vm.nft ∧ w'.coll.operators = w.coll.operators ∧
        w'.vm.balanceOf x = w.vm.balanceOf x + 1 ∧ w'.vm.total = w.vm.total + 1 ∧ supply w' = supply w := by
  have hd : decide (x ≠ w.self ∧ x ≠ w.coll.addr) = true := decide_eq_true ⟨hx, hx'⟩
  have hm : w.coll.May b x w.self t := Or.inr (Or.inr (by unfold Coll.isOperator; rw [hop]; simp [he]))
  have h1 : w.vm.balanceOf x ≤ w.vm.total := by rw [hb.sum]; exact getD0_le_total _ _
  have e1 : add128 (w.vm.balanceOf x) 1 = .ok (w.vm.balanceOf x + 1) := (add128_ok _ _ _).2 ⟨by omega, rfl⟩
  have e2 : add128 w.vm.total 1 = .ok (w.vm.total + 1) := (add128_ok _ _ _).2 ⟨by omega, rfl⟩
  have hv : NftStaked.exec w.vm b (w.coll.tokens.set t w.self).length w.coll.addr (.receiveNft x t) =
      .ok (afterStake w.vm b x t, { hooks := hookMsgs w.vm.hooks true x [t] }) := by
    simp only [NftStaked.exec, NftStaked.execStake, NftStaked.registerStaked, require, hnft, decide_true, if_true, ok_bind, e1, e2]
    rfl
  refine ⟨{ w with coll := { w.coll with tokens := w.coll.tokens.set t w.self, approvals := w.coll.approvals.erase t },
                   vm := afterStake w.vm b x t }, { hooks := hookMsgs w.vm.hooks true x [t] }, ?_, ?_, rfl, rfl, rfl, rfl, ?_, ?_, ?_⟩
  · simp only [step, hd, require, if_true, ok_bind, collStep, Coll.exec, Coll.move,
      (canSend_ok (u := ())).2 ⟨_, ht, hm⟩, notify, hv]
  · simp [owner]
  · simp only [NftStaked.State.balanceOf, afterStake, Snap.get_save, if_true, Option.getD_some]
  · exact NftStaked.total_save _ _ _
  · simp only [supply, AMap.length_set]
    rw [if_neg (by rw [show w.coll.tokens.get t = some w.self from ht]; simp), Nat.add_zero]

/-- **C92.** And it can give itself as many votes as it likes from one NFT the module has, in one block, by sending that NFT from
the module to the module again and again. -/
theorem C92_operator_votes {w : World} {b b' : Block} {log : List Event} {x : Addr} {t : Tok} {e : Expiration}
    (h : sys.Reach w b log) (hbb : b.le b') (hx : x ≠ w.self) (hx' : x ≠ w.coll.addr)
    (hop : w.coll.operators.get (w.self, x) = some e) (he : e.isExpired b' = false) (ht : owner w t = some w.self) (n : Nat)
    (hfit : w.vm.total + n < U128) :
    ∃ w' b'' l, sys.Run w b l w' b'' ∧ (b'' = b' ∨ n = 0 ∧ b'' = b) ∧ (∀ v ∈ l, v.env = ⟨b', x⟩) ∧
      w'.vm.balanceOf x = w.vm.balanceOf x + n ∧ w'.vm.total = w.vm.total + n ∧ supply w' = supply w := by
  have hnft : w.coll.addr = w.vm.nft := by
    obtain ⟨b0, w0, h0, hr⟩ := h
    obtain ⟨_, _, _, _, h5, _⟩ := init_shape h0
    obtain ⟨_, k2, k3, _⟩ := run_keeps (ok := fun _ _ => True) hr
    rw [k2, k3, h5]
  suffices hsuf : ∃ w' b'' l, sys.Run w b l w' b'' ∧ (b'' = b' ∨ n = 0 ∧ b'' = b) ∧ (∀ v ∈ l, v.env = ⟨b', x⟩) ∧
      w'.vm.balanceOf x = w.vm.balanceOf x + n ∧ w'.vm.total = w.vm.total + n ∧ supply w' = supply w ∧
      (owner w' t = some w'.self ∧ w'.self = w.self ∧ w'.coll.addr = w.coll.addr ∧ w'.vm.nft = w.vm.nft ∧
        w'.coll.operators = w.coll.operators) by
    obtain ⟨w', b'', l, h1, h2, h3, h4, h5, h6, _⟩ := hsuf
    exact ⟨w', b'', l, h1, h2, h3, h4, h5, h6⟩
  induction n with
  | zero => exact ⟨w, b, [], .refl, Or.inr ⟨rfl, rfl⟩, by simp, rfl, rfl, rfl, ht, rfl, rfl, rfl, rfl⟩
  | succ n ih =>
    obtain ⟨w1, b1, l, h1, h2, h3, h4, h5, h6, h7, h8, h9, h10, h11⟩ := ih (by omega)
    have hbk : Books w1.vm := books_reach (ok := fun _ _ => True) (h.run h1)
    obtain ⟨w2, out, k1, k2, k3, k4, k5, k6, k7, k8, k9⟩ := again (w := w1) (b := b') (x := x) (t := t) (e := e) (by rw [h8]; exact hx)
      (by rw [h9]; exact hx') (by rw [h9, h10]; exact hnft) (by rw [h11, h8]; exact hop) he h7 hbk (by omega)
    refine ⟨w2, b', ⟨w1, ⟨b', x⟩, .coll (.send w1.self t), out, w2⟩ :: l, ?_, Or.inl rfl, ?_, by omega, by omega, by omega,
      k2, k3.trans h8, k4.trans h9, k5.trans h10, k6.trans h11⟩
    · refine Sys.Run.step (M := sys) (env := ⟨b', x⟩) (call := .coll (.send w1.self t)) (out := out) h1 ?_ k1
      rcases h2 with rfl | ⟨_, rfl⟩
      · exact Block.le_refl _
      · exact hbb
    · intro v hv
      rcases List.mem_cons.1 hv with rfl | hv
      · rfl
      · exact h3 v hv

end Verif.NftDao
