import Verif.Proofs.TokenDao
import Verif.Props.ActiveThreshold
import Verif.Props.WholeDaoModules
/-!
# C88 to C90: a DAO with a token of its own
-/

namespace Verif.TokenDao
open Verif Verif.Spec.TokenDao
open Verif.TokenStaked (afterStake afterUnstake SameMoney MAX_CLAIMS powerAt totalPowerAt)

/-! ## C88: until the DAO acts, nobody has a say over the token -/

/-- Somebody who is neither owner nor offered the ownership cannot do anything with an issuer that gave no allowances and
is not the listener. -/
theorem stranger {s s' : Issuer.State} {here : Addr} {b : Block} {sender : Addr} {m : Issuer.Msg}
    {msgs : List Issuer.ChainMsg} (ho : s.owner.owner ≠ some sender) (hp : s.owner.pendingOwner ≠ some sender)
    (hm : s.minters = []) (hb : s.burners = []) (hf : s.features = false)
    (h : Issuer.exec s here b sender m = .ok (s', msgs)) : False := by
  cases m with
  | allow a x => simp [Issuer.exec, Issuer.execAllow, Issuer.State.checkFeatures, hf] at h
  | deny a x => simp [Issuer.exec, Issuer.execDeny, Issuer.State.checkFeatures, hf] at h
  | freeze x => simp [Issuer.exec, Issuer.execFreeze, Issuer.State.checkFeatures, hf] at h
  | burn src n =>
    have := (Issuer.exec_owner h)
    simp only [hb, getD0, AMap.get] at this
    obtain ⟨h1, h2⟩ := this
    simp at h2; exact h1 h2
  | mint dest n =>
    have := (Issuer.exec_owner h)
    simp only [hm, getD0, AMap.get] at this
    obtain ⟨h1, h2⟩ := this
    simp at h2; exact h1 h2
  | force n src dest => simp [Issuer.exec, Ownership.assertOwner, ho] at h
  | setHook a => simp [Issuer.exec, Ownership.assertOwner, ho] at h
  | setBurner a n => simp [Issuer.exec, Ownership.assertOwner, ho] at h
  | setMinter a n => simp [Issuer.exec, Ownership.assertOwner, ho] at h
  | updateAdmin a => simp [Issuer.exec, Ownership.assertOwner, ho] at h
  | updateOwnership x => cases x <;> simp [Issuer.exec, Ownership.update, Ownership.assertOwner, ho, hp] at h

/-- What the module and the issuer look like before the DAO sends anything to the issuer. -/
structure Quiet (w0 w : World) : Prop where
  st : w.iss.st = w0.iss.st
  here : w.iss.here = w0.iss.here
  denom : w.denom = w0.denom
  addr : w.self = w0.self
  dao : w.vm.dao = w0.vm.dao
  admin : w.iss.chain.admin.get w.denom = some w.iss.here
  hook : w.iss.chain.hook.get w.denom = none
  supply : inCirculation w = inCirculation w0

theorem quiet_init {b : Block} {w : World} (h : Init b w) : Quiet w w := by
  obtain ⟨dao, self, issuer, d, th, h1, h2, h3, hv, hs, hh, hd, hf, ha, hk, hst⟩ := init_shape h
  exact ⟨rfl, rfl, rfl, rfl, rfl, by rw [ha, hh], hk, rfl⟩

/-- Messages to the chain by somebody who does not administer the denomination. -/
theorem run_other {c c' : Issuer.Chain} {s : Issuer.State} {here : Addr} {f : Bool} {who : Addr} {m : Issuer.ChainMsg}
    (h : c.run s here f who m = .ok c') {d : Nat} (ha : c.admin.get d ≠ some who) :
    c'.admin.get d = c.admin.get d ∧ c'.hook.get d = c.hook.get d ∧ supply c' d = supply c d ∧
      ∀ a, a ≠ who → getD0 c.bal (d, a) ≤ getD0 c'.bal (d, a) := by
  have hs := Issuer.run_supply h d
  obtain ⟨k1, k2, k3⟩ := Issuer.run_hook h d
  have hb := fun a (h' : a ≠ who) => run_taken h d (Ne.symm h')
  cases m with
  | send x dest n => exact ⟨k3, k1, hs, fun a h' => by simpa [taken] using hb a h'⟩
  | mint x n =>
    obtain ⟨h1, h2⟩ := hs
    have hx : x ≠ d := fun hx => ha (by rw [← hx]; exact h2)
    rw [if_neg hx] at h1
    exact ⟨k3, k1, h1, fun a h' => by simpa [taken] using hb a h'⟩
  | burn x n src =>
    obtain ⟨h1, h2⟩ := hs
    have hx : x ≠ d := fun hx => ha (by rw [← hx]; exact h2)
    rw [if_neg hx] at h1
    exact ⟨k3, k1, h1, fun a h' => by simpa [taken, hx] using hb a h'⟩
  | changeAdmin x y =>
    have hx : x ≠ d := fun hx => ha (by
      simp only [Issuer.Chain.run, bind_ok, Issuer.Chain.assertAdmin, require_ok, decide_eq_true_eq] at h
      obtain ⟨_, h, _⟩ := h; rw [← hx]; exact h)
    simp only [if_neg hx] at k3
    exact ⟨k3, k1, hs, fun a h' => by simpa [taken] using hb a h'⟩
  | setHook x y =>
    have hx : x ≠ d := fun hx => ha (by rw [← hx]; exact k2 x y rfl)
    simp only [if_neg hx] at k1
    exact ⟨k3, k1, hs, fun a h' => by simpa [taken] using hb a h'⟩
  | force x n src dest =>
    have hx : x ≠ d := fun hx => ha (by
      simp only [Issuer.Chain.run, bind_ok, Issuer.Chain.assertAdmin, require_ok, decide_eq_true_eq] at h
      obtain ⟨_, h, _⟩ := h; rw [← hx]; exact h)
    exact ⟨k3, k1, hs, fun a h' => by simpa [taken, hx] using hb a h'⟩

/-- One step of such a history. -/
theorem quiet_step {b0 : Block} {w0 w w' : World} {e : Issuer.Env} {call : Call} {out : TokenStaked.Out} (h0 : Init b0 w0)
    (hq : Quiet w0 w) (hs : step w e call = .ok (w', out)) (hsil : ∀ m, call = .issuer m → e.sender ≠ w0.vm.dao) :
    Quiet w0 w' ∧ (∀ m, call ≠ .issuer m) ∧
      (∀ a, a ≠ e.sender → a ≠ w.self → holds w a ≤ holds w' a) ∧
      (e.sender ≠ w0.vm.dao → w'.vm.threshold = w.vm.threshold ∧ w'.vm.unstakingDuration = w.vm.unstakingDuration) := by
  obtain ⟨dao, self, issuer, d, th, h1, h2, h3, hv, hself, hh, hd, hf, _, _, hst⟩ := init_shape h0
  have heff := step_effect hs
  clear hs
  have hdao : w0.vm.dao = dao := by rw [hv]; rfl
  cases heff with
  | issuer m iss ha hs hsup =>
    exfalso
    obtain ⟨msgs, hx, _, _⟩ := Issuer.step_exec hs
    have hne : e.sender ≠ dao := by rw [← hdao]; exact hsil m rfl
    have hne' : e.sender ≠ self := by rw [← hself, ← hq.addr]; exact ha
    rw [hq.st] at hx
    rcases hst with hst | hst <;> rw [hst] at hx
    · exact stranger (by simp [Issuer.instantiate, Ne.symm hne]) (by simp [Issuer.instantiate]) rfl rfl rfl hx
    · exact stranger (by simp [offered, Ne.symm hne']) (by simp [offered, Ne.symm hne]) rfl rfl rfl hx
  | chain m iss ha hs hsup =>
    obtain ⟨c1, c2, c3, c4⟩ := Issuer.step_chain hs
    obtain ⟨r1, r2, r3, r4⟩ := run_other c2 (d := w.denom) (by rw [hq.admin]; simpa using Ne.symm c1)
    refine ⟨⟨c3.trans hq.st, c4.trans hq.here, hq.denom, hq.addr, hq.dao, ?_, ?_, ?_⟩, by simp, ?_, fun _ => ⟨rfl, rfl⟩⟩
    · show iss.chain.admin.get w.denom = some iss.here
      rw [r1, c4]; exact hq.admin
    · exact r2.trans hq.hook
    · exact r3.trans hq.supply
    · intro a ha' _
      exact r4 a ha'
  | stake n ch ha hn ht =>
    obtain ⟨bal, hm, hch⟩ := ht.get
    refine ⟨⟨hq.st, hq.here, hq.denom, hq.addr, hq.dao, ?_, ?_, ?_⟩, by simp, ?_, fun _ => ⟨rfl, rfl⟩⟩
    · show ch.admin.get w.denom = some w.iss.here
      rw [hch]; exact hq.admin
    · show ch.hook.get w.denom = none
      rw [hch]; exact hq.hook
    · exact (ht.supply _).trans hq.supply
    · intro a h1 h2
      have := (ht.holds ha a).2
      rw [if_neg h1, if_neg h2] at this
      exact this.symm.le
  | payout n ch out ha hn hs htot hd ht =>
    obtain ⟨bal, hm, hch⟩ := ht.get
    refine ⟨⟨hq.st, hq.here, hq.denom, hq.addr, hq.dao, ?_, ?_, ?_⟩, by simp, ?_, fun _ => ⟨rfl, rfl⟩⟩
    · show ch.admin.get w.denom = some w.iss.here
      rw [hch]; exact hq.admin
    · show ch.hook.get w.denom = none
      rw [hch]; exact hq.hook
    · exact (ht.supply _).trans hq.supply
    · intro a h1 h2
      have := (ht.holds (Ne.symm ha) a).2
      rw [if_neg h2, if_neg h1] at this
      exact this.symm.le
  | unbond n d out ha hn hs htot hd hlen =>
    exact ⟨⟨hq.st, hq.here, hq.denom, hq.addr, hq.dao, hq.admin, hq.hook, hq.supply⟩, by simp, fun a _ _ => Nat.le_refl _,
      fun _ => ⟨rfl, rfl⟩⟩
  | claim n cl ch ha hc hn ht =>
    obtain ⟨bal, hm, hch⟩ := ht.get
    refine ⟨⟨hq.st, hq.here, hq.denom, hq.addr, hq.dao, ?_, ?_, ?_⟩, by simp, ?_, fun _ => ⟨rfl, rfl⟩⟩
    · show ch.admin.get w.denom = some w.iss.here
      rw [hch]; exact hq.admin
    · show ch.hook.get w.denom = none
      rw [hch]; exact hq.hook
    · exact (ht.supply _).trans hq.supply
    · intro a h1 h2
      have := (ht.holds (Ne.symm ha) a).2
      rw [if_neg h2, if_neg h1] at this
      exact this.symm.le
  | admin m c ha hs hm =>
    refine ⟨⟨hq.st, hq.here, hq.denom, hq.addr, hs.dao.trans hq.dao, hq.admin, hq.hook, hq.supply⟩, by simp,
      fun a _ _ => Nat.le_refl _, ?_⟩
    intro hne
    rw [hq.dao] at ha
    exact absurd ha hne

theorem quiet_run {b0 b : Block} {w0 w : World} {log : List Event} (h0 : Init b0 w0) (hr : sys.Run w0 b0 log w b)
    (hsil : Silent w0.vm.dao log) : Quiet w0 w := by
  induction hr with
  | refl => exact quiet_init h0
  | step hr hb hs ih =>
    exact (quiet_step h0 (ih (fun e he => hsil e (List.mem_cons_of_mem _ he))) hs
      (fun m hm => hsil _ List.mem_cons_self m hm)).1

/-- **C88.** As long as the DAO sends nothing to the issuer, nobody else gets a message through to it: its owner, its
allowances and its lists stay as they were made, the issuer keeps administering the denomination, which gets no listener,
and the supply does not change. In such a history an account is only ever debited by its own transactions, or it is the
voting module's and pays out. -/
theorem C88_untouched {b0 b : Block} {w0 w : World} {log : List Event} (h0 : Init b0 w0) (hr : sys.Run w0 b0 log w b)
    (hsil : Silent w0.vm.dao log) :
    w.iss.st = w0.iss.st ∧ w.iss.chain.admin.get w.denom = some w.iss.here ∧ w.iss.chain.hook.get w.denom = none ∧
    inCirculation w = inCirculation w0 ∧ w.denom = w0.denom ∧ w.self = w0.self ∧
    (∀ e ∈ log, ∀ m, e.call ≠ .issuer m) ∧
    (∀ e ∈ log, ∀ a, a ≠ e.env.sender → a ≠ w0.self → holds e.pre a ≤ holds e.post a) := by
  have hq := quiet_run h0 hr hsil
  have hev : ∀ e ∈ log, (∀ m, e.call ≠ .issuer m) ∧
      ∀ a, a ≠ e.env.sender → a ≠ w0.self → holds e.pre a ≤ holds e.post a := by
    intro e he
    obtain ⟨l1, l2, b1, rfl, hrun, hb, hs, hrest⟩ := hr.event e he
    have hq1 := quiet_run h0 hrun (fun x hx => hsil x (by simp [hx]))
    obtain ⟨_, q2, q3, _⟩ := quiet_step h0 hq1 hs (fun m hm => hsil e he m hm)
    exact ⟨q2, fun a h1 h2 => q3 a h1 (by rw [hq1.addr]; exact h2)⟩
  exact ⟨hq.st, hq.admin, hq.hook, hq.supply, hq.denom, hq.addr, fun e he => (hev e he).1, fun e he => (hev e he).2⟩

/-- **C88.** After a replacement: as long as the DAO does not accept the ownership it was offered, none of its messages to
the issuer gets through either. -/
theorem C88_waiting {name : Addr → Nat → Nat} {b0 b : Block} {c : Issuer.Chain} {dao self issuer : Addr}
    {d : Option Duration} {th : Option Active.ActiveThreshold} {t : NewToken} {w0 w : World} {log : List Event}
    (hne : dao ≠ self ∧ dao ≠ issuer ∧ self ≠ issuer) (h : replace name b0 c dao self issuer d th t = .ok w0)
    (hr : sys.Run w0 b0 log w b)
    (hacc : ∀ e ∈ log, e.env.sender = dao → e.call ≠ .issuer (.updateOwnership .accept)) :
    (∀ e ∈ log, ∀ m, e.call ≠ .issuer m) ∧ owner w = some self := by
  have h0 : Init b0 w0 := ⟨name, c, dao, self, issuer, d, th, t, hne.1, hne.2.1, hne.2.2, Or.inr h⟩
  obtain ⟨_, hm, hst⟩ := newModule_forward h
  have hdao : w0.vm.dao = dao := by rw [hm.vm]; rfl
  have key : Silent w0.vm.dao log := by
    induction hr with
    | refl => intro e he; cases he
    | @step w1 w2 b1 l env call out hr hb hs ih =>
      have ihs := ih (fun e he => hacc e (List.mem_cons_of_mem _ he))
      have hq := quiet_run h0 hr ihs
      intro e he m hm' hx
      rcases List.mem_cons.1 he with rfl | he
      · simp only at hm' hx
        subst hm'
        replace hs : step w1 env (.issuer m) = .ok (w2, out) := hs
        obtain ⟨ha, iss, hi, _, _, _⟩ := stepIss_inv hs
        obtain ⟨msgs, hex, _, _⟩ := Issuer.step_exec hi
        rw [hq.st, hst] at hex
        rw [hdao] at hx
        have hacc' := hacc _ List.mem_cons_self hx
        simp only at hacc'
        cases m with
        | updateOwnership x =>
          cases x with
          | accept => exact hacc' rfl
          | transfer n ex => simp [Issuer.exec, Ownership.update, Ownership.assertOwner, offered, hx, Ne.symm hne.1] at hex
          | renounce => simp [Issuer.exec, Ownership.update, Ownership.assertOwner, offered, hx, Ne.symm hne.1] at hex
        | allow a x => simp [Issuer.exec, Issuer.execAllow, Issuer.State.checkFeatures, offered, Issuer.instantiate] at hex
        | deny a x => simp [Issuer.exec, Issuer.execDeny, Issuer.State.checkFeatures, offered, Issuer.instantiate] at hex
        | freeze x => simp [Issuer.exec, Issuer.execFreeze, Issuer.State.checkFeatures, offered, Issuer.instantiate] at hex
        | burn src n =>
          obtain ⟨h1, h2⟩ := Issuer.exec_owner hex
          simp [offered, Issuer.instantiate, getD0, AMap.get] at h2
          exact h1 h2
        | mint src n =>
          obtain ⟨h1, h2⟩ := Issuer.exec_owner hex
          simp [offered, Issuer.instantiate, getD0, AMap.get] at h2
          exact h1 h2
        | force n src dest => simp [Issuer.exec, Ownership.assertOwner, offered, hx, Ne.symm hne.1] at hex
        | setHook a => simp [Issuer.exec, Ownership.assertOwner, offered, hx, Ne.symm hne.1] at hex
        | setBurner a n => simp [Issuer.exec, Ownership.assertOwner, offered, hx, Ne.symm hne.1] at hex
        | setMinter a n => simp [Issuer.exec, Ownership.assertOwner, offered, hx, Ne.symm hne.1] at hex
        | updateAdmin a => simp [Issuer.exec, Ownership.assertOwner, offered, hx, Ne.symm hne.1] at hex
      · exact ihs e he m hm' hx
  obtain ⟨h1, _, _, _, _, _, h2, _⟩ := C88_untouched h0 hr key
  exact ⟨h2, by unfold owner; rw [h1, hst]; rfl⟩

/-- **C88.** The DAO can accept at any time, and then owns the issuer, with nothing else changed. -/
theorem C88_accepts {name : Addr → Nat → Nat} {b0 b b' : Block} {c : Issuer.Chain} {dao self issuer : Addr}
    {d : Option Duration} {th : Option Active.ActiveThreshold} {t : NewToken} {w0 w : World} {log : List Event}
    (hne : dao ≠ self ∧ dao ≠ issuer ∧ self ≠ issuer) (h : replace name b0 c dao self issuer d th t = .ok w0)
    (hr : sys.Run w0 b0 log w b)
    (hacc : ∀ e ∈ log, e.env.sender = dao → e.call ≠ .issuer (.updateOwnership .accept)) :
    ∃ w', step w { block := b', sender := dao } (.issuer (.updateOwnership .accept)) = .ok (w', {}) ∧
      owner w' = some dao ∧ w'.iss.chain = w.iss.chain ∧ w'.vm = w.vm := by
  have h0 : Init b0 w0 := ⟨name, c, dao, self, issuer, d, th, t, hne.1, hne.2.1, hne.2.2, Or.inr h⟩
  obtain ⟨hw, _⟩ := C88_waiting hne h hr hacc
  obtain ⟨_, hm, hst⟩ := newModule_forward h
  have hsil : Silent w0.vm.dao log := fun e he m hm' => absurd hm' (hw e he m)
  have hq := quiet_run h0 hr hsil
  have hfit := (inv_reach ⟨b0, w0, h0, hr⟩).fits
  obtain ⟨⟨here, st, ch⟩, vm, dn, sf⟩ := w
  have e1 : st = offered self (name issuer t.subdenom) dao := by rw [← hst]; exact hq.st
  have e2 : sf = self := by rw [← hm.addr]; exact hq.addr
  subst e1 e2
  refine ⟨⟨⟨here, Issuer.instantiate dao (name issuer t.subdenom), ch⟩, vm, dn, sf⟩, ?_, rfl, rfl, rfl⟩
  simp only at hfit
  simp only [step, stepIss, accept_step, ok_bind, require, hne.1, ne_eq, not_false_eq_true, decide_true, if_true, hfit]

end Verif.TokenDao
