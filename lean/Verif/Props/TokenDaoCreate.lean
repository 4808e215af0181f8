import Verif.Proofs.TokenDaoCreate
/-!
# C88: a DAO created with a new token owns it
-/

namespace Verif.TokenDao
open Verif Verif.Spec.TokenDao

variable {name : Addr → Nat → Nat} {b : Block} {c : Issuer.Chain} {dao self issuer : Addr} {d : Option Duration}
  {th : Option Active.ActiveThreshold} {t : NewToken} {w : World}

/-- The issuer when the voting module is done with it. -/
def offered (self denom dao : Nat) : Issuer.State :=
  { Issuer.instantiate self denom with owner := ⟨some self, some dao, none⟩ }

theorem offer_step {denom here : Nat} {c : Issuer.Chain} :
    Issuer.step ⟨here, mid self denom 0, c⟩ { block := b, sender := self } (.exec (.updateOwnership (.transfer dao none))) =
      .ok (⟨here, offered self denom dao, c⟩, ()) := by
  simp [Issuer.step, Issuer.exec, Ownership.update, Ownership.assertOwner, mid, Issuer.instantiate, offered,
    Issuer.setAllowance, AMap.erase, Issuer.Chain.runAll]

theorem accept_step {denom here : Nat} {c : Issuer.Chain} :
    Issuer.step ⟨here, offered self denom dao, c⟩ { block := b, sender := dao } (.exec (.updateOwnership .accept)) =
      .ok (⟨here, Issuer.instantiate dao denom, c⟩, ()) := by
  simp [Issuer.step, Issuer.exec, Ownership.update, Ownership.expired, Issuer.instantiate, offered,
    Issuer.Chain.runAll]

theorem grant_step {denom here r : Nat} {c : Issuer.Chain} :
    Issuer.step ⟨here, Issuer.instantiate self denom, c⟩ { block := b, sender := self } (.exec (.setMinter self r)) =
      .ok (⟨here, mid self denom r, c⟩, ()) := by
  simp [Issuer.step, Issuer.exec, Ownership.assertOwner, mid, Issuer.instantiate, Issuer.Chain.runAll]

theorem newIssuer_ok {here sub : Nat} {w : Issuer.World} :
    newIssuer name c self here sub = .ok w ↔
      (c.admin.get (name here sub) = none ∧ c.hook.get (name here sub) = none ∧ supply c (name here sub) = 0) ∧
      w = ⟨here, Issuer.instantiate self (name here sub), { c with admin := c.admin.set (name here sub) here }⟩ := by
  simp only [newIssuer, createDenom, bind_ok, require_ok, decide_eq_true_eq, Except.ok.injEq]
  constructor
  · rintro ⟨_, ⟨_, h, rfl⟩, rfl⟩; exact ⟨h, rfl⟩
  · rintro ⟨h, rfl⟩; exact ⟨_, ⟨(), h, rfl⟩, rfl⟩

/-- The conditions for the creation. -/
def Acceptable (name : Addr → Nat → Nat) (c : Issuer.Chain) (issuer : Addr) (d : Option Duration)
    (th : Option Active.ActiveThreshold) (t : NewToken) : Prop :=
  Lasting d ∧ Sensible th (sumOf t.balances) ∧ sumOf t.balances ≠ 0 ∧ (∀ x ∈ t.balances, x.2 ≠ 0) ∧
    sumOf t.balances + t.daoBalance.getD 0 < U128 ∧
    c.admin.get (name issuer t.subdenom) = none ∧ c.hook.get (name issuer t.subdenom) = none ∧
    supply c (name issuer t.subdenom) = 0

/-- What the creation leaves. -/
structure Made (name : Addr → Nat → Nat) (c : Issuer.Chain) (dao mod issuer : Addr) (d : Option Duration)
    (th : Option Active.ActiveThreshold) (t : NewToken) (w : World) : Prop where
  vm : w.vm = fresh dao d th
  addr : w.self = mod
  denom : w.denom = name issuer t.subdenom
  here : w.iss.here = issuer
  chain : ∃ bal, w.iss.chain = { c with admin := c.admin.set (name issuer t.subdenom) issuer, bal := bal }
  bal : ∀ x q, getD0 w.iss.chain.bal (x, q) =
    getD0 c.bal (x, q) + if x = name issuer t.subdenom then promised t dao q else 0
  supply : ∀ x, supply w.iss.chain x =
    supply c x + if x = name issuer t.subdenom then sumOf t.balances + t.daoBalance.getD 0 else 0

theorem promised_eq (t : NewToken) (dao a : Addr) : promised t dao a = listed (allMints dao t) a := by
  unfold promised allMints
  rw [listed_append, listed_daoMint]

theorem newModule_forward (h : newModule name b c dao self issuer d th t = .ok w) :
    Acceptable name c issuer d th t ∧ Made name c dao self issuer d th t w ∧
      w.iss.st = offered self (name issuer t.subdenom) dao := by
  simp only [newModule, bind_ok, Except.ok.injEq, instantiate_ok, newIssuer_ok, setupMsgs_ok] at h
  obtain ⟨_, ⟨h1, h2, rfl⟩, _, ⟨h3, rfl⟩, _, ⟨h4, h5, h6, rfl⟩, iss, hs, rfl⟩ := h
  simp only [sendAll, grant_step, ok_bind] at hs
  rw [sendAll_append, bind_ok] at hs
  obtain ⟨w1, hm, ho⟩ := hs
  obtain ⟨m1, m2, m3, m4, ⟨bal, m5⟩, m6, m7⟩ := mints_forward _ hm
  have hsum : sumOf (allMints dao t) = sumOf t.balances + t.daoBalance.getD 0 := by
    unfold allMints
    rw [sumOf_append, sumOf_daoMint]
  obtain ⟨here1, st1, c1⟩ := w1
  simp only [fresh] at m1 m2 m3 m4 m5 m6 m7 ho h6
  rw [hsum, Nat.sub_self] at m4
  subst m3 m4
  simp only [sendAll, offer_step, ok_bind, Except.ok.injEq] at ho
  subst ho
  refine ⟨⟨h1, sensible_iff.2 ⟨h2, h6⟩, h5, ?_, h4, h3⟩, ⟨rfl, rfl, rfl, rfl, ⟨bal, m5⟩, ?_, ?_⟩, rfl⟩
  · intro x hx
    exact m1 x (List.mem_append_left _ hx)
  · intro x q
    simp only
    rw [m6, promised_eq]
  · intro x
    simp only
    rw [m7, hsum]
    rfl

theorem newModule_runs (h : Acceptable name c issuer d th t) :
    ∃ w, newModule name b c dao self issuer d th t = .ok w := by
  obtain ⟨h1, h2, h5, h7, h4, h3⟩ := h
  obtain ⟨h2, h6⟩ := sensible_iff.1 h2
  have hsum : sumOf (allMints dao t) = sumOf t.balances + t.daoBalance.getD 0 := by
    unfold allMints
    rw [sumOf_append, sumOf_daoMint]
  obtain ⟨w1, hm⟩ := mints_run (self := self) (denom := name issuer t.subdenom) (here := issuer) (b := b) (allMints dao t)
    (r := sumOf t.balances + t.daoBalance.getD 0)
    (c := { c with admin := c.admin.set (name issuer t.subdenom) issuer })
    (by
      intro x hx
      rcases List.mem_append.1 hx with hx | hx
      · exact h7 x hx
      · exact daoMint_ne hx)
    (by omega) (AMap.get_set_self _ _ _) h3.2.1
    (by
      have hz : supply { c with admin := c.admin.set (name issuer t.subdenom) issuer } (name issuer t.subdenom) =
        supply c (name issuer t.subdenom) := rfl
      rw [hz, h3.2.2]; omega)
  obtain ⟨m1, m2, m3, m4, _, _, _⟩ := mints_forward _ hm
  obtain ⟨here1, st1, c1⟩ := w1
  simp only at m3 m4
  rw [hsum, Nat.sub_self] at m4
  subst m3 m4
  refine ⟨⟨⟨here1, offered self (name here1 t.subdenom) dao, c1⟩, fresh dao d th, name here1 t.subdenom, self⟩, ?_⟩
  rw [newModule, instantiate_ok.2 ⟨h1, h2, rfl⟩, ok_bind, newIssuer_ok.2 ⟨h3, rfl⟩, ok_bind,
    setupMsgs_ok.2 ⟨h4, h5, h6, rfl⟩, ok_bind]
  simp only [sendAll, grant_step, ok_bind, fresh]
  rw [sendAll_append, hm, ok_bind]
  simp only [sendAll, offer_step, ok_bind]

theorem callback_forward (h : create name b c dao self issuer d th t = .ok w) :
    Acceptable name c issuer d th t ∧ Made name c dao self issuer d th t w ∧
      w.iss.st = Issuer.instantiate dao (name issuer t.subdenom) := by
  simp only [create, bind_ok] at h
  obtain ⟨w0, h0, h⟩ := h
  obtain ⟨ha, hm, hst⟩ := newModule_forward h0
  obtain ⟨⟨here, st, ch⟩, vm, dn, sf⟩ := w0
  simp only at hst
  subst hst
  have hd : vm.dao = dao := by have := hm.vm; simp only at this; rw [this]; rfl
  simp only [callback, hd, accept_step, ok_bind, Except.ok.injEq] at h
  subst h
  exact ⟨ha, ⟨hm.vm, hm.addr, hm.denom, hm.here, hm.chain, hm.bal, hm.supply⟩, rfl⟩

/-- **C88.** When a DAO has been created with a new token: everybody holds exactly what the message lists for them, the DAO
its own balance on top, and that is all there is; no other token is touched. The DAO owns the issuer, which administers
the token; nobody may mint or burn, nobody is offered the ownership, nothing is frozen, nobody denied, no listener set. The
module votes with this token, under the settings of the message, and nothing is staked. -/
theorem C88_created (h : create name b c dao self issuer d th t = .ok w) :
    (∀ a, holds w a = promised t dao a) ∧
    inCirculation w = sumOf t.balances + t.daoBalance.getD 0 ∧
    (∀ x a, x ≠ w.denom → getD0 w.iss.chain.bal (x, a) = getD0 c.bal (x, a)) ∧
    owner w = some dao ∧ w.iss.st.owner.pendingOwner = none ∧
    w.iss.here = issuer ∧ w.iss.st.denom = w.denom ∧ w.iss.chain.admin.get w.denom = some issuer ∧
    (∀ a, w.iss.st.mintAllowance a = 0 ∧ w.iss.st.burnAllowance a = 0 ∧ w.iss.st.isDenied a = false) ∧
    w.iss.st.frozen = false ∧ w.iss.chain.hook.get w.denom = none ∧
    w.vm.dao = dao ∧ w.vm.unstakingDuration = d ∧ w.vm.threshold = th ∧ w.vm.total = 0 ∧
    (∀ a, w.vm.stakedOf a = 0) ∧ w.vm.claims = [] := by
  obtain ⟨ha, hm, hst⟩ := callback_forward h
  obtain ⟨_, _, _, _, _, hf1, hf2, hf3⟩ := ha
  obtain ⟨bal, hch⟩ := hm.chain
  refine ⟨?_, ?_, ?_, ?_, ?_, hm.here, ?_, ?_, ?_, ?_, ?_, ?_, ?_, ?_, ?_, ?_, ?_⟩
  · intro a
    unfold holds
    rw [hm.bal, hm.denom, if_pos rfl]
    have := holds_le_supply c (name issuer t.subdenom) a
    omega
  · unfold inCirculation
    rw [hm.supply, hm.denom, if_pos rfl, hf3, Nat.zero_add]
  · intro x a hx
    rw [hm.denom] at hx
    rw [hm.bal, if_neg hx]
    rfl
  · unfold owner; rw [hst]; rfl
  · rw [hst]; rfl
  · rw [hst, hm.denom]; rfl
  · rw [hch, hm.denom]; exact AMap.get_set_self _ _ _
  · intro a; rw [hst]; exact ⟨rfl, rfl, rfl⟩
  · rw [hst]; rfl
  · rw [hch, hm.denom]; exact hf2
  all_goals rw [hm.vm]
  all_goals first | rfl | (intro a; rfl)

/-- **C88.** The creation goes through exactly if the unstaking duration is none or positive, the threshold makes sense
for the coins handed out, some are, no listed amount is zero, the supply fits, and the denomination is new. -/
theorem C88_creates_iff : (∃ w, create name b c dao self issuer d th t = .ok w) ↔ Acceptable name c issuer d th t := by
  constructor
  · rintro ⟨w, h⟩; exact (callback_forward h).1
  · intro h
    obtain ⟨w0, h0⟩ := newModule_runs (name := name) (b := b) (c := c) (dao := dao) (self := self) h
    obtain ⟨_, hm, hst⟩ := newModule_forward h0
    obtain ⟨⟨here, st, ch⟩, vm, dn, sf⟩ := w0
    simp only at hst
    subst hst
    have hd : vm.dao = dao := by have := hm.vm; simp only at this; rw [this]; rfl
    refine ⟨⟨⟨here, Issuer.instantiate dao (name issuer t.subdenom), ch⟩, vm, dn, sf⟩, ?_⟩
    rw [create, h0, ok_bind]
    simp only [callback, hd, accept_step, ok_bind]

/-- **C88.** A DAO that replaces its voting module by one with a new token gets the same, with one difference: the voting
module still owns the issuer, and the DAO is only offered the ownership. -/
theorem C88_replaced (h : replace name b c dao self issuer d th t = .ok w) :
    (∀ a, holds w a = promised t dao a) ∧
    inCirculation w = sumOf t.balances + t.daoBalance.getD 0 ∧
    owner w = some self ∧ w.iss.st.owner.pendingOwner = some dao ∧ w.iss.st.owner.pendingExpiry = none ∧
    w.iss.st.denom = w.denom ∧ w.iss.chain.admin.get w.denom = some issuer ∧
    (∀ a, w.iss.st.mintAllowance a = 0 ∧ w.iss.st.burnAllowance a = 0 ∧ w.iss.st.isDenied a = false) ∧
    w.iss.chain.hook.get w.denom = none ∧ w.self = self ∧ w.vm.dao = dao := by
  obtain ⟨ha, hm, hst⟩ := newModule_forward h
  obtain ⟨_, _, _, _, _, hf1, hf2, hf3⟩ := ha
  obtain ⟨bal, hch⟩ := hm.chain
  refine ⟨?_, ?_, ?_, ?_, ?_, ?_, ?_, ?_, ?_, hm.addr, ?_⟩
  · intro a
    unfold holds
    rw [hm.bal, hm.denom, if_pos rfl]
    have := holds_le_supply c (name issuer t.subdenom) a
    omega
  · unfold inCirculation
    rw [hm.supply, hm.denom, if_pos rfl, hf3, Nat.zero_add]
  · unfold owner; rw [hst]; rfl
  · rw [hst]; rfl
  · rw [hst]; rfl
  · rw [hst, hm.denom]; rfl
  · rw [hch, hm.denom]; exact AMap.get_set_self _ _ _
  · intro a; rw [hst]; exact ⟨rfl, rfl, rfl⟩
  · rw [hch, hm.denom]; exact hf2
  · rw [hm.vm]; rfl

end Verif.TokenDao
