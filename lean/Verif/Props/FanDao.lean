import Verif.Proofs.FanDao
import Verif.Props.TokenDaoActive
/-!
# C115: a DAO with a fan token
-/

namespace Verif.FanDao
open Verif Verif.Spec.FanDao
open Verif.Spec.FanToken (listed share minted)
open Verif.Spec.TokenDao (Lasting Sensible Met)
open Verif.TokenStaked (MAX_CLAIMS)
open Verif.Cw20Stake (hookMsgs validateDuration)

/-! ## Creation -/

/-- What the creation leaves. -/
structure Made (c : FanToken.World) (dao mod : Addr) (d : Option Duration) (th : Option Active.ActiveThreshold)
    (denom : Nat) (t : FanToken.NewToken) (w : World) : Prop where
  inst : TokenStaked.instantiate dao d th = .ok w.vm
  daoIs : w.vm.dao = dao
  threshold : w.vm.threshold = th
  duration : w.vm.unstakingDuration = d
  nothing : w.vm.total = 0
  addr : w.self = mod
  den : w.denom = denom
  fresh : c.tokens.get denom = none
  token : w.chain.tokens.get denom = some ⟨dao, dao, t.max, minted t⟩
  bal : ∀ q, getD0 w.chain.bal (denom, q) = share t dao q
  other : ∀ x q, x ≠ denom → getD0 w.chain.bal (x, q) = getD0 c.bal (x, q)
  nz : ∀ x ∈ t.initial, x.2 ≠ 0
  le : minted t ≤ t.max
  supply : supply w.chain.bal denom = minted t
  reply : TokenStaked.replyFactory w.vm (minted t) (share t dao dao) = .ok ()
  tally : Tally w.chain

theorem fresh_vm {dao : Addr} {d : Option Duration} {th : Option Active.ActiveThreshold} {vm : TokenStaked.State}
    (h : TokenStaked.instantiate dao d th = .ok vm) :
    validateDuration d = .ok () ∧ TokenStaked.checkPercentage th = .ok () ∧ vm.dao = dao ∧ vm.threshold = th ∧
      vm.unstakingDuration = d ∧ vm.total = 0 := by
  simp only [TokenStaked.instantiate, bind_ok, Except.ok.injEq] at h
  obtain ⟨_, h1, _, h2, rfl⟩ := h
  exact ⟨h1, h2, rfl, rfl, rfl, rfl⟩

theorem create_forward {c : FanToken.World} {b b' : Block} {log : List Spec.FanToken.Event} {dao self : Addr}
    {d : Option Duration} {th : Option Active.ActiveThreshold} {denom : Nat} {t : FanToken.NewToken} {w : World}
    (hc : FanToken.sys.Reach c b' log) (h : create c b dao self d th denom t = .ok w) : Made c dao self d th denom t w := by
  simp only [create, bind_ok, Prod.exists, Except.ok.injEq] at h
  obtain ⟨vm, h1, c', u, h2, _, h3, rfl⟩ := h
  obtain ⟨_, _, f3, f4, f5, f6⟩ := fresh_vm h1
  obtain ⟨dao', g1, g2, g3, g4, g5, g6, g7, g8, g9⟩ := FanToken.factory_does h2
  simp only [Option.some.injEq] at g1 g2 g5 g6 g8
  have hd : dao' = dao := by rw [← g1, f3]
  subst hd
  have hu := (FanToken.unissued hc).2
  have ht := (tally_step h2 (tally_reach hc)).1
  have hb : ∀ q, getD0 c'.bal (denom, q) = share t dao' q := fun q => by rw [g6 q, hu _ q g2, Nat.zero_add]
  have hs : supply c'.bal denom = minted t := by rw [ht denom, g5]
  refine ⟨h1, f3, f4, f5, f6, rfl, rfl, g2, g5, hb, fun x q hx => g8 x q hx, g3, g4, hs, ?_, ht⟩
  rw [hs, hb, f3] at h3
  exact h3

theorem Made.inv {c : FanToken.World} {dao self : Addr} {d : Option Duration} {th : Option Active.ActiveThreshold}
    {denom : Nat} {t : FanToken.NewToken} {w : World} (h : Made c dao self d th denom t w) (hm : t.max < U128) :
    Inv w t.max :=
  ⟨h.tally, ⟨_, by rw [h.den]; exact h.token, rfl, h.le⟩, hm⟩

theorem Made.init {c : FanToken.World} {dao self : Addr} {d : Option Duration} {th : Option Active.ActiveThreshold}
    {denom : Nat} {t : FanToken.NewToken} {w : World} (h : Made c dao self d th denom t w) (hm : t.max < U128) (b : Block) :
    TokenStaked.sys.init b (proj w) := by
  have hs : Verif.total (ledgerOf w.denom w.chain.bal) = minted t := by rw [h.den]; exact h.supply
  refine ⟨dao, d, th, h.inst, .factory ?_, ?_⟩
  · simp only [proj]
    rw [hs, ledgerOf_get, h.den, h.daoIs, h.bal]
    exact h.reply
  · simp only [proj]
    rw [hs]
    exact Nat.lt_of_le_of_lt h.le hm

/-- The amounts of a list are those for an address and those for others. -/
theorem listed_others (dao : Addr) (l : List (Addr × Nat)) :
    (l.map Prod.snd).sum = listed l dao + forOthers dao l := by
  induction l with
  | nil => rfl
  | cons x l ih =>
    rw [FanToken.listed_cons]
    unfold forOthers at ih ⊢
    by_cases h : x.1 = dao
    · simp only [List.map_cons, List.sum_cons, ih, h, if_true]
      rw [List.filter_cons_of_neg (by simp [h])]
      omega
    · simp only [List.map_cons, List.sum_cons, ih, if_neg h]
      rw [List.filter_cons_of_pos (by simpa using h)]
      simp only [List.map_cons, List.sum_cons]
      omega

theorem minted_others (dao : Addr) (t : FanToken.NewToken) : minted t = share t dao dao + forOthers dao t.initial := by
  unfold minted share
  rw [listed_others dao, if_pos rfl]
  omega

/-- The checks of the module, in words. -/
theorem checks {d : Option Duration} {th : Option Active.ActiveThreshold} {n : Nat} :
    (validateDuration d = .ok () ∧ TokenStaked.checkPercentage th = .ok () ∧ TokenStaked.checkCount th n = .ok ()) ↔
      Lasting d ∧ Sensible th n := by
  have h1 : validateDuration d = .ok () ↔ Lasting d := by
    cases d with
    | none => simp [validateDuration, Lasting]
    | some x => cases x <;> simp [validateDuration, Lasting, require, Nat.pos_iff_ne_zero]
  have h2 : (TokenStaked.checkPercentage th = .ok () ∧ TokenStaked.checkCount th n = .ok ()) ↔ Sensible th n := by
    cases th with
    | none => simp [TokenStaked.checkPercentage, TokenStaked.checkCount, Sensible]
    | some x =>
      cases x with
      | absolute k =>
        simp only [TokenStaked.checkPercentage, TokenStaked.checkCount, Sensible, Active.assertValidCount, bind_ok,
          require_ok, decide_eq_true_eq, exists_const, true_and]
        omega
      | percentage p =>
        simp only [TokenStaked.checkPercentage, TokenStaked.checkCount, Sensible, Active.assertValidPercentage, bind_ok,
          require_ok, decide_eq_true_eq, exists_const, and_true]
        omega
  rw [h1, h2]

variable {c : FanToken.World} {b0 b b' : Block} {dao self : Addr} {d : Option Duration}
  {th : Option Active.ActiveThreshold} {denom : Nat} {t : FanToken.NewToken} {w0 w : World} {log : List Event}
  {clog : List Spec.FanToken.Event}

/-- **C115.** When a DAO has been created with a fan token, the DAO may mint it and is its authority, there is as much of
it as was asked for, everybody has what the list and the balance for the DAO give them, and nobody's other coins have
changed. -/
theorem C115_created (hc : FanToken.sys.Reach c b' clog) (h : create c b dao self d th denom t = .ok w) :
    w.chain.tokens.get w.denom = some { authority := dao, minter := dao, max := t.max, supply := minted t } ∧
    inCirculation w = minted t ∧ minted t ≤ t.max ∧ (∀ q, holds w q = share t dao q) ∧
    (∀ x q, x ≠ w.denom → getD0 w.chain.bal (x, q) = getD0 c.bal (x, q)) ∧
    w.vm.dao = dao ∧ w.vm.threshold = th ∧ w.vm.unstakingDuration = d ∧ w.vm.total = 0 ∧ w.self = self := by
  have m := create_forward hc h
  refine ⟨by rw [m.den]; exact m.token, ?_, m.le, ?_, ?_, m.daoIs, m.threshold, m.duration, m.nothing, m.addr⟩
  · unfold inCirculation; rw [m.den]; exact m.supply
  · intro q; unfold holds; rw [m.den]; exact m.bal q
  · rw [m.den]; exact m.other

/-- **C115.** Exactly those DAOs are created whose duration and threshold make sense, whose list has no zero, whose coins
do not exceed the largest supply, and of whose coins some are for others than the DAO. A count must be reachable with
these. -/
theorem C115_creates_iff (hc : FanToken.sys.Reach c b' clog) (hf : c.tokens.get denom = none) (hm : t.max < U128) :
    (∃ w, create c b dao self d th denom t = .ok w) ↔
      Lasting d ∧ Sensible th (forOthers dao t.initial) ∧ (∀ x ∈ t.initial, x.2 ≠ 0) ∧ minted t ≤ t.max ∧
        forOthers dao t.initial ≠ 0 := by
  have hmo := minted_others dao t
  constructor
  · rintro ⟨w, h⟩
    have m := create_forward hc h
    obtain ⟨f1, f2, _⟩ := fresh_vm m.inst
    have hr := m.reply
    simp only [TokenStaked.replyFactory, bind_ok, sub128_ok, require_ok, decide_eq_true_eq] at hr
    obtain ⟨n, ⟨_, rfl⟩, _, h2, h3⟩ := hr
    rw [m.threshold, show minted t - share t dao dao = forOthers dao t.initial by omega] at h2
    obtain ⟨g1, g2⟩ := checks.1 ⟨f1, f2, h2⟩
    exact ⟨g1, g2, m.nz, m.le, by omega⟩
  · rintro ⟨h1, h2, h3, h4, h5⟩
    obtain ⟨g1, g2, g3⟩ := checks.2 ⟨h1, h2⟩
    obtain ⟨vm, hvm⟩ : ∃ vm, TokenStaked.instantiate dao d th = .ok vm := by
      simp only [TokenStaked.instantiate, g1, g2, ok_bind]
      exact ⟨_, rfl⟩
    obtain ⟨_, _, f3, f4, _⟩ := fresh_vm hvm
    obtain ⟨c', hc'⟩ := (FanToken.C79_exact hc { block := b, sender := self, dao := some vm.dao, denom := denom } t hf hm).2
      ⟨by simp, h3, h4⟩
    obtain ⟨dao', k1, k2, k3, k4, k5, k6, k7, k8, k9⟩ := FanToken.factory_does hc'
    simp only [Option.some.injEq] at k1 k2 k5 k6
    have hb : getD0 c'.bal (denom, vm.dao) = share t dao dao := by
      rw [k6, (FanToken.unissued hc).2 _ _ k2, ← k1, f3, Nat.zero_add]
    have hs : supply c'.bal denom = minted t := by rw [(tally_step hc' (tally_reach hc)).1 denom, k5]
    have hr : TokenStaked.replyFactory vm (minted t) (share t dao dao) = .ok () := by
      simp only [TokenStaked.replyFactory, bind_ok, sub128_ok, require_ok, decide_eq_true_eq]
      refine ⟨_, ⟨by omega, rfl⟩, (), ?_, by omega⟩
      rw [f4, show minted t - share t dao dao = forOthers dao t.initial by omega]; exact g3
    refine ⟨⟨c', vm, denom, self⟩, ?_⟩
    simp only [create, bind_ok, Prod.exists, Except.ok.injEq]
    exact ⟨vm, hvm, c', (), hc', (), by rw [hs, hb]; exact hr, rfl⟩

/-! ## Histories -/

theorem init_made (h : Init b w) : ∃ c b' clog dao self d th denom t, FanToken.sys.Reach c b' clog ∧ dao ≠ self ∧
    t.max < U128 ∧ Made c dao self d th denom t w := by
  obtain ⟨c, b', clog, dao, self, d, th, denom, t, h1, h2, _, _, h3, h4⟩ := h
  exact ⟨c, b', clog, dao, self, d, th, denom, t, h1, h2, h3, create_forward h1 h4⟩

/-- A history of the DAO is one of the voting module over the ledger of the token. -/
theorem run_proj {mx : Nat} (hi : Inv w0 mx) (hr : sys.Run w0 b0 log w b) :
    Inv w mx ∧ w.denom = w0.denom ∧ w.self = w0.self ∧
      ∃ b1 l1, b1.le b ∧ TokenStaked.sys.Run (proj w0) b0 l1 (proj w) b1 := by
  induction hr with
  | refl => exact ⟨hi, rfl, rfl, b0, [], Block.le_refl _, .refl⟩
  | @step w1 w2 b1 l env call out hr hb hs ih =>
    obtain ⟨i1, i2, i3, b2, l2, i4, i5⟩ := ih
    obtain ⟨k1, k2, k3, _⟩ := inv_step i1 hs
    refine ⟨k1, k2.trans i2, k3.trans i3, ?_⟩
    have hb2 : b2.le env.block := Block.le_trans i4 hb
    have ext : ∀ call' out', TokenStaked.step (proj w1) env.block call' = .ok (proj w2, out') →
        ∃ b1 l1, b1.le env.block ∧ TokenStaked.sys.Run (proj w0) b0 l1 (proj w2) b1 :=
      fun c' _ h => ⟨_, _, Block.le_refl _, Sys.Run.step (M := TokenStaked.sys) (env := env.block) (call := c') i5 hb2 h⟩
    cases seen i1 hs with
    | apart c h => exact ⟨b2, l2, hb2, by rw [h]; exact i5⟩
    | transfer _ _ h => exact ext _ _ h
    | mint _ _ h => exact ext _ _ h
    | burn _ h => exact ext _ _ h
    | vm _ _ h => exact ext _ _ h
    | stake _ _ h => exact ext _ _ h

theorem reach_proj (h : sys.Reach w b log) :
    (∃ mx, Inv w mx) ∧ ∃ b1 l1, b1.le b ∧ TokenStaked.sys.Reach (proj w) b1 l1 := by
  obtain ⟨b0, w0, h0, hr⟩ := h
  obtain ⟨c, b', clog, dao, self, d, th, denom, t, _, _, h3, hm⟩ := init_made h0
  obtain ⟨k1, _, _, b1, l1, k4, k5⟩ := run_proj (hm.inv h3) hr
  exact ⟨⟨_, k1⟩, b1, l1, k4, b0, _, hm.init h3 b0, k5⟩

/-- **C115.** Whatever the DAO, the minter and anybody else do, the module holds every coin that is staked and every coin
that is being unstaked. -/
theorem C115_backed (h : sys.Reach w b log) : w.vm.total + w.vm.claims.owed ≤ holds w w.self := by
  obtain ⟨_, b1, l1, _, hr⟩ := reach_proj h
  have := TokenStaked.C31_covered hr
  simp only [Spec.TokenStaked.coins, proj, ledgerOf_get] at this
  exact this

/-- A call of the voting module, lifted. -/
theorem lift_vm {e : FanToken.Env} {m : TokenStaked.Msg} {tw : TokenStaked.World} {out : TokenStaked.Out}
    (h : TokenStaked.step (proj w) e.block (.exec e.sender m) = .ok (tw, out)) :
    ∃ w', step w e (.vm m) = .ok (w', out) ∧ proj w' = tw ∧ w'.denom = w.denom := by
  simp only [TokenStaked.step, bind_ok, require_ok, decide_eq_true_eq, Prod.exists] at h
  obtain ⟨_, h1, vm, o, h2, h3⟩ := h
  obtain ⟨w', h4, h5⟩ := proj_settle h3
  refine ⟨w', ?_, h5, (settle_proj h4).2.1⟩
  simp only [step, bind_ok, require_ok, decide_eq_true_eq, Prod.exists]
  exact ⟨(), h1, vm, o, h2, h4⟩

theorem lift_stake {e : FanToken.Env} {n : Nat} {tw : TokenStaked.World} {out : TokenStaked.Out}
    (h : TokenStaked.step (proj w) e.block (.stake e.sender n) = .ok (tw, out)) :
    ∃ w', step w e (.stake n) = .ok (w', out) ∧ proj w' = tw ∧ w'.denom = w.denom := by
  simp only [TokenStaked.step, bind_ok, require_ok, decide_eq_true_eq, Prod.exists, Except.ok.injEq, Prod.mk.injEq] at h
  obtain ⟨_, h1, l, h2, vm, o, h3, rfl, rfl⟩ := h
  obtain ⟨m', h4, h5⟩ := ledger_move h2
  refine ⟨{ w with vm := vm, chain := { w.chain with bal := m' } }, ?_, by simp only [proj]; rw [h5], rfl⟩
  simp only [step, bind_ok, require_ok, decide_eq_true_eq, Prod.exists, Except.ok.injEq, Prod.mk.injEq]
  exact ⟨(), h1, m', h4, vm, o, h3, rfl, rfl⟩

theorem holds_proj {w' : World} {tw : TokenStaked.World} (h : proj w' = tw) (a : Addr) :
    holds w' a = Spec.TokenStaked.coins tw a := by
  subst h; simp only [Spec.TokenStaked.coins, proj, ledgerOf_get, holds]

/-- **C115.** Whoever holds coins can stake them, and gets exactly that power. -/
theorem C115_stake (h : sys.Reach w b log) {e : FanToken.Env} (ha : e.sender ≠ w.self) {n : Nat} (hn : n ≠ 0)
    (hh : n ≤ holds w e.sender) :
    ∃ w' out, step w e (.stake n) = .ok (w', out) ∧ w'.vm.stakedOf e.sender = w.vm.stakedOf e.sender + n ∧
      w'.vm.total = w.vm.total + n := by
  obtain ⟨_, b1, l1, _, hr⟩ := reach_proj h
  obtain ⟨tw, out, h1, h2, h3, _⟩ := TokenStaked.C31_stakeable (b' := e.block) hr (a := e.sender) ha hn
    (by rw [← holds_proj rfl]; exact hh)
  obtain ⟨w', h4, h5, _⟩ := lift_stake h1
  subst h5
  exact ⟨w', out, h4, h2, h3⟩

/-- **C115.** Whoever has coins staked can take them back, whatever has happened, unless 100 of their claims are
outstanding: at once, or by a claim that is due the unstaking duration later. -/
theorem C115_unstake (h : sys.Reach w b log) {e : FanToken.Env} (ha : e.sender ≠ w.self) {n : Nat} (hn : n ≠ 0)
    (hs : n ≤ w.vm.stakedOf e.sender)
    (hcl : w.vm.unstakingDuration = none ∨ (w.vm.claims.of e.sender).length < MAX_CLAIMS) :
    ∃ w' out, step w e (.vm (.unstake n)) = .ok (w', out) ∧ w'.vm.stakedOf e.sender = w.vm.stakedOf e.sender - n ∧
      match w.vm.unstakingDuration with
      | none => holds w' e.sender = holds w e.sender + n
      | some d => w'.vm.claims.of e.sender = w.vm.claims.of e.sender ++ [⟨n, d.after e.block⟩] := by
  obtain ⟨_, b1, l1, _, hr⟩ := reach_proj h
  obtain ⟨tw, out, h1, h2⟩ := TokenStaked.C31_unstakeable (b' := e.block) hr (a := e.sender) ha hn hs hcl
  obtain ⟨w', h4, h5, _⟩ := lift_vm h1
  have h6 := (TokenStaked.C31_unstake h1).2.2.2.2.2
  subst h5
  refine ⟨w', out, h4, h2, ?_⟩
  change (match w.vm.unstakingDuration with
    | none => Spec.TokenStaked.coins (proj w') e.sender = Spec.TokenStaked.coins (proj w) e.sender + n ∧
        w'.vm.claims = w.vm.claims
    | some d => Spec.TokenStaked.coins (proj w') e.sender = Spec.TokenStaked.coins (proj w) e.sender ∧
        w'.vm.claims.of e.sender = w.vm.claims.of e.sender ++ [⟨n, d.after e.block⟩]) at h6
  cases hd : w.vm.unstakingDuration with
  | none => rw [hd] at h6; simp only at h6 ⊢; rw [holds_proj rfl, holds_proj rfl]; exact h6.1
  | some x => rw [hd] at h6; exact h6.2

/-- **C115.** Whoever has claims that are due can be paid, all of them in full. -/
theorem C115_claim (h : sys.Reach w b log) {e : FanToken.Env} (ha : e.sender ≠ w.self)
    (hm : claimSum ((w.vm.claims.of e.sender).filter (fun cl => cl.releaseAt.isExpired e.block)) ≠ 0) :
    ∃ w' out, step w e (.vm .claim) = .ok (w', out) ∧
      holds w' e.sender = holds w e.sender +
        claimSum ((w.vm.claims.of e.sender).filter (fun cl => cl.releaseAt.isExpired e.block)) := by
  obtain ⟨_, b1, l1, _, hr⟩ := reach_proj h
  obtain ⟨tw, out, h1⟩ := TokenStaked.C31_claimable (b' := e.block) hr (a := e.sender) ha hm
  obtain ⟨w', h4, h5, _⟩ := lift_vm h1
  have h6 := (TokenStaked.C31_claim h1).2
  subst h5
  exact ⟨w', out, h4, by rw [holds_proj rfl, holds_proj rfl]; exact h6⟩

/-- **C115.** There is never more of the token than was said when it was created. It becomes more only when its minter
mints. -/
theorem C115_supply (hm : t.max < U128)
    (hc : FanToken.sys.Reach c b' clog) (h : create c b0 dao self d th denom t = .ok w0) (hr : sys.Run w0 b0 log w b) :
    inCirculation w ≤ t.max ∧
    ∀ e ∈ log, inCirculation e.pre < inCirculation e.post →
      ∃ n, Mints e n ∧ inCirculation e.post = inCirculation e.pre + n ∧ minter e.pre = some e.env.sender := by
  have hi := (create_forward hc h).inv hm
  refine ⟨(run_proj hi hr).1.supply, fun e he hlt => ?_⟩
  obtain ⟨l1, l2, b1, _, r1, _, hs, _⟩ := hr.event e he
  have i1 := (run_proj hi r1).1
  obtain ⟨i2, k2, _, _, _, k⟩ := inv_step i1 hs
  obtain ⟨t1, a1, a2, a3⟩ := i1.token
  obtain ⟨t2, c1, c2, c3⟩ := i2.token
  have e1 : inCirculation e.pre = t1.supply := by unfold inCirculation; rw [i1.tally, a1]
  have e2 : inCirculation e.post = t2.supply := by unfold inCirculation; rw [i2.tally, c1]
  obtain ⟨x1, x2, r, n, x3, x4⟩ := (k t1 t2 a1 c1).1 (by omega)
  exact ⟨n, ⟨r, x3, x1⟩, by omega, by unfold minter; rw [a1, x2]; rfl⟩

/-- **C115.** The DAO is the minter of its token as long as it does not hand this over. -/
theorem C115_minter (hm : t.max < U128) (hc : FanToken.sys.Reach c b' clog)
    (h : create c b0 dao self d th denom t = .ok w0) (hr : sys.Run w0 b0 log w b) :
    minter w = some dao ∨ ∃ e ∈ log, e.env.sender = dao ∧ ∃ a, HandsOver e a := by
  have hM := create_forward hc h
  have hi := hM.inv hm
  induction hr with
  | refl => left; unfold minter; rw [hM.den, hM.token]; rfl
  | @step w1 w2 b1 l env call out hr hb hs ih =>
    rcases ih with ih | ⟨e, he, h1⟩
    · obtain ⟨i2, k2, _, _, _, k⟩ := inv_step (run_proj hi hr).1 hs
      obtain ⟨t1, a1, _, _⟩ := (run_proj hi hr).1.token
      obtain ⟨t2, c1, _, _⟩ := i2.token
      have hd : t1.minter = dao := by unfold minter at ih; rw [a1] at ih; simpa using ih
      by_cases hmm : t2.minter = t1.minter
      · left; unfold minter; rw [c1, ← hd, ← hmm]; rfl
      · obtain ⟨x1, x2, x3⟩ := (k t1 t2 a1 c1).2 hmm
        exact Or.inr ⟨_, List.mem_cons_self, by rw [← hd]; exact x2, _, x3, x1⟩
    · exact Or.inr ⟨e, List.mem_cons_of_mem _ he, h1⟩

end Verif.FanDao
