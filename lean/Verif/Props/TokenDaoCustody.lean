import Verif.Props.TokenDao
/-!
# C89: staked coins of a token the DAO controls
-/

namespace Verif.TokenDao
open Verif Verif.Spec.TokenDao
open Verif.TokenStaked (afterStake afterUnstake SameMoney MAX_CLAIMS powerAt totalPowerAt)
open Verif.Cw20Stake (hookMsgs)

/-! ## What is there for the stakers -/

/-- **C89.** At every point of every history the coins in the voting module's account, together with those seized from it,
are at least the stakes and the claims of everybody. -/
theorem C89_backed {w : World} {b : Block} {log : List Event} (h : sys.Reach w b log) :
    Verif.total w.vm.staked.cur + w.vm.claims.owed ≤ holds w w.self + seized log := by
  have hi := inv_reach h
  rw [← hi.sum]; exact hi.covered

/-- What one transaction seizes. -/
theorem seized_cons (e : Event) (log : List Event) : seized (e :: log) = seized log + seized [e] := by
  simp only [seized]; omega

/-- **C89.** Who can seize: the owner of the issuer, somebody it gave an allowance to burn, and nobody else unless the
issuer gave the denomination away, then its administrator. -/
theorem C89_seizers {w : World} {b : Block} {log : List Event} (h : sys.Reach w b log) {e : Event} (he : e ∈ log)
    (hs : seized [e] ≠ 0) :
    owner e.pre = some e.env.sender ∨ seized [e] ≤ e.pre.iss.st.burnAllowance e.env.sender ∨
      (e.pre.iss.chain.admin.get e.pre.denom = some e.env.sender ∧ e.env.sender ≠ e.pre.iss.here) := by
  obtain ⟨b0, s0, h0, hr⟩ := h
  obtain ⟨l1, l2, b1, rfl, hrun, hb, hst, hrest⟩ := hr.event e he
  obtain ⟨w1, env, call, out, w2⟩ := e
  replace hst : step w1 env call = .ok (w2, out) := hst
  have heff := step_effect hst
  clear hst
  cases heff with
  | issuer m iss ha hs' hsup =>
    obtain ⟨msgs, hx, _, _⟩ := Issuer.step_exec hs'
    rw [seized_issuer] at hs
    cases m with
    | force n src dest => exact Or.inl (Issuer.exec_owner hx)
    | burn src n =>
      refine Or.inr (Or.inl ?_)
      obtain ⟨_, h2⟩ := Issuer.exec_owner hx
      rw [seized_issuer]
      simp only [seized, takenBy]
      split
      · simpa [Issuer.State.burnAllowance] using h2
      · omega
    | _ => simp [seized, takenBy] at hs
  | chain m iss ha hs' hsup =>
    obtain ⟨c1, c2, _, _⟩ := Issuer.step_chain hs'
    rw [seized_chain] at hs
    cases m with
    | force d n src dest =>
      refine Or.inr (Or.inr ⟨?_, c1⟩)
      simp only [seized, taken] at hs
      have hd : d = w1.denom := by
        by_contra hd
        simp [hd] at hs
      simp only [Issuer.Chain.run, bind_ok, Issuer.Chain.assertAdmin, require_ok, decide_eq_true_eq] at c2
      obtain ⟨_, c2, _⟩ := c2
      rw [← hd]; exact c2
    | burn d n src =>
      refine Or.inr (Or.inr ⟨?_, c1⟩)
      simp only [seized, taken] at hs
      have hd : d = w1.denom := by
        by_contra hd
        simp [hd] at hs
      rw [← hd]; exact (Issuer.run_supply c2 d).2
    | _ => simp [seized, taken] at hs
  | _ => simp [seized] at hs

/-- **C89.** No transaction of the issuer or the chain, seizures included, changes anybody's stake, claims or voting power:
they are not told to the voting module. -/
theorem C89_powers_stay {w w' : World} {e : Issuer.Env} {call : Call} {out : TokenStaked.Out}
    (hs : step w e call = .ok (w', out)) (hc : (∃ m, call = .issuer m) ∨ ∃ m, call = .chain m) : w'.vm = w.vm := by
  rcases hc with ⟨m, rfl⟩ | ⟨m, rfl⟩
  all_goals
    obtain ⟨_, iss, _, _, rfl, _⟩ := stepIss_inv hs
    rfl

/-- In a history in which the DAO sends nothing to the issuer nothing is seized. -/
theorem seized_silent {b0 b : Block} {w0 w : World} {log : List Event} (h0 : Init b0 w0) (hr : sys.Run w0 b0 log w b)
    (hsil : Silent w0.vm.dao log) : seized log = 0 := by
  induction hr with
  | refl => rfl
  | @step w1 w2 b1 l env call out hr hb hs ih =>
    have hsil' : Silent w0.vm.dao l := fun e he => hsil e (List.mem_cons_of_mem _ he)
    have ihs := ih hsil'
    have hq := quiet_run h0 hr hsil'
    obtain ⟨_, q2, q3, _⟩ := quiet_step h0 hq hs (fun m hm => hsil _ List.mem_cons_self m hm)
    have hs' : step w1 env call = .ok (w2, out) := hs
    have heff := step_effect hs'
    clear hs' hs
    rw [seized_cons, ihs, Nat.zero_add]
    by_contra hne
    cases heff with
    | issuer m iss ha hs' hsup => exact q2 m rfl
    | chain m iss ha hs' hsup =>
      obtain ⟨c1, c2, _, _⟩ := Issuer.step_chain hs'
      have hadm := hq.admin
      rw [seized_chain] at hne
      cases m with
      | force d n src dest =>
        simp only [seized, taken] at hne
        have hd : d = w1.denom := by
          by_contra hd
          simp [hd] at hne
        simp only [Issuer.Chain.run, bind_ok, Issuer.Chain.assertAdmin, require_ok, decide_eq_true_eq] at c2
        obtain ⟨_, c2, _⟩ := c2
        rw [hd, hadm] at c2
        exact c1 (Option.some.inj c2).symm
      | burn d n src =>
        simp only [seized, taken] at hne
        have hd : d = w1.denom := by
          by_contra hd
          simp [hd] at hne
        have := (Issuer.run_supply c2 d).2
        rw [hd, hadm] at this
        exact c1 (Option.some.inj this).symm
      | _ => simp [seized, taken] at hne
    | _ => simp [seized] at hne

/-! ## Getting the coins out -/

/-- A transfer goes through if the coins are there and nobody objects. -/
theorem transfers_run {w : World} {src dest : Addr} {n : Nat} (hn : n ≤ holds w src)
    (hf : supply w.iss.chain w.denom < U128)
    (hask : w.iss.chain.hook.get w.denom = some w.iss.here → w.iss.st.beforeSend src dest w.denom = .ok ()) :
    ∃ ch, Transfers w src dest n ch := by
  have hd : Ledger.debit w.iss.chain.bal (w.denom, src) n =
      .ok (AMap.set w.iss.chain.bal (w.denom, src) (getD0 w.iss.chain.bal (w.denom, src) - n)) :=
    Ledger.debit_ok.2 ⟨hn, rfl⟩
  obtain ⟨l1, hl1⟩ : ∃ l1, l1 = AMap.set w.iss.chain.bal (w.denom, src) (getD0 w.iss.chain.bal (w.denom, src) - n) :=
    ⟨_, rfl⟩
  rw [← hl1] at hd
  have h1 := Issuer.supply_debit hd w.denom
  have h2 := holds_le_supply { w.iss.chain with bal := l1 } w.denom dest
  simp only [supply, if_true] at hf h1 h2
  have hc : Ledger.credit l1 (w.denom, dest) n = .ok (AMap.set l1 (w.denom, dest) (getD0 l1 (w.denom, dest) + n)) :=
    Ledger.credit_ok.2 ⟨by omega, rfl⟩
  have ha : w.iss.chain.ask w.iss.st w.iss.here src dest w.denom true = .ok () := by
    unfold Issuer.Chain.ask
    by_cases hh : w.iss.chain.hook.get w.denom = some w.iss.here
    · rw [if_pos (by simp [hh])]; exact hask hh
    · rw [if_neg (by simp [hh])]
  refine ⟨{ w.iss.chain with bal := AMap.set l1 (w.denom, dest) (getD0 l1 (w.denom, dest) + n) }, ?_⟩
  unfold Transfers Issuer.Chain.transfer Ledger.move
  rw [ha, ok_bind, hd, ok_bind, hc, ok_bind]

theorem settle_runs {w : World} {c : TokenStaked.State} {out : TokenStaked.Out}
    (hf : supply w.iss.chain w.denom < U128)
    (hp : ∀ x n, out.pay = some (x, n) → n ≤ holds w w.self ∧ Unhindered w x) :
    ∃ w', settle w c out = .ok (w', out) ∧ w'.vm = c := by
  unfold settle
  cases ho : out.pay with
  | none => exact ⟨_, rfl, rfl⟩
  | some r =>
    obtain ⟨x, n⟩ := r
    obtain ⟨h1, h2⟩ := hp x n ho
    obtain ⟨ch, hch⟩ := transfers_run h1 hf h2
    unfold Transfers at hch
    refine ⟨{ w with vm := c, iss := { w.iss with chain := ch } }, ?_, rfl⟩
    simp only [hch, ok_bind]

/-- **C89.** Whoever has coins staked can unstake them: if the unstaking is delayed always, unless 100 of their claims are
outstanding; if it is immediate, when the coins are still in the module's account and the issuer does not object. -/
theorem C89_unstakeable {w : World} {b b' : Block} {log : List Event} (h : sys.Reach w b log) {a : Addr} (ha : a ≠ w.self)
    {n : Nat} (hn : n ≠ 0) (hs : n ≤ w.vm.stakedOf a)
    (hcl : (w.vm.unstakingDuration = none ∧ n ≤ holds w w.self ∧ Unhindered w a) ∨
      (w.vm.unstakingDuration ≠ none ∧ (w.vm.claims.of a).length < MAX_CLAIMS)) :
    ∃ w' out, step w { block := b', sender := a } (.vm (.unstake n)) = .ok (w', out) ∧
      w'.vm.stakedOf a = w.vm.stakedOf a - n := by
  have hi := inv_reach h
  have h1 : w.vm.stakedOf a ≤ w.vm.total := by rw [hi.sum]; exact getD0_le_total _ _
  have e1 : sub128 (w.vm.stakedOf a) n = .ok (w.vm.stakedOf a - n) := (sub128_ok _ _ _).2 ⟨hs, rfl⟩
  have e2 : sub128 w.vm.total n = .ok (w.vm.total - n) := (sub128_ok _ _ _).2 ⟨by omega, rfl⟩
  have he : ∃ c out, TokenStaked.exec w.vm b' (supply w.iss.chain w.denom) a (.unstake n) = .ok (c, out) ∧
      (∀ x k, out.pay = some (x, k) → k ≤ holds w w.self ∧ Unhindered w x) ∧
      c.staked = w.vm.staked.save a (w.vm.stakedOf a - n) b'.height := by
    simp only [TokenStaked.exec, TokenStaked.execUnstake, require, hn, ne_eq, not_false_eq_true, decide_true, if_true,
      ok_bind, e1, e2]
    unfold TokenStaked.release
    simp only
    rcases hcl with ⟨hd, h2, h3⟩ | ⟨hd, hcl⟩
    · simp only [hd]
      refine ⟨_, _, rfl, ?_, rfl⟩
      intro x k hp; cases hp; exact ⟨h2, h3⟩
    · cases hdd : w.vm.unstakingDuration with
      | none => exact absurd hdd hd
      | some d =>
        simp only
        rw [if_neg (by omega)]
        refine ⟨_, _, rfl, ?_, rfl⟩
        intro x k hp; cases hp
  obtain ⟨c, out, he, hp, hst⟩ := he
  obtain ⟨w', hw, hc⟩ := settle_runs (c := c) hi.fits hp
  refine ⟨w', out, ?_, ?_⟩
  · simp only [step, require, ha, ne_eq, not_false_eq_true, decide_true, if_true, ok_bind, he, hw]
  · unfold TokenStaked.State.stakedOf; rw [hc, hst, Snap.get_save, if_pos rfl]; rfl

/-- **C89.** Matured claims can be claimed, when the coins are still there and the issuer does not object. -/
theorem C89_claimable {w : World} {b b' : Block} {log : List Event} (h : sys.Reach w b log) {a : Addr} (ha : a ≠ w.self)
    (hm : claimSum ((w.vm.claims.of a).filter (fun cl => cl.releaseAt.isExpired b')) ≠ 0)
    (hc : claimSum ((w.vm.claims.of a).filter (fun cl => cl.releaseAt.isExpired b')) ≤ holds w w.self)
    (hu : Unhindered w a) :
    ∃ w' out, step w { block := b', sender := a } (.vm .claim) = .ok (w', out) ∧
      holds w' a = holds w a + claimSum ((w.vm.claims.of a).filter (fun cl => cl.releaseAt.isExpired b')) := by
  have hi := inv_reach h
  have hsup := hi.fits
  have h1 := holds_le_supply w.iss.chain w.denom w.self
  have h4 := Claims.sumMatured_total (b := b') (l := w.vm.claims.of a) (acc := 0) (by simp only [holds] at hc; omega)
  obtain ⟨c, hex⟩ : ∃ c, TokenStaked.exec w.vm b' (supply w.iss.chain w.denom) a .claim = .ok (c, { pay := some (a, 0 + claimSum ((w.vm.claims.of a).filter (fun cl => cl.releaseAt.isExpired b'))) }) := by
    have h5 : decide (0 + claimSum ((w.vm.claims.of a).filter (fun cl => cl.releaseAt.isExpired b')) ≠ 0) =
        true := by rw [decide_eq_true_eq]; omega
    simp only [TokenStaked.exec, TokenStaked.execClaim, Claims.claimTokens, h4, ok_bind]
    rw [h5]
    simp only [require, if_true, ok_bind]
    exact ⟨_, rfl⟩
  have hp : ∀ x k, ({ pay := some (a, 0 + claimSum ((w.vm.claims.of a).filter (fun cl => cl.releaseAt.isExpired b'))) } : TokenStaked.Out).pay = some (x, k) →
      k ≤ holds w w.self ∧ Unhindered w x := by
    intro x k hp
    simp only [Option.some.injEq, Prod.mk.injEq] at hp
    obtain ⟨rfl, rfl⟩ := hp
    exact ⟨by omega, hu⟩
  obtain ⟨w', hw, _⟩ := settle_runs (c := c) hi.fits hp
  refine ⟨w', { pay := some (a, 0 + claimSum ((w.vm.claims.of a).filter (fun cl => cl.releaseAt.isExpired b'))) }, ?_, ?_⟩
  · simp only [step, require, ha, ne_eq, not_false_eq_true, decide_true, if_true, ok_bind]
    rw [hex, ok_bind]
    exact hw
  obtain ⟨_, hset⟩ := settle_inv hw
  rcases hset with ⟨hn, _⟩ | ⟨x, n, ch, hpay, ht, rfl⟩
  · cases hn
  · simp only [Option.some.injEq, Prod.mk.injEq] at hpay
    obtain ⟨rfl, rfl⟩ := hpay
    have := (ht.holds (Ne.symm ha) a).2
    rw [if_neg ha, if_pos rfl] at this
    rw [Nat.zero_add] at this
    exact this

/-- **C89.** As long as the DAO leaves the issuer alone, every stake and every claim is covered by coins in the module's
account, and everybody can get theirs out: unstake all of it, and claim what has matured. -/
theorem C89_safe {b0 b b' : Block} {w0 w : World} {log : List Event} (h0 : Init b0 w0) (hr : sys.Run w0 b0 log w b)
    (hsil : Silent w0.vm.dao log) :
    Verif.total w.vm.staked.cur + w.vm.claims.owed ≤ holds w w.self ∧
    (∀ a n, a ≠ w.self → n ≠ 0 → n ≤ w.vm.stakedOf a →
      (w.vm.unstakingDuration = none ∨ (w.vm.claims.of a).length < MAX_CLAIMS) →
      ∃ w' out, step w { block := b', sender := a } (.vm (.unstake n)) = .ok (w', out)) ∧
    (∀ a, a ≠ w.self → claimSum ((w.vm.claims.of a).filter (fun cl => cl.releaseAt.isExpired b')) ≠ 0 →
      ∃ w' out, step w { block := b', sender := a } (.vm .claim) = .ok (w', out) ∧
        holds w' a = holds w a + claimSum ((w.vm.claims.of a).filter (fun cl => cl.releaseAt.isExpired b'))) := by
  have hre : sys.Reach w b log := ⟨b0, w0, h0, hr⟩
  have hq := quiet_run h0 hr hsil
  have hcov := C89_backed hre
  rw [seized_silent h0 hr hsil] at hcov
  have hun : ∀ a, Unhindered w a := by
    intro a hh
    rw [hq.hook] at hh; cases hh
  refine ⟨hcov, ?_, ?_⟩
  · intro a n ha hn hs hcl
    have h1 : w.vm.stakedOf a ≤ Verif.total w.vm.staked.cur := getD0_le_total _ _
    obtain ⟨w', out, h, _⟩ := C89_unstakeable (b' := b') hre ha hn hs (by
      cases hd : w.vm.unstakingDuration with
      | none => exact Or.inl ⟨rfl, by omega, hun a⟩
      | some d =>
        rcases hcl with hcl | hcl
        · rw [hd] at hcl; cases hcl
        · exact Or.inr ⟨by simp, hcl⟩)
    exact ⟨w', out, h⟩
  · intro a ha hm
    have h2 := Claims.of_le_owed w.vm.claims a
    have h3 := Claims.claimSum_partition (fun cl => cl.releaseAt.isExpired b') (w.vm.claims.of a)
    exact C89_claimable hre ha hm (by omega) (hun a)

/-! ## The voting power -/

theorem snapshotted :
    sys.Snapshotted (fun w => w.vm.staked) ∧ sys.Snapshotted (fun w => w.vm.stakedTotal) := by
  refine ⟨⟨?_, ?_⟩, ⟨?_, ?_⟩⟩
  · intro b s h
    obtain ⟨dao, self, issuer, d, th, _, _, _, hv, _⟩ := init_shape h
    rw [hv]; exact Snap.upTo_empty _
  · intro s env call s' out h
    cases step_effect h with
    | issuer => exact .refl
    | chain => exact .refl
    | stake => exact Snap.Writes.one _ _ _ _
    | payout => exact Snap.Writes.one _ _ _ _
    | unbond => exact Snap.Writes.one _ _ _ _
    | admin m c ha hsm hm => exact Snap.Writes.of_eq hsm.staked
    | claim => exact .refl
  · intro b s h
    obtain ⟨dao, self, issuer, d, th, _, _, _, hv, _⟩ := init_shape h
    rw [hv]; exact Snap.upTo_empty _
  · intro s env call s' out h
    cases step_effect h with
    | issuer => exact .refl
    | chain => exact .refl
    | stake => exact Snap.Writes.one _ _ _ _
    | payout => exact Snap.Writes.one _ _ _ _
    | unbond => exact Snap.Writes.one _ _ _ _
    | admin m c ha hsm hm => exact Snap.Writes.of_eq hsm.total
    | claim => exact .refl

/-- The voting module with its token, as a DAO sees it. -/
def module : WholeDao.VotingModule World Issuer.Env Call TokenStaked.Out where
  sys := sys
  power w a x := powerAt w.vm a x
  total w x := totalPowerAt w.vm x
  weight w a := w.vm.stakedOf a
  totalWeight w := w.vm.total

theorem module_history {s s' : World} {b b' : Block} {l l' : List Event} {x : Nat} (h : sys.Reach s b l)
    (hr : sys.Run s b l' s' b') (hb : b.height < x) (hx : ∀ e ∈ l', x ≤ (sys.block e.env).height) :
    (∀ a, powerAt s'.vm a x = s.vm.stakedOf a) ∧ totalPowerAt s'.vm x = s.vm.total := by
  unfold powerAt totalPowerAt
  refine ⟨fun a => ?_, ?_⟩
  · rw [snapshotted.1.current h hr hb hx a]; rfl
  · rw [snapshotted.2.current h hr hb hx ()]; rfl

theorem module_stable {s s' : World} {b b' : Block} {l l' : List Event} {x : Nat} (h : sys.Reach s b l)
    (hr : sys.Run s b l' s' b') (hx : ∀ e ∈ l', x ≤ (sys.block e.env).height) :
    (∀ a, powerAt s'.vm a x = powerAt s.vm a x) ∧ totalPowerAt s'.vm x = totalPowerAt s.vm x := by
  unfold powerAt totalPowerAt
  refine ⟨fun a => ?_, ?_⟩
  · rw [snapshotted.1.stable h hr hx a]
  · rw [snapshotted.2.stable h hr hx ()]

/-- **C89.** Whatever is done with the token, the voting module keeps what a DAO relies on (`Lawful`): fixed powers for past
heights that add up to the total. So everything proved of a DAO in C80 and C87 holds of one with a token of its own. -/
theorem C89_lawful : Spec.WholeDao.Lawful module where
  history h hr hb hx := module_history h hr hb hx
  stable h hr hx := module_stable h hr hx
  sums {s _ _} h x := by
    obtain ⟨L, hL, h0⟩ := WholeDao.snap_support s.vm.staked x
    have hz : ∀ a, a ∉ L → powerAt s.vm a x = 0 := fun a ha => by
      unfold powerAt; rw [h0 a ha]; rfl
    refine ⟨L, hL, hz, ?_⟩
    obtain ⟨w1, b1, l1, l2, rfl, h1, hr, hx, hb⟩ := Sys.Reach.split (M := sys) h x
    show totalPowerAt s.vm x = (L.map (fun a => powerAt s.vm a x)).sum
    rcases hb with hb | ⟨rfl, hi⟩
    · obtain ⟨e1, e2⟩ := module_history h1 hr hb hx
      have hi := inv_reach h1
      rw [e2, hi.sum, ← total_eq_sum hi.wf hL (fun a ha => by rw [← TokenStaked.stakedOf_cur, ← e1 a]; exact hz a ha)]
      congr 1
      apply List.map_congr_left
      intro a _; rw [e1 a]; rfl
    · obtain ⟨e1, e2⟩ := module_stable h1 hr hx
      obtain ⟨dao, self, issuer, d, th, _, _, _, hv, _⟩ := init_shape hi
      have z : ∀ a, powerAt w1.vm a x = 0 := by intro a; unfold powerAt; rw [hv]; rfl
      have z' : totalPowerAt w1.vm x = 0 := by unfold totalPowerAt; rw [hv]; rfl
      rw [e2, z']
      symm
      apply List.sum_eq_zero
      intro n hn
      obtain ⟨a, _, rfl⟩ := List.mem_map.1 hn
      rw [e1 a, z]

end Verif.TokenDao
