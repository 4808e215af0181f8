import Verif.Props.TokenDaoCreate
import Verif.Proofs.TokenStaked
/-!
# Proofs about a voting module with a token of its own
-/

namespace Verif.TokenDao
open Verif Verif.Spec.TokenDao
open Verif.TokenStaked (afterStake afterUnstake SameMoney MAX_CLAIMS)
open Verif.Cw20Stake (hookMsgs)

/-- The world with another chain. -/
def World.withChain (w : World) (ch : Issuer.Chain) : World := { w with iss := { w.iss with chain := ch } }

/-- A transfer of the token, the listener being asked. -/
def Transfers (w : World) (src dest : Addr) (n : Nat) (ch : Issuer.Chain) : Prop :=
  w.iss.chain.transfer w.iss.st w.iss.here src dest w.denom n true = .ok ch

/-- The successful transactions, with their effects. -/
inductive Effect (w : World) (e : Issuer.Env) : Call → World → TokenStaked.Out → Prop where
  | issuer (m : Issuer.Msg) (iss : Issuer.World) (ha : e.sender ≠ w.self)
      (hs : Issuer.step w.iss e (.exec m) = .ok (iss, ())) (hsup : supply iss.chain w.denom < U128) :
      Effect w e (.issuer m) { w with iss := iss } {}
  | chain (m : Issuer.ChainMsg) (iss : Issuer.World) (ha : e.sender ≠ w.self)
      (hs : Issuer.step w.iss e (.chain m) = .ok (iss, ())) (hsup : supply iss.chain w.denom < U128) :
      Effect w e (.chain m) { w with iss := iss } {}
  | stake (n : Nat) (ch : Issuer.Chain) (ha : e.sender ≠ w.self) (hn : n ≠ 0) (ht : Transfers w e.sender w.self n ch) :
      Effect w e (.stake n) { w.withChain ch with vm := afterStake w.vm e.block e.sender n }
        { hooks := hookMsgs w.vm.hooks true e.sender n }
  | payout (n : Nat) (ch : Issuer.Chain) (out : TokenStaked.Out) (ha : e.sender ≠ w.self) (hn : n ≠ 0)
      (hs : n ≤ w.vm.stakedOf e.sender) (htot : n ≤ w.vm.total) (hd : w.vm.unstakingDuration = none)
      (ht : Transfers w w.self e.sender n ch) :
      Effect w e (.vm (.unstake n)) { w.withChain ch with vm := afterUnstake w.vm e.block e.sender n } out
  | unbond (n : Nat) (d : Duration) (out : TokenStaked.Out) (ha : e.sender ≠ w.self) (hn : n ≠ 0)
      (hs : n ≤ w.vm.stakedOf e.sender) (htot : n ≤ w.vm.total) (hd : w.vm.unstakingDuration = some d)
      (hlen : (w.vm.claims.of e.sender).length < MAX_CLAIMS) :
      Effect w e (.vm (.unstake n))
        { w with vm := { afterUnstake w.vm e.block e.sender n with claims := w.vm.claims.create e.sender n (d.after e.block) } } out
  | claim (n : Nat) (cl : Claims) (ch : Issuer.Chain) (ha : e.sender ≠ w.self)
      (hc : w.vm.claims.claimTokens e.sender e.block = .ok (cl, n)) (hn : n ≠ 0) (ht : Transfers w w.self e.sender n ch) :
      Effect w e (.vm .claim) { w.withChain ch with vm := { w.vm with claims := cl } } { pay := some (e.sender, n) }
  | admin (m : TokenStaked.Msg) (c : TokenStaked.State) (ha : e.sender = w.vm.dao) (hs : SameMoney w.vm c)
      (hm : (∀ n, m ≠ .unstake n) ∧ m ≠ .claim) : Effect w e (.vm m) { w with vm := c } {}

theorem settle_inv {w w' : World} {c : TokenStaked.State} {o o' : TokenStaked.Out} (h : settle w c o = .ok (w', o')) :
    o' = o ∧ ((o.pay = none ∧ w' = { w with vm := c }) ∨
      ∃ a n ch, o.pay = some (a, n) ∧ Transfers w w.self a n ch ∧ w' = { w.withChain ch with vm := c }) := by
  unfold settle at h
  split at h
  · rename_i hp
    simp only [Except.ok.injEq, Prod.mk.injEq] at h
    exact ⟨h.2.symm, Or.inl ⟨hp, h.1.symm⟩⟩
  · rename_i a n hp
    simp only [bind_ok, Except.ok.injEq, Prod.mk.injEq] at h
    obtain ⟨l, hl, rfl, rfl⟩ := h
    exact ⟨rfl, Or.inr ⟨a, n, l, hp, hl, rfl⟩⟩

theorem stepIss_inv {w w' : World} {e : Issuer.Env} {c : Issuer.Call} {out : TokenStaked.Out}
    (h : stepIss w e c = .ok (w', out)) :
    e.sender ≠ w.self ∧ ∃ iss, Issuer.step w.iss e c = .ok (iss, ()) ∧ supply iss.chain w.denom < U128 ∧
      w' = { w with iss := iss } ∧ out = {} := by
  simp only [stepIss, bind_ok, require_ok, decide_eq_true_eq, Except.ok.injEq, Prod.mk.injEq] at h
  obtain ⟨_, ha, ⟨iss, u⟩, hs, _, hsup, rfl, rfl⟩ := h
  exact ⟨ha, iss, hs, hsup, rfl, rfl⟩

theorem step_effect {w w' : World} {e : Issuer.Env} {call : Call} {out : TokenStaked.Out}
    (h : step w e call = .ok (w', out)) : Effect w e call w' out := by
  cases call with
  | issuer m =>
    obtain ⟨ha, iss, hs, hsup, rfl, rfl⟩ := stepIss_inv h
    exact .issuer m iss ha hs hsup
  | chain m =>
    obtain ⟨ha, iss, hs, hsup, rfl, rfl⟩ := stepIss_inv h
    exact .chain m iss ha hs hsup
  | stake n =>
    simp only [step, bind_ok, require_ok, decide_eq_true_eq] at h
    obtain ⟨_, ha, ch, ht, ⟨c, o⟩, he, h⟩ := h
    simp only [Except.ok.injEq, Prod.mk.injEq] at h
    obtain ⟨rfl, rfl⟩ := h
    obtain ⟨hn, _, _, rfl, rfl⟩ := TokenStaked.stake_inv he
    exact .stake n ch ha hn ht
  | vm m =>
    simp only [step, bind_ok, require_ok, decide_eq_true_eq] at h
    obtain ⟨_, ha, ⟨c, o⟩, he, hset⟩ := h
    obtain ⟨rfl, hset⟩ := settle_inv hset
    cases m with
    | unstake n =>
      simp only [TokenStaked.exec] at he
      obtain ⟨hn, hs, ht, _, he⟩ := TokenStaked.unstake_inv he
      rcases he with ⟨hd, rfl, ho⟩ | ⟨d, hd, hlen, rfl, ho⟩
      · rcases hset with ⟨hp, _⟩ | ⟨x, y, l, hp, hl, rfl⟩
        · rw [ho] at hp; cases hp
        · rw [ho] at hp; cases hp
          exact .payout n l out ha hn hs ht hd hl
      · rcases hset with ⟨_, rfl⟩ | ⟨x, y, l, hp, hl, rfl⟩
        · exact .unbond n d out ha hn hs ht hd hlen
        · rw [ho] at hp; cases hp
    | claim =>
      simp only [TokenStaked.exec] at he
      obtain ⟨c', n, hc, hn, rfl, rfl⟩ := TokenStaked.claim_inv he
      rcases hset with ⟨hp, _⟩ | ⟨x, y, l, hp, hl, rfl⟩
      · cases hp
      · cases hp
        exact .claim n c' l ha hc hn hl
    | updateConfig d =>
      simp only [TokenStaked.exec, bind_ok, require_ok, decide_eq_true_eq, Except.ok.injEq, Prod.mk.injEq] at he
      obtain ⟨_, hdao, _, _, rfl, rfl⟩ := he
      rcases hset with ⟨_, rfl⟩ | ⟨x, y, l, hp, hl, rfl⟩
      · exact .admin _ _ hdao ⟨rfl, rfl, rfl, rfl⟩ (by simp)
      · cases hp
    | updateActiveThreshold d =>
      simp only [TokenStaked.exec, bind_ok, require_ok, decide_eq_true_eq, Except.ok.injEq, Prod.mk.injEq] at he
      obtain ⟨_, hdao, _, _, rfl, rfl⟩ := he
      rcases hset with ⟨_, rfl⟩ | ⟨x, y, l, hp, hl, rfl⟩
      · exact .admin _ _ hdao ⟨rfl, rfl, rfl, rfl⟩ (by simp)
      · cases hp
    | addHook x =>
      simp only [TokenStaked.exec, bind_ok, require_ok, decide_eq_true_eq, Except.ok.injEq, Prod.mk.injEq] at he
      obtain ⟨_, hdao, _, _, rfl, rfl⟩ := he
      rcases hset with ⟨_, rfl⟩ | ⟨x, y, l, hp, hl, rfl⟩
      · exact .admin _ _ hdao ⟨rfl, rfl, rfl, rfl⟩ (by simp)
      · cases hp
    | removeHook x =>
      simp only [TokenStaked.exec, bind_ok, require_ok, decide_eq_true_eq, Except.ok.injEq, Prod.mk.injEq] at he
      obtain ⟨_, hdao, _, _, rfl, rfl⟩ := he
      rcases hset with ⟨_, rfl⟩ | ⟨x, y, l, hp, hl, rfl⟩
      · exact .admin _ _ hdao ⟨rfl, rfl, rfl, rfl⟩ (by simp)
      · cases hp

/-! ## Transfers -/

theorem Transfers.get {w : World} {src dest : Addr} {n : Nat} {ch : Issuer.Chain} (h : Transfers w src dest n ch) :
    ∃ bal, Ledger.move w.iss.chain.bal (w.denom, src) (w.denom, dest) n = .ok bal ∧
      ch = { w.iss.chain with bal := bal } := (Issuer.transfer_ok h).2

theorem Transfers.supply {w : World} {src dest : Addr} {n : Nat} {ch : Issuer.Chain} (h : Transfers w src dest n ch)
    (d : Nat) : supply ch d = supply w.iss.chain d := by
  obtain ⟨bal, hm, rfl⟩ := h.get
  exact Issuer.supply_move hm d

theorem Transfers.holds {w : World} {src dest : Addr} {n : Nat} {ch : Issuer.Chain} (h : Transfers w src dest n ch)
    (hne : src ≠ dest) (q : Addr) : n ≤ holds w src ∧
      holds (w.withChain ch) q = if q = src then holds w src - n else if q = dest then holds w dest + n else holds w q := by
  obtain ⟨bal, hm, rfl⟩ := h.get
  have hg := Ledger.move_get hm (fun hc => hne (by simpa using hc)) (w.denom, q)
  simp only [Prod.mk.injEq, true_and] at hg
  exact hg

/-! ## The account of the voting module -/

/-- What a message to the chain does to an account of a denomination. -/
theorem run_holds {c c' : Issuer.Chain} {s : Issuer.State} {here : Addr} {f : Bool} {who : Addr} {m : Issuer.ChainMsg}
    (h : c.run s here f who m = .ok c') (d : Nat) (a : Addr) :
    getD0 c.bal (d, a) ≤ getD0 c'.bal (d, a) +
      match m with
      | .send x _ n => if who = a ∧ x = d then n else 0
      | .burn x n src => if (if c.burnsAny = true then src else who) = a ∧ x = d then n else 0
      | .force x n src _ => if src = a ∧ x = d then n else 0
      | _ => 0 := by
  have hmove : ∀ {x src dest n : Nat} {bal : Ledger (Nat × Addr)},
      Ledger.move c.bal (x, src) (x, dest) n = .ok bal →
        getD0 c.bal (d, a) ≤ getD0 bal (d, a) + if src = a ∧ x = d then n else 0 := by
    intro x src dest n bal hm
    by_cases hq : src = a ∧ x = d
    · obtain ⟨rfl, rfl⟩ := hq
      simp only [Ledger.move, bind_ok] at hm
      obtain ⟨l1, h1, h2⟩ := hm
      rw [Ledger.credit_get h2, Ledger.debit_get h1, Ledger.debit_get h1]
      simp only [and_self, if_true, Prod.mk.injEq, true_and]
      split
      · rename_i hd; subst hd; simp; omega
      · omega
    · have hne : ((d, a) : Nat × Addr) ≠ (x, src) := fun hc => hq (by
        simp only [Prod.mk.injEq] at hc; exact ⟨hc.2.symm, hc.1.symm⟩)
      rw [if_neg hq, Ledger.move_other hm hne]
      omega
  cases m with
  | send x dest n =>
    obtain ⟨_, bal, h2, rfl⟩ := Issuer.transfer_ok h
    exact hmove h2
  | mint x n =>
    simp only [Issuer.Chain.run, bind_ok, Except.ok.injEq] at h
    obtain ⟨_, _, bal, h1, rfl⟩ := h
    simp only
    rw [Ledger.credit_get h1]
    split
    · rename_i hc; rw [hc]; omega
    · omega
  | burn x n src =>
    simp only [Issuer.Chain.run, bind_ok, Except.ok.injEq] at h
    obtain ⟨_, _, bal, h1, rfl⟩ := h
    have h2 := Ledger.debit_get h1 (d, a)
    simp only
    rw [h2]
    generalize (if c.burnsAny = true then src else who) = y at *
    simp only [Prod.mk.injEq]
    by_cases hq : y = a ∧ x = d
    · obtain ⟨rfl, rfl⟩ := hq
      simp; omega
    · rw [if_neg hq, if_neg (fun hc => hq ⟨hc.2, hc.1⟩)]; omega
  | changeAdmin x y =>
    simp only [Issuer.Chain.run, bind_ok, Except.ok.injEq] at h
    obtain ⟨_, _, rfl⟩ := h
    simp
  | setHook x y =>
    simp only [Issuer.Chain.run, bind_ok, Except.ok.injEq] at h
    obtain ⟨_, _, rfl⟩ := h
    simp
  | force x n src dest =>
    simp only [Issuer.Chain.run, bind_ok] at h
    obtain ⟨_, _, h1⟩ := h
    obtain ⟨_, bal, h2, rfl⟩ := Issuer.transfer_ok h1
    exact hmove h2

/-- Facts every reachable state has. -/
structure Inv (w : World) (log : List Event) : Prop where
  sum : w.vm.total = Verif.total w.vm.staked.cur
  wf : w.vm.staked.cur.WF
  denom : w.iss.st.denom = w.denom
  apart : w.self ≠ w.iss.here
  apartDao : w.vm.dao ≠ w.self
  fits : supply w.iss.chain w.denom < U128
  covered : w.vm.total + w.vm.claims.owed ≤ holds w w.self + seized log

theorem init_shape {b : Block} {w : World} (h : Init b w) :
    ∃ dao self issuer d th, dao ≠ self ∧ dao ≠ issuer ∧ self ≠ issuer ∧ w.vm = fresh dao d th ∧ w.self = self ∧
      w.iss.here = issuer ∧ w.iss.st.denom = w.denom ∧ supply w.iss.chain w.denom < U128 ∧
      w.iss.chain.admin.get w.denom = some issuer ∧ w.iss.chain.hook.get w.denom = none ∧
      (w.iss.st = Issuer.instantiate dao w.denom ∨ w.iss.st = offered self w.denom dao) := by
  obtain ⟨name, c, dao, self, issuer, d, th, t, h1, h2, h3, h⟩ := h
  refine ⟨dao, self, issuer, d, th, h1, h2, h3, ?_⟩
  rcases h with h | h
  · obtain ⟨ha, hm, hst⟩ := callback_forward h
    obtain ⟨_, _, _, _, hf0, hf1, hf2, hf3⟩ := ha
    obtain ⟨bal, hch⟩ := hm.chain
    refine ⟨hm.vm, hm.addr, hm.here, by rw [hst, hm.denom]; rfl, ?_, ?_, ?_, Or.inl (by rw [hst, hm.denom])⟩
    · rw [hm.supply, hm.denom, if_pos rfl, hf3]; omega
    · rw [hch, hm.denom]; exact AMap.get_set_self _ _ _
    · rw [hch, hm.denom]; exact hf2
  · obtain ⟨ha, hm, hst⟩ := newModule_forward h
    obtain ⟨_, _, _, _, hf0, hf1, hf2, hf3⟩ := ha
    obtain ⟨bal, hch⟩ := hm.chain
    refine ⟨hm.vm, hm.addr, hm.here, by rw [hst, hm.denom]; rfl, ?_, ?_, ?_, Or.inr (by rw [hst, hm.denom])⟩
    · rw [hm.supply, hm.denom, if_pos rfl, hf3]; omega
    · rw [hch, hm.denom]; exact AMap.get_set_self _ _ _
    · rw [hch, hm.denom]; exact hf2

theorem inv_init {b : Block} {w : World} (h : Init b w) : Inv w [] := by
  obtain ⟨dao, self, issuer, d, th, h1, h2, h3, hv, hs, hh, hd, hf, _, _, _⟩ := init_shape h
  refine ⟨?_, ?_, hd, ?_, ?_, hf, ?_⟩
  · rw [hv]; rfl
  · rw [hv]; exact AMap.WF_nil
  · rw [hs, hh]; exact h3
  · rw [hv, hs]; exact h1
  · rw [hv]
    have z : (fresh dao d th).total = 0 := rfl
    have z' : (fresh dao d th).claims.owed = 0 := rfl
    rw [z, z']; omega

/-- What a message to the chain can take from an account that is not the sender's. -/
def taken (c : Issuer.Chain) (d : Nat) (a : Addr) : Issuer.ChainMsg → Nat
  | .burn x n src => if src = a ∧ x = d ∧ c.burnsAny = true then n else 0
  | .force x n src _ => if src = a ∧ x = d then n else 0
  | _ => 0

theorem run_taken {c c' : Issuer.Chain} {s : Issuer.State} {here : Addr} {f : Bool} {who : Addr} {m : Issuer.ChainMsg}
    (h : c.run s here f who m = .ok c') (d : Nat) {a : Addr} (ha : who ≠ a) :
    getD0 c.bal (d, a) ≤ getD0 c'.bal (d, a) + taken c d a m := by
  have := run_holds h d a
  cases m with
  | send x dest n => simpa [ha, taken] using this
  | burn x n src =>
    by_cases hb : c.burnsAny = true
    · simpa [hb, taken] using this
    · simpa [hb, ha, taken] using this
  | force x n src dest => simpa [taken] using this
  | mint x n => simpa [taken] using this
  | changeAdmin x y => simpa [taken] using this
  | setHook x y => simpa [taken] using this

/-- The messages of the issuer, as far as they take from others. -/
def takenBy (w : World) (a : Addr) : Issuer.Msg → Nat
  | .force n src _ => if src = a then n else 0
  | .burn src n => if src = a ∧ w.iss.chain.burnsAny = true then n else 0
  | _ => 0

theorem issuer_taken {w : World} {iss : Issuer.World} {e : Issuer.Env} {m : Issuer.Msg} {a : Addr}
    (hd : w.iss.st.denom = w.denom) (ha : a ≠ w.iss.here)
    (hs : Issuer.step w.iss e (.exec m) = .ok (iss, ())) :
    getD0 w.iss.chain.bal (w.denom, a) ≤ getD0 iss.chain.bal (w.denom, a) + takenBy w a m := by
  obtain ⟨msgs, h1, h2, h3⟩ := Issuer.step_exec hs
  obtain ⟨h4, h5⟩ := Issuer.exec_msgs h1
  rw [h5] at h2
  clear h5
  cases m with
  | mint dest n =>
    simp only [Issuer.Chain.runAll, bind_ok, Except.ok.injEq] at h2
    obtain ⟨c1, r1, c2, r2, h2⟩ := h2
    subst h2
    have t1 := run_taken r1 w.denom (Ne.symm ha)
    have t2 := run_taken r2 w.denom (Ne.symm ha)
    simp only [taken, takenBy] at *
    omega
  | burn src n =>
    have t1 := run_taken (Issuer.runAll_one h2) w.denom (Ne.symm ha)
    simpa [taken, takenBy, hd] using t1
  | force n src dest =>
    have t1 := run_taken (Issuer.runAll_one h2) w.denom (Ne.symm ha)
    simpa [taken, takenBy, hd] using t1
  | setHook x =>
    have t1 := run_taken (Issuer.runAll_one h2) w.denom (Ne.symm ha)
    simpa [taken, takenBy, hd] using t1
  | updateAdmin x =>
    have t1 := run_taken (Issuer.runAll_one h2) w.denom (Ne.symm ha)
    simpa [taken, takenBy, hd] using t1
  | allow x y => rw [Issuer.runAll_nil h2]; omega
  | deny x y => rw [Issuer.runAll_nil h2]; omega
  | freeze y => rw [Issuer.runAll_nil h2]; omega
  | setBurner x y => rw [Issuer.runAll_nil h2]; omega
  | setMinter x y => rw [Issuer.runAll_nil h2]; omega
  | updateOwnership x => rw [Issuer.runAll_nil h2]; omega

theorem seized_issuer (w w' : World) (e : Issuer.Env) (m : Issuer.Msg) (out : TokenStaked.Out) (log : List Event) :
    seized (⟨w, e, .issuer m, out, w'⟩ :: log) = seized log + takenBy w w.self m := by
  cases m <;> simp [seized, takenBy]

theorem seized_chain (w w' : World) (e : Issuer.Env) (m : Issuer.ChainMsg) (out : TokenStaked.Out) (log : List Event) :
    seized (⟨w, e, .chain m, out, w'⟩ :: log) = seized log + taken w.iss.chain w.denom w.self m := by
  cases m <;> simp [seized, taken]

theorem inv_step {w w' : World} {e : Issuer.Env} {call : Call} {out : TokenStaked.Out} {log : List Event}
    (hi : Inv w log) (hs : step w e call = .ok (w', out)) : Inv w' (⟨w, e, call, out, w'⟩ :: log) := by
  have hcov := hi.covered
  have heff := step_effect hs
  clear hs
  cases heff with
  | issuer m iss ha hs hsup =>
    refine ⟨hi.sum, hi.wf, ?_, ?_, hi.apartDao, hsup, ?_⟩
    · show iss.st.denom = w.denom
      rw [Issuer.step_denom hs]; exact hi.denom
    · show w.self ≠ iss.here
      rw [Issuer.step_here hs]; exact hi.apart
    · have := issuer_taken hi.denom hi.apart hs
      rw [seized_issuer]
      simp only [holds] at hcov ⊢
      omega
  | chain m iss ha hs hsup =>
    refine ⟨hi.sum, hi.wf, ?_, ?_, hi.apartDao, hsup, ?_⟩
    · show iss.st.denom = w.denom
      rw [Issuer.step_denom hs]; exact hi.denom
    · show w.self ≠ iss.here
      rw [Issuer.step_here hs]; exact hi.apart
    · have := run_taken (Issuer.step_chain hs).2.1 w.denom ha
      rw [seized_chain]
      simp only [holds] at hcov ⊢
      omega
  | stake n ch ha hn ht =>
    have e1 : TokenStaked.State.total (afterStake w.vm e.block e.sender n) = w.vm.total + n := TokenStaked.total_save _ _ _
    refine ⟨?_, ?_, hi.denom, hi.apart, hi.apartDao, ?_, ?_⟩
    · show TokenStaked.State.total (afterStake w.vm e.block e.sender n) =
        Verif.total (afterStake w.vm e.block e.sender n).staked.cur
      have := TokenStaked.sum_set (x := w.vm.stakedOf e.sender + n) hi.sum e.sender
      have hs' := hi.sum
      rw [e1]
      show _ = Verif.total (w.vm.staked.cur.set e.sender (w.vm.stakedOf e.sender + n))
      omega
    · exact AMap.WF_set hi.wf _ _
    · show supply ch w.denom < U128
      rw [ht.supply]; exact hi.fits
    · have hh := (ht.holds ha w.self).2
      rw [if_neg (Ne.symm ha), if_pos rfl] at hh
      show TokenStaked.State.total (afterStake w.vm e.block e.sender n) + w.vm.claims.owed ≤ holds (w.withChain ch) w.self + _
      rw [e1, hh]
      simp only [seized]
      omega
  | payout n ch out ha hn hs htot hd ht =>
    have e1 : TokenStaked.State.total (afterUnstake w.vm e.block e.sender n) = w.vm.total - n := TokenStaked.total_save _ _ _
    refine ⟨?_, ?_, hi.denom, hi.apart, hi.apartDao, ?_, ?_⟩
    · show TokenStaked.State.total (afterUnstake w.vm e.block e.sender n) =
        Verif.total (afterUnstake w.vm e.block e.sender n).staked.cur
      have := TokenStaked.sum_set (x := w.vm.stakedOf e.sender - n) hi.sum e.sender
      have hs' := hi.sum
      rw [e1]
      show _ = Verif.total (w.vm.staked.cur.set e.sender (w.vm.stakedOf e.sender - n))
      omega
    · exact AMap.WF_set hi.wf _ _
    · show supply ch w.denom < U128
      rw [ht.supply]; exact hi.fits
    · have hh := ht.holds (Ne.symm ha) w.self
      rw [if_pos rfl] at hh
      show TokenStaked.State.total (afterUnstake w.vm e.block e.sender n) + w.vm.claims.owed ≤ holds (w.withChain ch) w.self + _
      rw [e1, hh.2]
      simp only [seized]
      omega
  | unbond n d out ha hn hs htot hd hlen =>
    have e1 : TokenStaked.State.total (afterUnstake w.vm e.block e.sender n) = w.vm.total - n := TokenStaked.total_save _ _ _
    refine ⟨?_, ?_, hi.denom, hi.apart, hi.apartDao, hi.fits, ?_⟩
    · show TokenStaked.State.total (afterUnstake w.vm e.block e.sender n) =
        Verif.total (afterUnstake w.vm e.block e.sender n).staked.cur
      have := TokenStaked.sum_set (x := w.vm.stakedOf e.sender - n) hi.sum e.sender
      have hs' := hi.sum
      rw [e1]
      show _ = Verif.total (w.vm.staked.cur.set e.sender (w.vm.stakedOf e.sender - n))
      omega
    · exact AMap.WF_set hi.wf _ _
    · show TokenStaked.State.total (afterUnstake w.vm e.block e.sender n) +
        (w.vm.claims.create e.sender n (d.after e.block)).owed ≤ holds w w.self + _
      rw [e1, Claims.owed_create]
      simp only [seized]
      omega
  | claim n cl ch ha hc hn ht =>
    refine ⟨hi.sum, hi.wf, hi.denom, hi.apart, hi.apartDao, ?_, ?_⟩
    · show supply ch w.denom < U128
      rw [ht.supply]; exact hi.fits
    · have hh := ht.holds (Ne.symm ha) w.self
      have ho := Claims.owed_claim hc
      rw [if_pos rfl] at hh
      show w.vm.total + cl.owed ≤ holds (w.withChain ch) w.self + _
      rw [hh.2]
      simp only [seized]
      omega
  | admin m c ha hs hm =>
    refine ⟨?_, ?_, hi.denom, hi.apart, ?_, hi.fits, ?_⟩
    · show c.total = Verif.total c.staked.cur
      unfold TokenStaked.State.total
      rw [hs.total, hs.staked]; exact hi.sum
    · show c.staked.cur.WF
      rw [hs.staked]; exact hi.wf
    · show c.dao ≠ w.self
      rw [hs.dao]; exact hi.apartDao
    · have e1 : c.total = w.vm.total := by unfold TokenStaked.State.total; rw [hs.total]
      show c.total + c.claims.owed ≤ holds w w.self + _
      rw [e1, hs.claims]
      simp only [seized]
      omega

theorem inv_reach {w : World} {b : Block} {log : List Event} (h : sys.Reach w b log) : Inv w log := by
  obtain ⟨b0, s0, h0, hr⟩ := h
  induction hr with
  | refl => exact inv_init h0
  | step hrr hbb hs ih => exact inv_step ih hs

end Verif.TokenDao
