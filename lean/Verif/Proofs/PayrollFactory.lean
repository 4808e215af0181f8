import Verif.Spec.PayrollFactory
import Verif.Proofs.Vesting
/-!
# Proofs about cw-payroll-factory
-/

namespace Verif.PayrollFactory
open Spec.PayrollFactory

theorem mustPay_ok {funds : List (Nat × Nat)} {d n : Nat} (h : mustPay funds d = .ok n) :
    funds = [(d, n)] ∧ n ≠ 0 := by
  unfold mustPay at h
  split at h
  · split at h
    · rename_i hd
      simp only [Except.ok.injEq] at h
      subst h
      obtain ⟨rfl, h0⟩ := hd
      exact ⟨rfl, h0⟩
    · cases h
  · cases h

theorem checkFunds_native {d total : Nat} {funds : List (Nat × Nat)} {u : Unit} :
    checkFunds (.native d) total funds = .ok u ↔ funds = [(d, total)] ∧ total ≠ 0 := by
  constructor
  · intro h
    simp only [checkFunds, bind_ok, require_ok, decide_eq_true_eq] at h
    obtain ⟨n, h1, rfl⟩ := h
    exact mustPay_ok h1
  · rintro ⟨rfl, h0⟩
    simp only [checkFunds, bind_ok, require_ok, decide_eq_true_eq]
    exact ⟨total, by simp [mustPay, h0], rfl⟩

theorem checkFunds_cw20 {t : Addr} {total : Nat} {funds : List (Nat × Nat)} {u : Unit} :
    checkFunds (.cw20 t) total funds = .ok u ↔ funds = [] := by
  simp [checkFunds]

/-- What a new vest is. -/
theorem vest_new {b : Block} {m : Vesting.InstMsg} {s : Vesting.State} (h : Vesting.instantiate b m = .ok s) :
    s.vest.total = m.total ∧ m.total ≠ 0 ∧ s.vest.denom = m.denom ∧ s.vest.recipient = m.recipient ∧
      s.vest.status = Vesting.initialStatus m.denom ∧ s.owner.owner = m.owner := by
  simp only [Vesting.instantiate, bind_ok, require_ok, decide_eq_true_eq, Except.ok.injEq] at h
  obtain ⟨_, _, _, h0, _, _, c, hc, rfl⟩ := h
  simp only [Vesting.Schedule.intoCurve, bind_ok, require_ok, decide_eq_true_eq, Except.ok.injEq] at hc
  obtain ⟨c', _, _, _, _, hr, rfl⟩ := hc
  exact ⟨by simp [Vesting.Vest.total, hr], h0, rfl, rfl, rfl, rfl⟩

/-- The funding message is carried out. -/
inductive Forwarded (self : Addr) (honest : List Addr) (e : Env) (bal : Balances) (v : Vesting.State) :
    Option (Addr × Nat) → Balances → Vesting.State → Prop where
  | native : Forwarded self honest e bal v none bal v
  | honest {t n bal' v'} (hh : t ∈ honest) (hm : bal.move (.cw20 t, self) (.cw20 t, e.newAddr) n = .ok bal')
      (hv : Vesting.receive v { block := e.block, sender := t } n = .ok (v', [])) :
      Forwarded self honest e bal v (some (t, n)) bal' v'
  | told {t n v'} (hh : t ∉ honest) (hv : Vesting.receive v { block := e.block, sender := t } n = .ok (v', [])) :
      Forwarded self honest e bal v (some (t, n)) bal v'
  | silent {t n} (hh : t ∉ honest) : Forwarded self honest e bal v (some (t, n)) bal v

theorem receive_out {s : Vesting.State} {e : Vesting.Env} {n : Nat} {r : Vesting.State × List Vesting.Pay}
    (h : Vesting.receive s e n = .ok r) :
    r = ({ s with vest := { s.vest with status := .funded } }, []) ∧ s.vest.total = n ∧
      s.vest.denom = .cw20 e.sender ∧ s.vest.status = .unfunded := by
  simp only [Vesting.receive, bind_ok, require_ok, decide_eq_true_eq, Except.ok.injEq] at h
  obtain ⟨_, h1, _, h2, _, h3, rfl⟩ := h
  exact ⟨rfl, h1, h2, h3⟩

theorem forward_effect {self : Addr} {honest : List Addr} {e : Env} {bal : Balances} {v : Vesting.State}
    {f : Option (Addr × Nat)} {r : Balances × Vesting.State} (h : forward self honest e bal v f = .ok r) :
    Forwarded self honest e bal v f r.1 r.2 := by
  unfold forward at h
  split at h
  · simp only [Except.ok.injEq] at h; subst h; exact .native
  · split at h
    · rename_i hh
      simp only [bind_ok, Except.ok.injEq] at h
      obtain ⟨b', hb, x, hx, rfl⟩ := h
      have he := (receive_out hx).1
      exact .honest hh hb (by rw [hx, he])
    · rename_i hh
      split at h
      · simp only [bind_ok, Except.ok.injEq] at h
        obtain ⟨x, hx, rfl⟩ := h
        have he := (receive_out hx).1
        exact .told hh (by rw [hx, he])
      · simp only [Except.ok.injEq] at h; subst h; exact .silent hh

/-- A vesting contract was created. -/
structure Made (w : World) (e : Env) (i : Addr) (m : VestMsg) (funds : List (Nat × Nat)) (bal0 : Balances)
    (w' : World) : Prop where
  auth : ∀ o, w.c.owner.owner = some o → o = i
  code : w.c.codeId = w.vestCode
  notSelf : e.newAddr ≠ w.self
  unused : w.vests.get e.newAddr = none
  notToken : e.newAddr ∉ w.honest
  answers : tokenAnswers w e.newAddr m.token = true
  rest : ∃ bal1 v bal2 v2, pullCoins e.newAddr w.self funds bal0 = .ok bal1 ∧
    Vesting.instantiate e.block (m.inst w.bond) = .ok v ∧ checkFunds m.token m.total funds = .ok () ∧
    Forwarded w.self w.honest e bal1 v (fundMsg v.vest) bal2 v2 ∧
    w' = { w with c := { w.c with tmp := none, registry := w.c.registry.set e.newAddr
                                    { contract := e.newAddr, instantiator := i, recipient := m.recipient } }
                  bal := bal2
                  vests := w.vests.set e.newAddr { state := v2, token := m.token, admin := m.owner } }

theorem owner_check {o : Option Addr} {a : Addr}
    (h : (match o with | some o => decide (o = a) | none => true) = true) : ∀ x, o = some x → x = a := by
  intro x hx; subst hx; simpa using h

theorem create_made {w : World} {e : Env} {i : Addr} {m : VestMsg} {funds : List (Nat × Nat)} {bal0 : Balances}
    {w' : World} {s1 : State} {c : Option Create} {o : Option Addr}
    (h1 : instantiateContract { w.c with tmp := some i } i funds m = .ok (s1, c))
    (h2 : finish { w with bal := bal0, c := s1 } e c = .ok (w', o)) :
    Made w e i m funds bal0 w' ∧ o = some e.newAddr := by
  simp only [instantiateContract, bind_ok, require_ok, Except.ok.injEq, Prod.mk.injEq] at h1
  obtain ⟨_, ha, rfl, rfl⟩ := h1
  simp only [finish, bind_ok, Except.ok.injEq, Prod.mk.injEq] at h2
  obtain ⟨w2, h2, rfl, rfl⟩ := h2
  simp only [create, vestInstantiate, bind_ok, require_ok, decide_eq_true_eq, Except.ok.injEq] at h2
  obtain ⟨_, hcode, _, hfresh, _, hans, bal1, hb1, v, ⟨v', hv, _, hf, rfl⟩, x, hx, y, hy, rfl⟩ := h2
  simp only [freshAddr, Bool.and_eq_true, decide_eq_true_eq] at hfresh
  simp only [reply, bind_ok, orErr_ok, Except.ok.injEq, Option.some.injEq] at hx
  obtain ⟨i', rfl, rfl⟩ := hx
  have hn := vest_new hv
  refine ⟨⟨owner_check ha, hcode, hfresh.1.1, hfresh.1.2, hfresh.2, hans, bal1, v', y.1, y.2, hb1, hv, ?_,
    forward_effect hy, ?_⟩, rfl⟩
  · rw [← hf, hn.1]; rfl
  · rw [hn.2.2.2.1]; rfl

/-- What a transaction does. -/
inductive Effect (w : World) (e : Env) : Call → World → Option Addr → Prop where
  | owner {a bal o} (hs : e.sender ≠ w.self) (hp : pullCoins w.self e.sender e.funds w.bal = .ok bal)
      (ho : w.c.owner.update e.block e.sender a = .ok o) :
      Effect w e (.msg (.updateOwnership a)) { w with bal := bal, c := { w.c with owner := o } } none
  | code {id bal} (hs : e.sender ≠ w.self) (hp : pullCoins w.self e.sender e.funds w.bal = .ok bal)
      (ho : w.c.owner.owner = some e.sender) :
      Effect w e (.msg (.updateCodeId id)) { w with bal := bal, c := { w.c with codeId := id } } none
  | native {m bal w'} (hs : e.sender ≠ w.self) (hn : e.newAddr ≠ e.sender)
      (hp : pullCoins w.self e.sender e.funds w.bal = .ok bal) (hm : Made w e e.sender m e.funds bal w') :
      Effect w e (.msg (.native m)) w' (some e.newAddr)
  | forged {s n m w'} (hs : e.sender ≠ w.self) (hh : e.sender ∉ w.honest) (hf : e.funds = []) (hn : n = m.total)
      (ht : w.c.tmp = none) (hm : Made w e s m [] w.bal w') :
      Effect w e (.msg (.receive s n m)) w' (some e.newAddr)
  | cw20 {t p n m bal w'} (hh : t ∈ w.honest) (hp : p ≠ w.self) (hnp : e.newAddr ≠ p) (hn : n = m.total)
      (ht : w.c.tmp = none) (hb : w.bal.move (.cw20 t, p) (.cw20 t, w.self) n = .ok bal)
      (hm : Made w e e.sender m [] bal w') : Effect w e (.cw20Send t p n m) w' (some e.newAddr)
  | transfer {t dst n bal} (hs : e.sender ≠ w.self) (hb : w.bal.move (t, e.sender) (t, dst) n = .ok bal) :
      Effect w e (.transfer t dst n) { w with bal := bal } none

theorem step_effect {w : World} {e : Env} {call : Call} {w' : World} {out : Option Addr}
    (h : step w e call = .ok (w', out)) : Effect w e call w' out := by
  cases call with
  | msg m =>
    simp only [step, run, bind_ok, require_ok, Bool.and_eq_true, decide_eq_true_eq] at h
    obtain ⟨_, ⟨⟨hs, hh⟩, hn⟩, bal, hb, r, hr, hf⟩ := h
    cases m with
    | receive s n m =>
      simp only [exec, receive, bind_ok, require_ok, decide_eq_true_eq] at hr
      obtain ⟨_, he, _, ht, _, ha, hr⟩ := hr
      have he : e.funds = [] := by simpa using he
      rw [he] at hb
      simp only [pullCoins, Except.ok.injEq] at hb
      subst hb
      obtain ⟨hm, rfl⟩ := create_made (c := r.2) (s1 := r.1) hr hf
      exact .forged hs hh he ha ht hm
    | native m =>
      obtain ⟨hm, rfl⟩ := create_made (c := r.2) (s1 := r.1) hr hf
      exact .native hs hn hb hm
    | updateOwnership a =>
      simp only [exec, bind_ok, Except.ok.injEq] at hr
      obtain ⟨o, ho, rfl⟩ := hr
      simp only [finish, Except.ok.injEq, Prod.mk.injEq] at hf
      obtain ⟨rfl, rfl⟩ := hf
      exact .owner hs hb ho
    | updateCodeId id =>
      simp only [exec, bind_ok, Except.ok.injEq, Ownership.assertOwner_ok] at hr
      obtain ⟨_, ho, rfl⟩ := hr
      simp only [finish, Except.ok.injEq, Prod.mk.injEq] at hf
      obtain ⟨rfl, rfl⟩ := hf
      exact .code hs hb ho
  | cw20Send t p n m =>
    simp only [step, run, bind_ok, require_ok, Bool.and_eq_true, decide_eq_true_eq] at h
    obtain ⟨_, ⟨⟨hh, hp⟩, hnp⟩, bal, hb, r, hr, hf⟩ := h
    simp only [exec, receive, bind_ok, require_ok, decide_eq_true_eq] at hr
    obtain ⟨_, _, _, ht, _, ha, hr⟩ := hr
    obtain ⟨hm, rfl⟩ := create_made (c := r.2) (s1 := r.1) hr hf
    exact .cw20 hh hp hnp ha ht hb hm
  | transfer t dst n =>
    simp only [step, bind_ok, require_ok, decide_eq_true_eq, Except.ok.injEq, Prod.mk.injEq] at h
    obtain ⟨_, hs, bal, hb, rfl, rfl⟩ := h
    exact .transfer hs hb

/-- The four ways of creating a vesting contract, seen together. -/
theorem made_of_out {w : World} {e : Env} {call : Call} {w' : World} {a : Addr} (h : Effect w e call w' (some a)) :
    a = e.newAddr ∧ ∃ m funds bal0, asked call = some m ∧ Made w e (named e call) m funds bal0 w' := by
  cases h with
  | native hs hn hp hm => exact ⟨rfl, _, _, _, rfl, hm⟩
  | forged hs hh hf hn ht hm => exact ⟨rfl, _, _, _, rfl, hm⟩
  | cw20 hh hp hnp hn ht hb hm => exact ⟨rfl, _, _, _, rfl, hm⟩

/-- Transactions that create nothing leave the registry and the contracts alone. -/
theorem kept_of_none {w : World} {e : Env} {call : Call} {w' : World} (h : Effect w e call w' none) :
    w'.c.registry = w.c.registry ∧ w'.vests = w.vests ∧ w'.c.tmp = w.c.tmp := by
  cases h <;> exact ⟨rfl, rfl, rfl⟩

/-- The parts of the world that never change. -/
theorem static {w : World} {e : Env} {call : Call} {w' : World} {out : Option Addr} (h : Effect w e call w' out) :
    w'.self = w.self ∧ w'.honest = w.honest ∧ w'.bond = w.bond ∧ w'.vestCode = w.vestCode := by
  cases h with
  | owner => exact ⟨rfl, rfl, rfl, rfl⟩
  | code => exact ⟨rfl, rfl, rfl, rfl⟩
  | transfer => exact ⟨rfl, rfl, rfl, rfl⟩
  | native hs hn hp hm => obtain ⟨_, _, _, _, _, _, _, _, rfl⟩ := hm.rest; exact ⟨rfl, rfl, rfl, rfl⟩
  | forged hs hh hf hn ht hm => obtain ⟨_, _, _, _, _, _, _, _, rfl⟩ := hm.rest; exact ⟨rfl, rfl, rfl, rfl⟩
  | cw20 hh hp hnp hn ht hb hm => obtain ⟨_, _, _, _, _, _, _, _, rfl⟩ := hm.rest; exact ⟨rfl, rfl, rfl, rfl⟩

/-! ## Balances are 128-bit numbers -/

theorem move_bound {l l' : Balances} {a b : Token × Addr} {n : Nat} (h : l.move a b n = .ok l')
    (hl : ∀ k, getD0 l k < U128) : ∀ k, getD0 l' k < U128 := by
  intro k
  simp only [Ledger.move, bind_ok] at h
  obtain ⟨l1, h1, h2⟩ := h
  have hc := (Ledger.credit_ok.1 h2).1
  rw [Ledger.credit_get h2]
  split
  · exact hc
  · rw [Ledger.debit_get h1]
    split
    · exact Nat.lt_of_le_of_lt (Nat.sub_le _ _) (hl _)
    · exact hl _

theorem pullCoins_bound {self a : Addr} {cs : List (Nat × Nat)} {l l' : Balances} (h : pullCoins self a cs l = .ok l')
    (hl : ∀ k, getD0 l k < U128) : ∀ k, getD0 l' k < U128 := by
  induction cs generalizing l with
  | nil => simp only [pullCoins, Except.ok.injEq] at h; subst h; exact hl
  | cons c cs ih =>
    obtain ⟨d, n⟩ := c
    unfold pullCoins at h
    obtain ⟨l1, h1, h⟩ := (bind_ok _ _ _).mp h
    exact ih h (move_bound h1 hl)

theorem made_bound {w : World} {e : Env} {i : Addr} {m : VestMsg} {funds : List (Nat × Nat)} {bal0 : Balances}
    {w' : World} (h : Made w e i m funds bal0 w') (hl : ∀ k, getD0 bal0 k < U128) : ∀ k, getD0 w'.bal k < U128 := by
  obtain ⟨bal1, v, bal2, v2, h1, _, _, hf, rfl⟩ := h.rest
  have hb := pullCoins_bound h1 hl
  generalize fundMsg v.vest = f at hf
  cases hf with
  | native => exact hb
  | honest hh hm hv => exact move_bound hm hb
  | told => exact hb
  | silent => exact hb

/-- What holds in every reachable world. -/
structure Inv (w : World) : Prop where
  tmp : w.c.tmp = none
  wf : AMap.WF w.c.registry
  keys : ∀ a, w.c.registry.get a = none ↔ w.vests.get a = none
  self : w.self ∉ w.honest
  bound : ∀ k, getD0 w.bal k < U128

theorem inv_init {b : Block} {w : World} (h : sys.init b w) : Inv w := by
  obtain ⟨⟨o, id, hc⟩, hv, hs, hb⟩ := h
  refine ⟨by rw [hc]; rfl, ?_, ?_, hs, hb⟩
  · rw [hc]; exact AMap.WF_nil
  · intro a; rw [hc, hv]; simp [instantiate, AMap.get]

theorem made_inv {w : World} {e : Env} {i : Addr} {m : VestMsg} {funds : List (Nat × Nat)} {bal0 : Balances}
    {w' : World} (h : Made w e i m funds bal0 w') (hl : ∀ k, getD0 bal0 k < U128) (hi : Inv w) : Inv w' := by
  have hb := made_bound h hl
  obtain ⟨bal1, v, bal2, v2, h1, _, _, hf, rfl⟩ := h.rest
  refine ⟨rfl, AMap.WF_set hi.wf _ _, ?_, hi.self, hb⟩
  intro a
  rw [AMap.get_set, AMap.get_set]
  split
  · simp
  · exact hi.keys a

theorem inv_effect {w : World} {e : Env} {call : Call} {w' : World} {out : Option Addr} (h : Effect w e call w' out)
    (hi : Inv w) : Inv w' := by
  cases h with
  | owner hs hp ho => exact ⟨hi.tmp, hi.wf, hi.keys, hi.self, pullCoins_bound hp hi.bound⟩
  | code hs hp ho => exact ⟨hi.tmp, hi.wf, hi.keys, hi.self, pullCoins_bound hp hi.bound⟩
  | transfer hs hb => exact ⟨hi.tmp, hi.wf, hi.keys, hi.self, move_bound hb hi.bound⟩
  | native hs hn hp hm => exact made_inv hm (pullCoins_bound hp hi.bound) hi
  | forged hs hh hf hn ht hm => exact made_inv hm hi.bound hi
  | cw20 hh hp hnp hn ht hb hm => exact made_inv hm (move_bound hb hi.bound) hi

theorem inv_reach {w : World} {b : Block} {log : List Event} (h : sys.Reach w b log) : Inv w :=
  Sys.Reach.induct (M := sys) (P := fun w _ _ => Inv w) (fun _ _ h => inv_init h)
    (fun _ _ _ _ _ _ _ _ hi _ hs => inv_effect (step_effect hs) hi) h

/-! ## What a creation does to the balances -/

theorem fundMsg_eq {b : Block} {m : VestMsg} {bond : Nat} {v : Vesting.State}
    (h : Vesting.instantiate b (m.inst bond) = .ok v) :
    fundMsg v.vest = match m.token with | .native _ => none | .cw20 t => some (t, m.total) := by
  have hn := vest_new h
  unfold fundMsg
  rw [hn.2.2.1, hn.1]
  unfold VestMsg.inst denomOf
  cases m.token <;> rfl

theorem pair_ne {t : Token} {a b : Addr} (h : a ≠ b) : (t, a) ≠ (t, b) := by
  intro e; simp only [Prod.mk.injEq, true_and] at e; exact h e

theorem fst_ne {t u : Token} (a b : Addr) (h : t ≠ u) : (t, a) ≠ (u, b) := by
  intro e; simp only [Prod.mk.injEq] at e; exact h e.1

/-- The factory hands on what the vest needs, the new contract gets it, nobody else's balance changes. -/
theorem made_money {w : World} {e : Env} {i : Addr} {m : VestMsg} {funds : List (Nat × Nat)} {bal0 : Balances}
    {w' : World} (h : Made w e i m funds bal0 w') {t : Token} (ht : Tracked w t) :
    getD0 w'.bal (t, w.self) + owed t m = getD0 bal0 (t, w.self) ∧
      getD0 w'.bal (t, e.newAddr) = getD0 bal0 (t, e.newAddr) + owed t m ∧
      ∀ q, q ≠ w.self → q ≠ e.newAddr → getD0 w'.bal (t, q) = getD0 bal0 (t, q) := by
  obtain ⟨bal1, v, bal2, v2, h1, hv, hc, hf, rfl⟩ := h.rest
  rw [fundMsg_eq hv] at hf
  obtain ⟨p1, p2, p3, p4⟩ := pullCoins_get h1 (Ne.symm h.notSelf) t
  show getD0 bal2 _ + _ = _ ∧ getD0 bal2 _ = _ ∧ ∀ q, _ → _ → getD0 bal2 _ = _
  cases hm : m.token with
  | native d =>
    rw [hm] at hf hc
    have hfu := (checkFunds_native.1 hc).1
    have hco : coinsOf t funds = owed t m := by
      rw [hfu]; simp [owed, hm]
    rw [hco] at p1 p2 p3
    simp only at hf
    cases hf
    exact ⟨by omega, p1, fun q q1 q2 => p4 q q2 q1⟩
  | cw20 c =>
    rw [hm] at hf hc
    have hfu := checkFunds_cw20.1 hc
    rw [hfu] at p1 p2 p3
    simp only [coinsOf_nil] at p1 p2
    simp only at hf
    cases hf with
    | honest hh hmv hvv =>
      have mv := fun q => Ledger.move_get hmv (pair_ne (t := .cw20 c) (Ne.symm h.notSelf)) q
      by_cases htc : Token.cw20 c = t
      · subst htc
        have m1 := mv (.cw20 c, w.self)
        have m2 := mv (.cw20 c, e.newAddr)
        rw [if_pos rfl] at m1
        rw [if_neg (pair_ne h.notSelf), if_pos rfl] at m2
        have ho : owed (.cw20 c) m = m.total := by simp [owed, hm]
        rw [ho]
        refine ⟨by omega, by omega, fun q q1 q2 => ?_⟩
        rw [(mv (.cw20 c, q)).2, if_neg (pair_ne q1), if_neg (pair_ne q2), p4 q q2 q1]
      · have ho : owed t m = 0 := by simp [owed, hm, htc]
        have hne : t ≠ .cw20 c := Ne.symm htc
        have hk : ∀ q, getD0 bal2 (t, q) = getD0 bal1 (t, q) := by
          intro q
          rw [(mv (t, q)).2, if_neg (fst_ne _ _ hne), if_neg (fst_ne _ _ hne)]
        rw [ho]
        refine ⟨by rw [hk]; omega, by rw [hk]; omega, fun q q1 q2 => by rw [hk, p4 q q2 q1]⟩
    | told hh hvv =>
      have ho : owed t m = 0 := by
        unfold owed; rw [hm]
        split
        · rename_i he; subst he; exact absurd ht hh
        · rfl
      rw [ho]
      exact ⟨by omega, by omega, fun q q1 q2 => p4 q q2 q1⟩
    | silent hh =>
      have ho : owed t m = 0 := by
        unfold owed; rw [hm]
        split
        · rename_i he; subst he; exact absurd ht hh
        · rfl
      rw [ho]
      exact ⟨by omega, by omega, fun q q1 q2 => p4 q q2 q1⟩

/-- The state of the new contract when the transaction ends. -/
theorem made_state {w : World} {e : Env} {i : Addr} {m : VestMsg} {funds : List (Nat × Nat)} {bal0 : Balances}
    {w' : World} (h : Made w e i m funds bal0 w') :
    ∃ v v2, Vesting.instantiate e.block (m.inst w.bond) = .ok v ∧
      w'.vests.get e.newAddr = some { state := v2, token := m.token, admin := m.owner } ∧
      (v2 = v ∧ (∀ c, m.token = .cw20 c → c ∉ w.honest) ∨
        ∃ c, m.token = .cw20 c ∧ Vesting.receive v { block := e.block, sender := c } m.total = .ok (v2, [])) := by
  obtain ⟨bal1, v, bal2, v2, h1, hv, hc, hf, rfl⟩ := h.rest
  rw [fundMsg_eq hv] at hf
  refine ⟨v, v2, hv, AMap.get_set_self .., ?_⟩
  cases hm : m.token with
  | native d =>
    rw [hm] at hf
    simp only at hf
    cases hf
    exact Or.inl ⟨rfl, by intro c hc; cases hc⟩
  | cw20 c =>
    rw [hm] at hf
    simp only at hf
    cases hf with
    | honest hh hmv hvv => exact Or.inr ⟨c, rfl, hvv⟩
    | told hh hvv => exact Or.inr ⟨c, rfl, hvv⟩
    | silent hh => exact Or.inl ⟨rfl, by intro c' hc'; cases hc'; exact hh⟩

end Verif.PayrollFactory
