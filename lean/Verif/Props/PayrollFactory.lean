import Verif.Proofs.PayrollFactory
import Verif.Props.Paginate
/-!
# C76, C77: cw-payroll-factory
-/

namespace Verif.PayrollFactory
open Spec.PayrollFactory

/-! ## C76: the registry and who may create -/

/-- C76. The registry lists exactly the contracts that were created, each once, with the recipient that was asked for and
with whom the factory was told wanted it. -/
theorem C76_registry {w : World} {b : Block} {log : List Event} (h : sys.Reach w b log) :
    (∀ a en, w.c.registry.get a = some en ↔ ∃ ev ∈ log, ev.out = some a ∧ ∃ m, asked ev.call = some m ∧
      en = { contract := a, instantiator := named ev.env ev.call, recipient := m.recipient }) ∧
    (log.filterMap (fun ev => ev.out)).Nodup ∧ AMap.WF w.c.registry := by
  refine ⟨?_, ?_, (inv_reach h).wf⟩
  · refine Sys.Reach.induct (M := sys) (P := fun w _ log => ∀ a en, w.c.registry.get a = some en ↔
      ∃ ev ∈ log, ev.out = some a ∧ ∃ m, asked ev.call = some m ∧
      en = { contract := a, instantiator := named ev.env ev.call, recipient := m.recipient }) ?_ ?_ h
    · rintro b w ⟨⟨o, id, hc⟩, _⟩ a en
      rw [hc]
      simp [instantiate, AMap.get]
    · intro w b log e call out w' hr ih _ hs a en
      have he := step_effect hs
      have hi := inv_reach hr
      cases out with
      | none =>
        rw [(kept_of_none he).1, ih a en]
        constructor
        · rintro ⟨ev, hev, h⟩; exact ⟨ev, List.mem_cons_of_mem _ hev, h⟩
        · rintro ⟨ev, hev, ho, h⟩
          rcases List.mem_cons.1 hev with rfl | hev
          · cases ho
          · exact ⟨ev, hev, ho, h⟩
      | some x =>
        obtain ⟨rfl, m, funds, bal0, ha, hm⟩ := made_of_out he
        obtain ⟨_, _, _, _, _, _, _, _, rfl⟩ := hm.rest
        have hnone := (hi.keys _).2 hm.unused
        show AMap.get (AMap.set _ _ _) a = _ ↔ _
        rw [AMap.get_set]
        constructor
        · intro hg
          split at hg
          · rename_i hx
            subst hx
            simp only [Option.some.injEq] at hg
            exact ⟨_, List.mem_cons_self .., rfl, m, ha, hg.symm⟩
          · obtain ⟨ev, hev, h⟩ := (ih a en).1 hg
            exact ⟨ev, List.mem_cons_of_mem _ hev, h⟩
        · rintro ⟨ev, hev, ho, m', ha', rfl⟩
          rcases List.mem_cons.1 hev with rfl | hev
          · simp only [Option.some.injEq] at ho
            subst ho
            rw [if_pos rfl]
            simp only at ha'
            rw [ha, Option.some.injEq] at ha'
            subst ha'; rfl
          · have hg := (ih a _).2 ⟨ev, hev, ho, m', ha', rfl⟩
            rw [if_neg ?_]
            · exact hg
            · intro hx; rw [hx, hg] at hnone; cases hnone
  · have key : (log.filterMap (fun ev => ev.out)).Nodup ∧
        ∀ a, a ∈ log.filterMap (fun ev => ev.out) → w.vests.get a ≠ none := by
      refine Sys.Reach.induct (M := sys) (P := fun w _ log => (log.filterMap (fun ev => ev.out)).Nodup ∧
        ∀ a, a ∈ log.filterMap (fun ev => ev.out) → w.vests.get a ≠ none) ?_ ?_ h
      · intro b w _; simp
      · intro w b log e call out w' hr ih _ hs
        have he := step_effect hs
        cases out with
        | none =>
          simp only [List.filterMap_cons_none]
          rw [(kept_of_none he).2.1]
          exact ih
        | some x =>
          obtain ⟨rfl, m, funds, bal0, ha, hm⟩ := made_of_out he
          obtain ⟨_, _, _, _, _, _, _, _, rfl⟩ := hm.rest
          rw [List.filterMap_cons_some (by rfl), List.nodup_cons]
          refine ⟨⟨fun hx => ih.2 _ hx hm.unused, ih.1⟩, ?_⟩
          intro a hx
          show AMap.get (AMap.set _ _ _) a ≠ none
          rw [AMap.get_set]
          split
          · simp
          · rename_i hne
            rcases List.mem_cons.1 hx with rfl | hx
            · exact absurd rfl hne
            · exact ih.2 a hx
    exact key.1

/-- C76. What is listed stays listed as it is. -/
theorem C76_kept {w w' : World} {b b' : Block} {log log' : List Event} (h : sys.Reach w b log)
    (hr : sys.Run w b log' w' b') {a : Addr} {en : Entry} (hg : w.c.registry.get a = some en) :
    w'.c.registry.get a = some en := by
  obtain ⟨ev, hev, hx⟩ := ((C76_registry h).1 a en).1 hg
  exact ((C76_registry (h.run hr)).1 a en).2 ⟨ev, List.mem_append_right _ hev, hx⟩

theorem get_filter {V : Type} {m : AMap Nat V} (hm : AMap.WF m) (q : V → Bool) (k : Nat) (v : V) :
    AMap.get (m.filter (fun p => q p.2)) k = some v ↔ m.get k = some v ∧ q v = true := by
  have hf : AMap.WF (m.filter (fun p => q p.2)) := Paginate.wf_filter hm _
  constructor
  · intro h
    have := AMap.mem_of_get h
    rw [List.mem_filter] at this
    exact ⟨AMap.get_of_mem hm this.1, this.2⟩
  · rintro ⟨h1, h2⟩
    exact AMap.get_of_mem hf (List.mem_filter.2 ⟨AMap.mem_of_get h1, h2⟩)

/-- C76. Asking page by page for the contracts of an instantiator or a recipient, or for all of them, shows every one of
them exactly once, in either direction and with any limit but zero. -/
theorem C76_pages {w : World} {b : Block} {log : List Event} (h : sys.Reach w b log) (x : Addr) (o : Paginate.Order)
    (limit : Option Nat) (hl : limit ≠ some 0) (fuel : Nat) (hf : w.c.registry.length < fuel) :
    (∀ a en, (a, en) ∈ (Spec.Paginate.follow (fun s => listByInstantiator w.c x s limit o) fuel none).flatten ↔
      w.c.registry.get a = some en ∧ en.instantiator = x) ∧
    Spec.Paginate.InOrder o (Spec.Paginate.follow (fun s => listByInstantiator w.c x s limit o) fuel none).flatten ∧
    (∀ a en, (a, en) ∈ (Spec.Paginate.follow (fun s => listByRecipient w.c x s limit o) fuel none).flatten ↔
      w.c.registry.get a = some en ∧ en.recipient = x) ∧
    Spec.Paginate.InOrder o (Spec.Paginate.follow (fun s => listByRecipient w.c x s limit o) fuel none).flatten ∧
    (∀ a en, (a, en) ∈ (Spec.Paginate.follow (fun s => listAll w.c s limit o) fuel none).flatten ↔
      w.c.registry.get a = some en) ∧
    Spec.Paginate.InOrder o (Spec.Paginate.follow (fun s => listAll w.c s limit o) fuel none).flatten := by
  have hw := (inv_reach h).wf
  have hlen : ∀ q : Nat × Entry → Bool, (w.c.registry.filter q).length < fuel := fun q =>
    Nat.lt_of_le_of_lt (List.length_filter_le _ _) hf
  obtain ⟨i1, i2⟩ := Paginate.C59_listing (Paginate.wf_filter hw (fun p => decide (p.2.instantiator = x))) o limit 10
    (some 50) hl (by decide) (by decide) fuel (hlen _)
  obtain ⟨r1, r2⟩ := Paginate.C59_listing (Paginate.wf_filter hw (fun p => decide (p.2.recipient = x))) o limit 10
    (some 50) hl (by decide) (by decide) fuel (hlen _)
  obtain ⟨a1, a2⟩ := Paginate.C59_listing hw o limit 10 (some 50) hl (by decide) (by decide) fuel hf
  refine ⟨fun a en => ?_, i1, fun a en => ?_, r1, a2, a1⟩
  · exact (i2 a en).trans ((get_filter hw (fun v => decide (v.instantiator = x)) a en).trans (by simp))
  · exact (r2 a en).trans ((get_filter hw (fun v => decide (v.recipient = x)) a en).trans (by simp))

/-- C76, in part. Unless `Receive` is called by something that is no token, only the owner creates contracts when there
is an owner, and the instantiator listed is who sent the coins or the tokens. What is missing is `Receive` called by
anybody else, see `C76_forged_witness`. -/
theorem C76_owner_partial {w : World} {b : Block} {log : List Event} (h : sys.Reach w b log) {ev : Event} (hev : ev ∈ log)
    {a : Addr} (ho : ev.out = some a) (hf : ¬ Forged ev.call) :
    (∀ o, ev.pre.c.owner.owner = some o → ev.env.sender = o) ∧
      ∃ en, w.c.registry.get a = some en ∧ en.instantiator = ev.env.sender := by
  obtain ⟨b0, w0, h0, hr⟩ := h
  obtain ⟨_, _, _, _, _, _, hs, _⟩ := hr.event ev hev
  have he := step_effect hs
  rw [ho] at he
  obtain ⟨_, m, funds, bal0, ha, hm⟩ := made_of_out he
  have hn : named ev.env ev.call = ev.env.sender := by
    unfold named
    split
    · rename_i heq; rw [heq] at hf; exact absurd trivial hf
    · rfl
  have hauth := hm.auth
  rw [hn] at hauth
  refine ⟨fun o h => (hauth o h).symm, _, ((C76_registry ⟨b0, w0, h0, hr⟩).1 a _).2 ⟨ev, hev, ho, m, ha, rfl⟩, hn⟩

/-- C76. The code that is instantiated, and who owns the factory, change only as the owner says: the code id by a call of
the owner, the owner by an owner's offer that was accepted or by giving it up. -/
theorem C76_control {w : World} {b : Block} {log : List Event} (h : sys.Reach w b log) {ev : Event} (hev : ev ∈ log) :
    (ev.post.c.codeId ≠ ev.pre.c.codeId → ev.pre.c.owner.owner = some ev.env.sender) ∧
    (ev.post.c.owner.owner = ev.pre.c.owner.owner ∨
      (ev.post.c.owner.owner = some ev.env.sender ∧ ev.pre.c.owner.pendingOwner = some ev.env.sender) ∨
      (ev.post.c.owner.owner = none ∧ ev.pre.c.owner.owner = some ev.env.sender)) := by
  obtain ⟨b0, w0, h0, hr⟩ := h
  obtain ⟨_, _, _, _, _, _, hs, _⟩ := hr.event ev hev
  have he := step_effect hs
  generalize ev.pre = w1, ev.env = e, ev.call = call, ev.post = w2, ev.out = out at he ⊢
  cases he with
  | owner hs hp ho => exact ⟨fun hne => absurd rfl hne, Ownership.update_owner ho⟩
  | code hs hp ho => exact ⟨fun _ => ho, Or.inl rfl⟩
  | transfer hs hb => exact ⟨fun hne => absurd rfl hne, Or.inl rfl⟩
  | native hs hn hp hm => obtain ⟨_, _, _, _, _, _, _, _, rfl⟩ := hm.rest; exact ⟨fun hne => absurd rfl hne, Or.inl rfl⟩
  | forged hs hh hf hn ht hm =>
    obtain ⟨_, _, _, _, _, _, _, _, rfl⟩ := hm.rest; exact ⟨fun hne => absurd rfl hne, Or.inl rfl⟩
  | cw20 hh hp hnp hn ht hb hm =>
    obtain ⟨_, _, _, _, _, _, _, _, rfl⟩ := hm.rest; exact ⟨fun hne => absurd rfl hne, Or.inl rfl⟩

/-! ## C77: the money -/

theorem balance_effect {w : World} {e : Env} {call : Call} {w' : World} {out : Option Addr} (he : Effect w e call w' out)
    {t : Token} (ht : Tracked w t) :
    (out = none → holds w' t = holds w t + paidIn w e t call) ∧
    (∀ a m, out = some a → asked call = some m → holds w' t + owed t m = holds w t + paidIn w e t call) := by
  have hst := static he
  unfold holds
  rw [hst.1]
  cases he with
  | owner hs hp ho => exact ⟨fun _ => (pullCoins_get hp hs t).1, fun a m h => (by cases h)⟩
  | code hs hp ho => exact ⟨fun _ => (pullCoins_get hp hs t).1, fun a m h => (by cases h)⟩
  | transfer hs hb =>
    rename_i c dst n bal
    refine ⟨fun _ => ?_, fun a m h => (by cases h)⟩
    have := Ledger.move_other (q := (t, w.self)) hb (by
      intro he; simp only [Prod.mk.injEq] at he; exact hs he.2.symm)
    show getD0 bal _ = _
    rw [this]
    simp [paidIn]
  | native hs hn hp hm =>
    refine ⟨fun h => (by cases h), ?_⟩
    intro a m h1 h2
    simp only [asked, Option.some.injEq] at h2
    subst h2
    rw [(made_money hm ht).1]
    exact (pullCoins_get hp hs t).1
  | forged hs hh hf hn htm hm =>
    refine ⟨fun h => (by cases h), ?_⟩
    intro a m h1 h2
    simp only [asked, Option.some.injEq] at h2
    subst h2
    rw [(made_money hm ht).1]
    simp [paidIn, hf]
  | cw20 hh hp hnp hn htm hb hm =>
    refine ⟨fun h => (by cases h), ?_⟩
    intro a m h1 h2
    simp only [asked, Option.some.injEq] at h2
    subst h2
    rw [(made_money hm ht).1]
    have := Ledger.move_other (q := (t, w.self)) hb (by
      intro he; simp only [Prod.mk.injEq] at he; exact hp he.2.symm)
    rw [this]
    simp [paidIn]

/-- C77. What the factory holds of a token goes up by what a transaction pays in and down by what the contract it creates
is owed. Stated for native coins and for tokens that move what they report. -/
theorem C77_balance {w : World} {b : Block} {log : List Event} (h : sys.Reach w b log) {ev : Event} (hev : ev ∈ log)
    {t : Token} (ht : Tracked ev.pre t) :
    (ev.out = none → holds ev.post t = holds ev.pre t + paidIn ev.pre ev.env t ev.call) ∧
    (∀ a m, ev.out = some a → asked ev.call = some m →
      holds ev.post t + owed t m = holds ev.pre t + paidIn ev.pre ev.env t ev.call) := by
  obtain ⟨b0, w0, h0, hr⟩ := h
  obtain ⟨_, _, _, _, _, _, hs, _⟩ := hr.event ev hev
  exact balance_effect (step_effect hs) ht

/-- C77. A contract created over native coins or over a token that moves what it reports ends the transaction funded with
exactly what was asked, on top of what its address had, and is the contract that was asked for. -/
theorem C77_funded {w : World} {b : Block} {log : List Event} (h : sys.Reach w b log) {ev : Event} (hev : ev ∈ log)
    {a : Addr} {m : VestMsg} (ho : ev.out = some a) (ha : asked ev.call = some m) (ht : Tracked ev.pre m.token) :
    ∃ v, ev.post.vests.get a = some v ∧ v.token = m.token ∧ v.admin = m.owner ∧ v.state.owner.owner = m.owner ∧
      v.state.vest.recipient = m.recipient ∧ v.state.vest.total = m.total ∧ v.state.vest.status = .funded ∧
      has ev.post a m.token = has ev.pre a m.token + m.total := by
  obtain ⟨b0, w0, h0, hr⟩ := h
  obtain ⟨_, _, _, _, _, _, hs, _⟩ := hr.event ev hev
  have he := step_effect hs
  generalize ev.pre = w1, ev.env = e, ev.call = call, ev.post = w2, ev.out = out at he ht ho ha ⊢
  subst ho
  have hst := static he
  have key : ∀ {i funds bal0}, Made w1 e i m funds bal0 w2 → ∃ v, w2.vests.get e.newAddr = some v ∧ v.token = m.token ∧
      v.admin = m.owner ∧ v.state.owner.owner = m.owner ∧ v.state.vest.recipient = m.recipient ∧
      v.state.vest.total = m.total ∧ v.state.vest.status = .funded := by
    intro i funds bal0 hm
    obtain ⟨v, v2, hv, hg, hc⟩ := made_state hm
    have hn := vest_new hv
    refine ⟨_, hg, rfl, rfl, ?_⟩
    rcases hc with ⟨rfl, hc⟩ | ⟨c, hc, hv2⟩
    · refine ⟨hn.2.2.2.2.2, hn.2.2.2.1, hn.1, ?_⟩
      rw [hn.2.2.2.2.1]
      show Vesting.initialStatus (denomOf w1.bond m.token) = _
      cases hmt : m.token with
      | native d => rfl
      | cw20 c => rw [hmt] at ht; exact absurd ht (hc c hmt)
    · have hx := (receive_out hv2).1
      simp only [Prod.mk.injEq, and_true] at hx
      subst hx
      exact ⟨hn.2.2.2.2.2, hn.2.2.2.1, hn.1, rfl⟩
  have how : owed m.token m = m.total := by simp [owed]
  unfold has
  cases he with
  | native hs hn hp hm =>
    simp only [asked, Option.some.injEq] at ha
    subst ha
    obtain ⟨v, h1, h2, h3, h4, h5, h6, h7⟩ := key hm
    refine ⟨v, h1, h2, h3, h4, h5, h6, h7, ?_⟩
    rw [(made_money hm ht).2.1, how, (pullCoins_get hp hs _).2.2.2 _ hm.notSelf hn]
  | forged hs hh hf hn htm hm =>
    simp only [asked, Option.some.injEq] at ha
    subst ha
    obtain ⟨v, h1, h2, h3, h4, h5, h6, h7⟩ := key hm
    refine ⟨v, h1, h2, h3, h4, h5, h6, h7, ?_⟩
    rw [(made_money hm ht).2.1, how]
  | cw20 hh hp hnp hn htm hb hm =>
    simp only [asked, Option.some.injEq] at ha
    subst ha
    obtain ⟨v, h1, h2, h3, h4, h5, h6, h7⟩ := key hm
    refine ⟨v, h1, h2, h3, h4, h5, h6, h7, ?_⟩
    rw [(made_money hm ht).2.1, how, Ledger.move_other hb (by
      intro he; simp only [Prod.mk.injEq] at he; exact hnp he.2), if_neg (by
      intro he; simp only [Prod.mk.injEq] at he; exact hm.notSelf he.2.symm)]
    omega

/-- C77. The new contract is one that the theorems about cw-vesting speak of, with all it holds of the vesting token. -/
theorem C77_vesting {w : World} {b : Block} {log : List Event} (h : sys.Reach w b log) {ev : Event} (hev : ev ∈ log)
    {a : Addr} {m : VestMsg} (ho : ev.out = some a) (ha : asked ev.call = some m) (ht : Tracked ev.pre m.token) :
    ∃ v vw vlog, ev.post.vests.get a = some v ∧ Vesting.sys.Reach vw ev.env.block vlog ∧ vw.c = v.state ∧
      vw.bank = has ev.post a m.token ∧ vw.bonded = 0 ∧ vw.pending = [] := by
  obtain ⟨v, hg, _, _, _, _, _, _, hhas⟩ := C77_funded h hev ho ha ht
  have hbound : m.total < U128 := by
    obtain ⟨b0, w0, h0, hr⟩ := h
    obtain ⟨_, _, _, _, hr1, hb1, hs, _⟩ := hr.event ev hev
    have := (inv_effect (step_effect hs) (inv_reach ⟨b0, w0, h0, hr1⟩)).bound (m.token, a)
    unfold has at hhas
    omega
  obtain ⟨b0, w0, h0, hr⟩ := h
  obtain ⟨_, _, _, _, _, _, hs, _⟩ := hr.event ev hev
  have he := step_effect hs
  rw [ho] at he
  obtain ⟨rfl, m', funds, bal0, ha', hm⟩ := made_of_out he
  rw [ha, Option.some.injEq] at ha'
  subst ha'
  obtain ⟨v1, v2, hv, hg2, hc⟩ := made_state hm
  rw [hg, Option.some.injEq] at hg2
  subst hg2
  have hinit : Vesting.sys.init ev.env.block
      { c := v1, bank := Vesting.initialBank (m.inst ev.pre.bond), bonded := 0, pending := [] } :=
    ⟨_, hbound, hv, rfl, rfl, rfl⟩
  have hr0 : Vesting.sys.Reach _ _ [] := ⟨_, _, hinit, .refl⟩
  have hd := hr0.step (env := { block := ev.env.block, sender := 0 })
    (call := .donate (has ev.pre ev.env.newAddr m.token)) (Block.le_refl _) rfl
  rcases hc with ⟨rfl, hc⟩ | ⟨c, hct, hrec⟩
  · refine ⟨_, _, _, hg, hd, rfl, ?_, rfl, rfl⟩
    rw [hhas]
    cases hmt : m.token with
    | cw20 c => rw [hmt] at ht; exact absurd ht (hc c hmt)
    | native d =>
      simp only [Vesting.mature, Vesting.initialBank, VestMsg.inst, hmt, denomOf, List.filter_nil, List.map_nil,
        List.sum_nil]
      omega
  · have hstep : ∀ vw : Vesting.World, vw.c = v1 → vw.pending = [] → Vesting.sys.step vw
        { block := ev.env.block, sender := c } (.msg (.receive m.total)) =
        .ok ({ vw with c := v2, bank := vw.bank + m.total }, []) := by
      intro vw h1 h2
      obtain ⟨vc, vb, vbo, vp⟩ := vw
      simp only at h1 h2
      subst h1 h2
      simp only [Vesting.sys, Vesting.step, Vesting.exec, Vesting.mature, hrec, ok_bind, Vesting.settle, Vesting.incoming,
        List.filter_nil, List.map_nil, List.sum_nil]
      rfl
    have hd2 := hd.step (env := { block := ev.env.block, sender := c }) (call := .msg (.receive m.total))
      (Block.le_refl _) (hstep _ rfl rfl)
    refine ⟨_, _, _, hg, hd2, rfl, ?_, rfl, rfl⟩
    rw [hhas]
    simp only [Vesting.mature, Vesting.initialBank, VestMsg.inst, hct, denomOf, List.filter_nil, List.map_nil,
      List.sum_nil]
    omega

/-- C77, in part. When what is paid in is what is vested, nothing stays in the factory and nothing leaves it but that.
What is missing is tokens sent with a request for another token, see `C77_stranded_witness`. -/
theorem C77_passes_partial {w : World} {b : Block} {log : List Event} (h : sys.Reach w b log) {ev : Event} (hev : ev ∈ log)
    {a : Addr} {m : VestMsg} (ho : ev.out = some a) (ha : asked ev.call = some m)
    (hp : (∃ d, ev.call = .msg (.native m) ∧ m.token = .native d) ∨
      ∃ c p n, ev.call = .cw20Send c p n m ∧ m.token = .cw20 c) {t : Token} (ht : Tracked ev.pre t) :
    holds ev.post t = holds ev.pre t := by
  have hb := (C77_balance h hev ht).2 a m ho ha
  obtain ⟨b0, w0, h0, hr⟩ := h
  obtain ⟨_, _, _, _, _, _, hs, _⟩ := hr.event ev hev
  have he := step_effect hs
  have key : paidIn ev.pre ev.env t ev.call = owed t m := by
    rcases hp with ⟨d, hc, hd⟩ | ⟨c, p, n, hc, hd⟩
    · rw [hc] at he ⊢
      generalize ev.pre = w1, ev.env = e, ev.post = w2, ev.out = out at he
      cases he with
      | native hs hn hp hm =>
        obtain ⟨_, _, _, _, _, _, hcf, _⟩ := hm.rest
        rw [hd] at hcf
        rw [show paidIn w1 e t (.msg (.native m)) = coinsOf t e.funds from rfl, (checkFunds_native.1 hcf).1]
        simp [owed, hd]
    · rw [hc] at he ⊢
      generalize ev.pre = w1, ev.env = e, ev.post = w2, ev.out = out at he
      cases he with
      | cw20 hh hp hnp hn htm hb hm => simp [paidIn, owed, hd, hn]
  omega

/-- C77. Native coins never leave the factory but to a contract they were sent for: what else it gets of them it keeps. -/
theorem C77_native_kept {w w' : World} {b b' : Block} {log log' : List Event} (h : sys.Reach w b log)
    (hr : sys.Run w b log' w' b') (d : Nat) : holds w (.native d) ≤ holds w' (.native d) := by
  induction hr with
  | refl => exact Nat.le_refl _
  | @step w1 w2 b1 l e call out hr1 hb hs ih =>
    refine Nat.le_trans ih ?_
    have hreach := (h.run hr1).step hb hs
    have he := step_effect hs
    have hbal := C77_balance hreach (ev := ⟨w1, e, call, out, w2⟩) (List.mem_cons_self ..) (t := .native d) trivial
    cases out with
    | none => have := hbal.1 rfl; simp only at this; omega
    | some a =>
      obtain ⟨_, m, _, _, ha, _⟩ := made_of_out he
      have h2 := hbal.2 a m rfl ha
      simp only at h2
      have : owed (.native d) m ≤ paidIn w1 e (.native d) call := by
        have hz : m.token ≠ .native d → owed (.native d) m = 0 := fun hne => by simp [owed, hne]
        by_cases hmt : m.token = .native d
        · cases he with
          | native hs hn hp hm =>
            simp only [asked, Option.some.injEq] at ha; subst ha
            obtain ⟨_, _, _, _, _, _, hcf, _⟩ := hm.rest
            rw [hmt] at hcf
            rw [show paidIn w1 e (.native d) (.msg (.native _)) = coinsOf (.native d) e.funds from rfl,
              (checkFunds_native.1 hcf).1]
            simp [owed, hmt]
          | forged hs hh hf hn htm hm =>
            simp only [asked, Option.some.injEq] at ha; subst ha
            obtain ⟨_, _, _, _, _, _, hcf, _⟩ := hm.rest
            rw [hmt] at hcf
            have := (checkFunds_native.1 hcf).1
            cases this
          | cw20 hh hp hnp hn htm hb hm =>
            simp only [asked, Option.some.injEq] at ha; subst ha
            obtain ⟨_, _, _, _, _, _, hcf, _⟩ := hm.rest
            rw [hmt] at hcf
            have := (checkFunds_native.1 hcf).1
            cases this
        · rw [hz hmt]; exact Nat.zero_le _
      omega

theorem coinsOf_cw20 (c : Addr) (l : List (Nat × Nat)) : coinsOf (.cw20 c) l = 0 := by
  induction l with
  | nil => rfl
  | cons x l ih => simp [ih]

/-- One step of `C77_clean`: what is created was paid for. -/
theorem clean_paid {w : World} {e : Env} {call : Call} {w' : World} {out : Option Addr} (he : Effect w e call w' out)
    (hz : ∀ c ∈ w.honest, holds w (.cw20 c) = 0) {a : Addr} {m : VestMsg} (ho : out = some a)
    (ha : asked call = some m) (htr : Tracked w m.token) :
    (∃ d, call = .msg (.native m) ∧ m.token = .native d) ∨ ∃ c p n, call = .cw20Send c p n m ∧ m.token = .cw20 c := by
  have hbal := fun c (hc : c ∈ w.honest) => (balance_effect he (t := .cw20 c) hc).2 a m ho ha
  have hne : m.total ≠ 0 := by
    rw [ho] at he
    obtain ⟨_, m', funds, bal0, ha', hmd⟩ := made_of_out he
    rw [ha, Option.some.injEq] at ha'
    subst ha'
    obtain ⟨_, v, _, _, _, hv, _, _, _⟩ := hmd.rest
    exact (vest_new hv).2.1
  have how : ∀ c, m.token = .cw20 c → owed (.cw20 c) m = m.total := fun c hc => if_pos hc
  cases he with
  | owner => cases ho
  | code => cases ho
  | transfer => cases ho
  | native hs hn hp hmm =>
    simp only [asked, Option.some.injEq] at ha; subst ha
    cases hmt : VestMsg.token _ with
    | native d => exact Or.inl ⟨d, rfl, rfl⟩
    | cw20 c =>
      rw [hmt] at htr
      have h1 := hbal c htr
      rw [hz c htr, how c hmt] at h1
      simp only [paidIn, coinsOf_cw20] at h1
      omega
  | forged hs hh hf hn htm hmm =>
    simp only [asked, Option.some.injEq] at ha; subst ha
    obtain ⟨_, _, _, _, _, _, hcf, _⟩ := hmm.rest
    cases hmt : VestMsg.token _ with
    | native d => rw [hmt] at hcf; have := (checkFunds_native.1 hcf).1; cases this
    | cw20 c =>
      rw [hmt] at htr
      have h1 := hbal c htr
      rw [hz c htr, how c hmt] at h1
      simp only [paidIn, coinsOf_cw20] at h1
      omega
  | @cw20 c0 p n m0 bal w0 hh hp hnp hn htm hb hmm =>
    simp only [asked, Option.some.injEq] at ha; subst ha
    obtain ⟨_, _, _, _, _, _, hcf, _⟩ := hmm.rest
    cases hmt : VestMsg.token _ with
    | native d => rw [hmt] at hcf; have := (checkFunds_native.1 hcf).1; cases this
    | cw20 c =>
      by_cases hcc : c0 = c
      · subst hcc; exact Or.inr ⟨c0, p, n, rfl, rfl⟩
      · rw [hmt] at htr
        have h1 := hbal c htr
        rw [hz c htr, how c hmt, show paidIn w e (.cw20 c) (.cw20Send c0 p n _) = 0 from
          if_neg (by intro e; cases e; exact hcc rfl)] at h1
        omega

/-- One step of `C77_clean`: nothing is kept. -/
theorem clean_kept {w : World} {b : Block} {log : List Event} (h : sys.Reach w b log) {ev : Event} (hev : ev ∈ log)
    (hz : ∀ c ∈ ev.pre.honest, holds ev.pre (.cw20 c) = 0)
    (ht : ∀ t n, ev.call ≠ .transfer t ev.pre.self n) (hm : ∀ m, asked ev.call = some m → Tracked ev.pre m.token) :
    ∀ c ∈ ev.pre.honest, holds ev.post (.cw20 c) = 0 := by
  intro c hc
  obtain ⟨b0, w0, h0, hr⟩ := h
  obtain ⟨_, _, _, _, _, _, hs, _⟩ := hr.event ev hev
  have he := step_effect hs
  cases ho : ev.out with
  | none =>
    have h1 := (balance_effect he (t := .cw20 c) hc).1 ho
    rw [h1, hz c hc]
    rw [ho] at he
    generalize ev.pre = w1, ev.env = e, ev.call = call, ev.post = w2 at he ht ⊢
    cases he with
    | owner => simp [paidIn, coinsOf_cw20]
    | code => simp [paidIn, coinsOf_cw20]
    | transfer hs hb =>
      simp only [paidIn, Nat.zero_add]
      rw [if_neg]
      rintro ⟨_, rfl⟩
      exact ht _ _ rfl
  | some a =>
    have he' := he
    rw [ho] at he'
    obtain ⟨_, m, _, _, ha, _⟩ := made_of_out he'
    rw [C77_passes_partial ⟨b0, w0, h0, hr⟩ hev ho ha (clean_paid he hz ho ha (hm m ha)) (t := .cw20 c) hc]
    exact hz c hc

/-- C77. As long as nobody transfers tokens to the factory by mistake and vestings are asked for over native coins or
tokens that move what they report, a factory that starts with no tokens never keeps any, and every contract it creates
was paid for, in what it vests, by the transaction that created it. -/
theorem C77_clean {w0 w : World} {b0 b : Block} {log : List Event} (h0 : sys.init b0 w0) (hr : sys.Run w0 b0 log w b)
    (hz : ∀ c ∈ w0.honest, holds w0 (.cw20 c) = 0)
    (ht : ∀ ev ∈ log, ∀ t n, ev.call ≠ .transfer t ev.pre.self n)
    (hm : ∀ ev ∈ log, ∀ m, asked ev.call = some m → Tracked ev.pre m.token) :
    (∀ c ∈ w.honest, holds w (.cw20 c) = 0) ∧
    ∀ ev ∈ log, ∀ a m, ev.out = some a → asked ev.call = some m →
      (∃ d, ev.call = .msg (.native m) ∧ m.token = .native d) ∨
      ∃ c p n, ev.call = .cw20Send c p n m ∧ m.token = .cw20 c := by
  induction hr with
  | refl => exact ⟨hz, fun ev hev => by cases hev⟩
  | @step w1 w2 b1 l e call out hr1 hb hs ih =>
    obtain ⟨i1, i2⟩ := ih (fun ev hev => ht ev (List.mem_cons_of_mem _ hev)) (fun ev hev => hm ev (List.mem_cons_of_mem _ hev))
    have hreach : sys.Reach _ _ _ := ⟨_, _, h0, Sys.Run.step hr1 hb hs⟩
    refine ⟨?_, ?_⟩
    · rw [(static (step_effect hs)).2.1]
      exact clean_kept hreach (ev := ⟨w1, e, call, out, w2⟩) (List.mem_cons_self ..) i1
        (ht _ (List.mem_cons_self ..)) (hm _ (List.mem_cons_self ..))
    · intro ev hev
      rcases List.mem_cons.1 hev with rfl | hev
      · intro a m ho ha
        exact clean_paid (step_effect hs) i1 ho ha (hm _ (List.mem_cons_self ..) m ha)
      · exact i2 ev hev

/-! ## C77: creation goes through -/

theorem create_live {w : World} {e : Env} {r : Create} {bal : Balances} {v : Vesting.State} {i : Addr}
    {y : Balances × Vesting.State} (hcode : r.codeId = w.vestCode) (hfresh : freshAddr w e.newAddr = true)
    (hans : tokenAnswers w e.newAddr r.msg.token = true) (hb : pullCoins e.newAddr w.self r.funds w.bal = .ok bal)
    (hv : vestInstantiate w.bond e.block r.msg r.funds = .ok v) (ht : w.c.tmp = some i)
    (hf : forward w.self w.honest e bal v (fundMsg v.vest) = .ok y) : ∃ w', create w e r = .ok w' := by
  simp only [create, bind_ok, require_ok, reply, orErr_ok, Except.ok.injEq, decide_eq_true_eq]
  exact ⟨_, (), hcode, (), hfresh, (), hans, bal, hb, v, hv, _, ⟨i, ht, rfl⟩, y, hf, rfl⟩

/-- C77. A request over native coins by somebody who may make it, has the coins and sends exactly them is carried out,
if the vesting contract accepts its terms. -/
theorem C77_live_native {w : World} {b : Block} {log : List Event} (h : sys.Reach w b log) (e : Env) (m : VestMsg) (d : Nat)
    {v : Vesting.State} (howner : ∀ o, w.c.owner.owner = some o → o = e.sender) (hcode : w.c.codeId = w.vestCode)
    (hself : e.sender ≠ w.self) (hh : e.sender ∉ w.honest) (hne : e.newAddr ≠ e.sender) (hns : e.newAddr ≠ w.self)
    (hfresh : w.vests.get e.newAddr = none) (hnt : e.newAddr ∉ w.honest) (htok : m.token = .native d)
    (hterms : Vesting.instantiate e.block (m.inst w.bond) = .ok v) (hfunds : e.funds = [(d, m.total)])
    (hhas : m.total ≤ has w e.sender (.native d)) (hroom : holds w (.native d) + m.total < U128)
    (hroom2 : has w e.newAddr (.native d) + m.total < U128) :
    ∃ w', step w e (.msg (.native m)) = .ok (w', some e.newAddr) := by
  unfold has at hhas hroom2
  unfold holds at hroom
  have hn := vest_new hterms
  obtain ⟨l1, hl1⟩ := Ledger.move_live (l := w.bal) (a := (.native d, e.sender)) (b := (.native d, w.self))
    (n := m.total) (pair_ne hself) hhas hroom
  have g1 := fun q => (Ledger.move_get hl1 (pair_ne hself) q).2
  obtain ⟨l2, hl2⟩ := Ledger.move_live (l := l1) (a := (.native d, w.self)) (b := (.native d, e.newAddr))
    (n := m.total) (pair_ne (Ne.symm hns)) (by rw [g1, if_neg (pair_ne (Ne.symm hself)), if_pos rfl]; omega)
    (by rw [g1, if_neg (pair_ne hne), if_neg (pair_ne hns)]; exact hroom2)
  have ho : (match w.c.owner.owner with | some o => decide (o = e.sender) | none => true) = true := by
    cases hx : w.c.owner.owner with
    | none => rfl
    | some o => simp [howner o hx]
  have hp1 : pullCoins w.self e.sender e.funds w.bal = .ok l1 := by
    rw [hfunds]; simp [pullCoins, hl1]
  have hp2 : pullCoins e.newAddr w.self e.funds l1 = .ok l2 := by
    rw [hfunds]; simp [pullCoins, hl2]
  have hcf : checkFunds m.token v.vest.total e.funds = .ok () := by
    rw [htok, hn.1]; exact checkFunds_native.2 ⟨hfunds, hn.2.1⟩
  have hfm : fundMsg v.vest = none := by rw [fundMsg_eq hterms, htok]
  obtain ⟨w', hw'⟩ := create_live (w := { w with bal := l1, c := { w.c with tmp := some e.sender } }) (e := e)
    (r := { admin := m.owner, codeId := w.c.codeId, funds := e.funds, msg := m }) (i := e.sender) (y := (l2, v)) hcode
    (by simp [freshAddr, hns, hfresh, hnt]) (by simp [tokenAnswers, htok]) hp2
    (by simp only [vestInstantiate, bind_ok]; exact ⟨v, hterms, (), hcf, rfl⟩) rfl (by rw [hfm]; rfl)
  refine ⟨w', ?_⟩
  simp only [step, run, exec, instantiateContract, bind_ok, require_ok, Bool.and_eq_true, decide_eq_true_eq]
  exact ⟨(), ⟨⟨hself, hh⟩, hne⟩, l1, hp1, _, ⟨(), ho, rfl⟩, by
    simp only [finish, bind_ok]; exact ⟨w', hw', rfl⟩⟩

/-- C77. So is a request over a cw20 token, made by sending exactly the tokens to the factory. -/
theorem C77_live_cw20 {w : World} {b : Block} {log : List Event} (h : sys.Reach w b log) (e : Env) (m : VestMsg)
    (c payer : Addr) {v : Vesting.State} (howner : ∀ o, w.c.owner.owner = some o → o = e.sender)
    (hcode : w.c.codeId = w.vestCode) (hc : c ∈ w.honest) (hp : payer ≠ w.self) (hne : e.newAddr ≠ payer)
    (hns : e.newAddr ≠ w.self) (hfresh : w.vests.get e.newAddr = none) (hnt : e.newAddr ∉ w.honest)
    (htok : m.token = .cw20 c) (hterms : Vesting.instantiate e.block (m.inst w.bond) = .ok v)
    (hhas : m.total ≤ has w payer (.cw20 c)) (hroom : holds w (.cw20 c) + m.total < U128)
    (hroom2 : has w e.newAddr (.cw20 c) + m.total < U128) :
    ∃ w', step w e (.cw20Send c payer m.total m) = .ok (w', some e.newAddr) := by
  unfold has at hhas hroom2
  unfold holds at hroom
  have hi := inv_reach h
  have hn := vest_new hterms
  obtain ⟨l1, hl1⟩ := Ledger.move_live (l := w.bal) (a := (.cw20 c, payer)) (b := (.cw20 c, w.self))
    (n := m.total) (pair_ne hp) hhas hroom
  have g1 := fun q => (Ledger.move_get hl1 (pair_ne hp) q).2
  obtain ⟨l2, hl2⟩ := Ledger.move_live (l := l1) (a := (.cw20 c, w.self)) (b := (.cw20 c, e.newAddr))
    (n := m.total) (pair_ne (Ne.symm hns)) (by rw [g1, if_neg (pair_ne (Ne.symm hp)), if_pos rfl]; omega)
    (by rw [g1, if_neg (pair_ne hne), if_neg (pair_ne hns)]; exact hroom2)
  have ho : (match w.c.owner.owner with | some o => decide (o = e.sender) | none => true) = true := by
    cases hx : w.c.owner.owner with
    | none => rfl
    | some o => simp [howner o hx]
  have hcf : checkFunds m.token v.vest.total [] = .ok () := by rw [htok]; exact checkFunds_cw20.2 rfl
  have hfm : fundMsg v.vest = some (c, m.total) := by rw [fundMsg_eq hterms, htok]
  have hcs : c ≠ w.self := fun he => hi.self (he ▸ hc)
  have hcn : c ≠ e.newAddr := fun he => hnt (he ▸ hc)
  have hrec : Vesting.receive v { block := e.block, sender := c } m.total =
      .ok ({ v with vest := { v.vest with status := .funded } }, []) := by
    simp only [Vesting.receive, bind_ok, require_ok, decide_eq_true_eq]
    refine ⟨(), hn.1, (), ?_, (), ?_, trivial⟩
    · rw [hn.2.2.1]; simp [VestMsg.inst, htok, denomOf]
    · rw [hn.2.2.2.2.1]; simp [VestMsg.inst, htok, denomOf, Vesting.initialStatus]
  obtain ⟨w', hw'⟩ := create_live (w := { w with bal := l1, c := { w.c with tmp := some e.sender } }) (e := e)
    (r := { admin := m.owner, codeId := w.c.codeId, funds := [], msg := m }) (i := e.sender)
    (y := (l2, { v with vest := { v.vest with status := .funded } })) hcode
    (by simp [freshAddr, hns, hfresh, hnt]) (by simp [tokenAnswers, htok, hcs, hcn]) (bal := l1) rfl
    (by simp only [vestInstantiate, bind_ok]; exact ⟨v, hterms, (), hcf, rfl⟩) rfl (by
      rw [hfm]; simp only [forward, if_pos hc, bind_ok]; exact ⟨l2, hl2, _, hrec, rfl⟩)
  refine ⟨w', ?_⟩
  simp only [step, run, exec, receive, instantiateContract, bind_ok, require_ok, Bool.and_eq_true, decide_eq_true_eq]
  exact ⟨(), ⟨⟨hc, hp⟩, hne⟩, l1, hl1, _, ⟨(), rfl, (), hi.tmp, (), trivial, (), ho, rfl⟩, by
    simp only [finish, bind_ok]; exact ⟨w', hw', rfl⟩⟩

/-! ## Examples -/

/-- A factory at address 1 with the given owner. Account 10 has 1000 coins of denomination 5, account 11 has 1000 of the
token 20, account 12 has 300 of the token 21. -/
def w0 (owner : Option Addr) : World where
  c := instantiate owner 7
  self := 1
  bal := [((.native 5, 10), 1000), ((.cw20 20, 11), 1000), ((.cw20 21, 12), 300)]
  vests := []
  honest := [20, 21]
  bond := 0
  vestCode := 7

/-- A vesting of 100 to account 30 over an hour. -/
def vest (t : Token) : VestMsg where
  owner := some 40
  recipient := 30
  total := 100
  token := t
  schedule := .saturatingLinear
  start := none
  duration := 3600
  ubs := 0

theorem w0_init (o : Option Addr) : sys.init ⟨0, 0⟩ (w0 o) := by
  refine ⟨⟨o, 7, rfl⟩, rfl, by simp [w0], ?_⟩
  intro k
  have h1000 : 1000 < U128 := by unfold U128; decide +kernel
  have h300 : 300 < U128 := by unfold U128; decide +kernel
  have h0 : 0 < U128 := by omega
  simp only [w0, getD0, AMap.get]
  repeat' split
  all_goals simp_all

/-- Two vestings, one in coins and one in tokens, as `C76_registry`, `C76_owner_partial`, `C77_funded`, `C77_vesting`,
`C77_passes_partial` and `C77_clean` speak of. -/
theorem C77_example : ∃ w b log, sys.Run (w0 none) ⟨0, 0⟩ log w b ∧
    w.c.registry = [(100, ⟨100, 10, 30⟩), (101, ⟨101, 11, 30⟩)] ∧
    (w.vests.get 100).map (fun v => v.state.vest.status) = some .funded ∧
    (w.vests.get 101).map (fun v => v.state.vest.status) = some .funded ∧
    has w 100 (.native 5) = 100 ∧ has w 101 (.cw20 20) = 100 ∧ has w 10 (.native 5) = 900 ∧
    holds w (.native 5) = 0 ∧ holds w (.cw20 20) = 0 := by
  obtain ⟨w, b, log, hr, hp⟩ := Sys.check_run (M := sys) (s := w0 none) (b := ⟨0, 0⟩)
    (cs := [({ block := ⟨1, 5⟩, sender := 10, funds := [(5, 100)], newAddr := 100 }, .msg (.native (vest (.native 5)))),
      ({ block := ⟨2, 9⟩, sender := 11, newAddr := 101 }, .cw20Send 20 11 100 (vest (.cw20 20)))])
    (p := fun w _ _ => decide (w.c.registry = [(100, ⟨100, 10, 30⟩), (101, ⟨101, 11, 30⟩)] ∧
      (w.vests.get 100).map (fun v => v.state.vest.status) = some .funded ∧
      (w.vests.get 101).map (fun v => v.state.vest.status) = some .funded ∧
      has w 100 (.native 5) = 100 ∧ has w 101 (.cw20 20) = 100 ∧ has w 10 (.native 5) = 900 ∧
      holds w (.native 5) = 0 ∧ holds w (.cw20 20) = 0)) (by decide +kernel)
  exact ⟨w, b, log, hr, of_decide_eq_true hp⟩

/-- C76, the finding. A factory has an owner, account 10. Account 66 calls `Receive` itself, as if tokens had come from
the owner, for a vesting over a token of its own: the contract is created and listed with the owner as its instantiator,
although the owner did nothing. -/
theorem C76_forged_witness : ∃ w b log, sys.Reach w b log ∧ w.c.owner.owner = some 10 ∧
    log.map (fun ev => (ev.env.sender, ev.out)) = [(66, some 100)] ∧
    w.c.registry.get 100 = some ⟨100, 10, 30⟩ := by
  obtain ⟨w, b, log, hr, hp⟩ := Sys.check_run (M := sys) (s := w0 (some 10)) (b := ⟨0, 0⟩)
    (cs := [({ block := ⟨1, 5⟩, sender := 66, newAddr := 100 }, .msg (.receive 10 100 (vest (.cw20 99))))])
    (p := fun w _ log => decide (w.c.owner.owner = some 10 ∧
      log.map (fun ev => (ev.env.sender, ev.out)) = [(66, some 100)] ∧
      w.c.registry.get 100 = some ⟨100, 10, 30⟩)) (by decide +kernel)
  exact ⟨w, b, log, ⟨_, _, w0_init _, hr⟩, of_decide_eq_true hp⟩

/-- C77, the finding. Tokens that came to the factory by a plain transfer belong to whoever comes first: account 66 pays
nothing and has 100 of them vested to the recipient it names, although the factory has an owner. -/
theorem C77_taken_witness : ∃ w b log, sys.Reach w b log ∧ w.c.owner.owner = some 10 ∧
    log.map (fun ev => (ev.env.sender, holds ev.pre (.cw20 21), holds ev.post (.cw20 21), ev.out)) =
      [(66, 300, 200, some 100), (12, 0, 300, none)] ∧
    has w 100 (.cw20 21) = 100 ∧ (w.vests.get 100).map (fun v => v.state.vest.recipient) = some 30 := by
  obtain ⟨w, b, log, hr, hp⟩ := Sys.check_run (M := sys) (s := w0 (some 10)) (b := ⟨0, 0⟩)
    (cs := [({ block := ⟨1, 5⟩, sender := 12 }, .transfer (.cw20 21) 1 300),
      ({ block := ⟨1, 5⟩, sender := 66, newAddr := 100 }, .msg (.receive 10 100 (vest (.cw20 21))))])
    (p := fun w _ log => decide (w.c.owner.owner = some 10 ∧
      log.map (fun ev => (ev.env.sender, holds ev.pre (.cw20 21), holds ev.post (.cw20 21), ev.out)) =
        [(66, 300, 200, some 100), (12, 0, 300, none)] ∧
      has w 100 (.cw20 21) = 100 ∧ (w.vests.get 100).map (fun v => v.state.vest.recipient) = some 30)) (by decide +kernel)
  exact ⟨w, b, log, ⟨_, _, w0_init _, hr⟩, of_decide_eq_true hp⟩

/-- C77, the finding. The token that pays need not be the token that is vested: account 11 pays 100 of the token 20 for a
vesting of the token 21 that the factory happens to hold, and what it paid stays in the factory. -/
theorem C77_stranded_witness : ∃ w b log, sys.Reach w b log ∧
    log.map (fun ev => (ev.env.sender, ev.out)) = [(11, some 100), (12, none)] ∧
    holds w (.cw20 20) = 100 ∧ holds w (.cw20 21) = 200 ∧ has w 100 (.cw20 21) = 100 := by
  obtain ⟨w, b, log, hr, hp⟩ := Sys.check_run (M := sys) (s := w0 none) (b := ⟨0, 0⟩)
    (cs := [({ block := ⟨1, 5⟩, sender := 12 }, .transfer (.cw20 21) 1 300),
      ({ block := ⟨1, 5⟩, sender := 11, newAddr := 100 }, .cw20Send 20 11 100 (vest (.cw20 21)))])
    (p := fun w _ log => decide (log.map (fun ev => (ev.env.sender, ev.out)) = [(11, some 100), (12, none)] ∧
      holds w (.cw20 20) = 100 ∧ holds w (.cw20 21) = 200 ∧ has w 100 (.cw20 21) = 100)) (by decide +kernel)
  exact ⟨w, b, log, ⟨_, _, w0_init _, hr⟩, of_decide_eq_true hp⟩

end Verif.PayrollFactory
