import Verif.Spec.SwapDaos
import Verif.Props.TokenSwap
import Verif.Props.TreasuryLive
/-! C133: what DAOs put into a token swap, and what they get out of it. -/

namespace Verif.SwapDaos
open Verif Verif.Spec.SwapDaos
open Verif.WholeDao (VotingModule)
open Verif.WholeCondorcet (Now)
open Verif.FullDao (Env)
open Verif.Spec.WholeDao (Lawful)

variable {I : Type} [DecidableEq I] [Fintype I] {T F D P : I → Type} {U : ∀ i, VotingModule (T i) (F i) (D i) (P i)}
  {N : ∀ i, Now (T i)} {decode : I → Nat → DaoCore.CosmosMsg} {r : I → Reading}

theorem sd_dao {w w' : World T} {e : Env} {i : I} {c : FullDao.Call (F i) (D i)} {o : Out}
    (h : step U N decode r w e (.dao i c) = .ok (w', o)) :
    FullDao.step (U i) (N i) (decode i) (w.dao i) e c = .ok (w'.dao i, o.dao) ∧ (∀ j, j ≠ i → w'.dao j = w.dao j) ∧
      w'.swap = w.swap := by
  simp only [step, bind_ok, require_ok, Prod.exists, Except.ok.injEq, Prod.mk.injEq] at h
  obtain ⟨_, _, q, o', h1, rfl, rfl⟩ := h
  exact ⟨by simpa using h1, fun j hj => by simp [Function.update_of_ne hj], rfl⟩

theorem sd_it {w w' : World T} {e : Env} {k : TokenSwap.Call} {o : Out}
    (h : step U N decode r w e (.it k : Call F D) = .ok (w', o)) :
    (∀ i, k.sender ≠ (w.dao i).core.core.me) ∧ TokenSwap.step w.swap e.block k = .ok (w'.swap, o.swap) ∧ w'.dao = w.dao := by
  simp only [step, bind_ok, require_ok, Prod.exists, Except.ok.injEq, Prod.mk.injEq, decide_eq_true_eq] at h
  obtain ⟨_, h0, x, o', h1, rfl, rfl⟩ := h
  exact ⟨h0, h1, rfl⟩

theorem sd_pass {w w' : World T} {e : Env} {i : I} {o : Out}
    (h : step U N decode r w e (.pass i : Call F D) = .ok (w', o)) :
    ∃ k, next (r i) (w.dao i).core.stack = some k ∧ k.sender = (w.dao i).core.core.me ∧
      FullDao.step (U i) (N i) (decode i) (w.dao i) e (.core (.deliver ⟨0, []⟩)) = .ok (w'.dao i, o.dao) ∧
      (∀ j, j ≠ i → w'.dao j = w.dao j) ∧ TokenSwap.step w.swap e.block k = .ok (w'.swap, o.swap) := by
  simp only [step, bind_ok, require_ok, orErr_ok, Prod.exists, Except.ok.injEq, Prod.mk.injEq, decide_eq_true_eq] at h
  obtain ⟨k, hk, _, h0, q, o', h1, x, p, h2, rfl, rfl⟩ := h
  exact ⟨k, hk, h0, by simpa using h1, fun j hj => by simp [Function.update_of_ne hj], h2⟩

/-- **C133.** Seen from each DAO, a history of all of them is a history of a DAO as in C95. -/
theorem C133_dao {w0 w : World T} {b0 b : Block} {log : List (Event T F D)} (h : (sys U N decode r).Run w0 b0 log w b) (i : I) :
    ∃ b1, (FullDao.sys (U i) (N i) (decode i)).Run (w0.dao i) b0 (daoLog i log) (w.dao i) b1 ∧ b1.le b := by
  induction h with
  | refl => exact ⟨_, .refl, Block.le_refl _⟩
  | @step s1 s2 b3 log env call out hr hb3 hs ih =>
    obtain ⟨b1, h1, h2⟩ := ih
    have h3 : b1.le env.block := Block.le_trans h2 hb3
    cases call with
    | dao j c =>
      obtain ⟨h4, h5, _⟩ := sd_dao (U := U) (N := N) (decode := decode) (r := r) hs
      by_cases hj : j = i
      · subst hj
        have : daoLog j ((⟨s1, env, .dao j c, out, s2⟩ : Event T F D) :: log) =
            ⟨s1.dao j, env, c, out.dao, s2.dao j⟩ :: daoLog j log := by
          simp only [daoLog]
          rw [List.filterMap_cons_some]
          simp only [daoEvent, dite_true]
        rw [this]
        exact ⟨_, .step (M := FullDao.sys (U j) (N j) (decode j)) h1 h3 h4, Block.le_refl _⟩
      · have : daoLog i ((⟨s1, env, .dao j c, out, s2⟩ : Event T F D) :: log) = daoLog i log := by
          simp only [daoLog]
          rw [List.filterMap_cons_none]
          simp only [daoEvent, dif_neg hj]
        rw [this, h5 i (fun h => hj h.symm)]
        exact ⟨b1, h1, h3⟩
    | it k =>
      obtain ⟨_, _, h4⟩ := sd_it (U := U) (N := N) (decode := decode) (r := r) hs
      exact ⟨b1, by rw [h4]; exact h1, h3⟩
    | pass j =>
      obtain ⟨k, _, _, h4, h5, _⟩ := sd_pass (U := U) (N := N) (decode := decode) (r := r) hs
      by_cases hj : j = i
      · subst hj
        have : daoLog j ((⟨s1, env, .pass j, out, s2⟩ : Event T F D) :: log) =
            ⟨s1.dao j, env, .core (.deliver ⟨0, []⟩), out.dao, s2.dao j⟩ :: daoLog j log := by
          simp only [daoLog]
          rw [List.filterMap_cons_some]
          simp only [daoEvent, if_true]
        rw [this]
        exact ⟨_, .step (M := FullDao.sys (U j) (N j) (decode j)) h1 h3 h4, Block.le_refl _⟩
      · have : daoLog i ((⟨s1, env, .pass j, out, s2⟩ : Event T F D) :: log) = daoLog i log := by
          simp only [daoLog]
          rw [List.filterMap_cons_none]
          simp only [daoEvent, if_neg hj]
        rw [this, h5 i (fun h => hj h.symm)]
        exact ⟨b1, h1, h3⟩

/-- **C133.** Seen from the swap, it is a history of a swap as in C42. -/
theorem C133_swap {w0 w : World T} {b0 b : Block} {log : List (Event T F D)} (h : (sys U N decode r).Run w0 b0 log w b) :
    ∃ b1, TokenSwap.sys.Run w0.swap b0 (swapLog r log) w.swap b1 ∧ b1.le b := by
  induction h with
  | refl => exact ⟨_, .refl, Block.le_refl _⟩
  | @step s1 s2 b3 log env call out hr hb3 hs ih =>
    obtain ⟨b1, h1, h2⟩ := ih
    have h3 : b1.le env.block := Block.le_trans h2 hb3
    cases call with
    | dao j c =>
      obtain ⟨_, _, h4⟩ := sd_dao (U := U) (N := N) (decode := decode) (r := r) hs
      exact ⟨b1, by rw [h4]; exact h1, h3⟩
    | it k =>
      obtain ⟨_, h4, _⟩ := sd_it (U := U) (N := N) (decode := decode) (r := r) hs
      exact ⟨_, .step (M := TokenSwap.sys) (env := env.block) h1 h3 h4, Block.le_refl _⟩
    | pass j =>
      obtain ⟨k, hk, _, _, _, h4⟩ := sd_pass (U := U) (N := N) (decode := decode) (r := r) hs
      have : swapLog r ((⟨s1, env, .pass j, out, s2⟩ : Event T F D) :: log) =
          ⟨s1.swap, env.block, k, out.swap, s2.swap⟩ :: swapLog r log := by
        simp only [swapLog]
        rw [List.filterMap_cons_some]
        simp only [swapEvent, doing, hk, Option.map_some]
      rw [this]
      exact ⟨_, .step (M := TokenSwap.sys) (env := env.block) h1 h3 h4, Block.le_refl _⟩

theorem sd_all {u : ∀ i, FullDao.World (T i)} {w0 w : World T} {b0 b : Block}
    {d : ∀ i, List (FullDao.Event (T i) (F i) (D i))} {log : List (Event T F D)} {i : I}
    (hp : ∃ bu b1, FullDao.Init (U i) bu (u i) ∧ (FullDao.sys (U i) (N i) (decode i)).Run (u i) bu (d i) (w0.dao i) b1 ∧ b1.le b0)
    (h : (sys U N decode r).Run w0 b0 log w b) :
    ∃ bu b1, FullDao.Init (U i) bu (u i) ∧
      (FullDao.sys (U i) (N i) (decode i)).Run (u i) bu (daoLog i log ++ d i) (w.dao i) b1 ∧ b1.le b := by
  obtain ⟨bu, b1, hi, h1, hb1⟩ := hp
  obtain ⟨b2, h2, hb2⟩ := C133_dao h i
  obtain ⟨b3, h3, hb3⟩ := h2.earlier hb1
  exact ⟨bu, b3, hi, h1.append h3, Block.le_trans hb3 hb2⟩

theorem sd_me {w0 w : World T} {b0 b : Block} {log : List (Event T F D)} (h : (sys U N decode r).Run w0 b0 log w b) (i : I) :
    (w.dao i).core.core.me = (w0.dao i).core.core.me := by
  obtain ⟨_, h1, _⟩ := C133_dao h i
  exact FullDao.full_me_run h1

/-- **C133.** Whatever is done with coins and tokens with the address of a DAO, paying into the swap, withdrawing from it or paying
somebody else, the members of that DAO decided on, in any of its proposal modules, or it was part of its founding. -/
theorem C133_decided (hU : ∀ i, Lawful (U i)) {u : ∀ i, FullDao.World (T i)} {w0 w : World T} {b0 b : Block}
    {d : ∀ i, List (FullDao.Event (T i) (F i) (D i))} {log : List (Event T F D)} (h : History U N decode r u w0 w b0 b d log)
    {ev : Ev TokenSwap.World Block TokenSwap.Call (List TokenSwap.Pay)} (hev : ev ∈ swapLog r log) {i : I}
    (hc : ev.call.sender = (w.dao i).core.core.me) :
    Decided U decode r i (u i).core.stack (daoLog i log ++ d i) ev.call := by
  obtain ⟨e, he, hx⟩ := List.mem_filterMap.1 hev
  obtain ⟨before, later, b1, hl, h1, _, hstep, _⟩ := h.run.event e he
  obtain ⟨bu, b2, hi, h5, _⟩ := sd_all (h.daos i) h1
  obtain ⟨bu', b2', hi', h5', _⟩ := sd_all (h.daos i) h.run
  rw [sd_me h.run i] at hc
  have hme := sd_me h1
  obtain ⟨pre, env, call, out, post⟩ := e
  cases call with
  | dao j c => simp [swapEvent, doing] at hx
  | it k =>
    simp only [swapEvent, doing, Option.map_some, Option.some.injEq] at hx
    subst hx
    exact absurd (hc.trans (hme i).symm) ((sd_it (U := U) (N := N) (decode := decode) (r := r) hstep).1 i)
  | pass j =>
    obtain ⟨k, hk, hs, _⟩ := sd_pass (U := U) (N := N) (decode := decode) (r := r) hstep
    simp only [swapEvent, doing, hk, Option.map_some, Option.some.injEq] at hx
    subst hx
    have hj : j = i := by
      by_contra hne
      exact h.apart j i hne ((hme j).symm.trans (hs.symm.trans hc))
    subst hj
    simp only [next] at hk
    split at hk
    · rename_i n rest hst
      refine ⟨n, hk, ?_⟩
      have hd : DaoCore.Sub.send (.other n) ∈ (pre.dao j).core.stack := by rw [hst]; exact List.mem_cons_self
      rcases FullDao.full_waiting h5 _ hd with h6 | ⟨e', he', h6⟩
      · exact .founding h6
      · refine FullDao.C95_governed (hU j) hi' h5' (h.steady j) (h.totals j) (h.governed j) e' ?_ _ h6
        subst hl
        rcases List.mem_append.1 he' with h7 | h7
        · refine List.mem_append_left _ ?_
          simp only [daoLog, List.filterMap_append, List.mem_append] at h7 ⊢
          right
          obtain ⟨y, hy, hy2⟩ := List.mem_filterMap.1 h7
          exact List.mem_filterMap.2 ⟨y, List.mem_cons_of_mem _ hy, hy2⟩
        · exact List.mem_append_right _ h7
    · cases hk

theorem sd_pull {self a : Addr} (ha : a ≠ self) {sender : Addr} {t : TokenSwap.Token} {coins : List (Nat × Nat)}
    {l l' : Ledger (TokenSwap.Token × Addr)} (h : TokenSwap.pull self sender coins l = .ok l') :
    getD0 l' (t, a) + (if sender = a then (coins.map fun c => if TokenSwap.Token.native c.1 = t then c.2 else 0).sum else 0) =
      getD0 l (t, a) := by
  induction coins generalizing l with
  | nil =>
    simp only [TokenSwap.pull, Except.ok.injEq] at h
    subst h
    simp
  | cons c coins ih =>
    obtain ⟨d, n⟩ := c
    simp only [TokenSwap.pull, bind_ok] at h
    obtain ⟨l1, h1, h2⟩ := h
    have e1 := Treasury.move_flow h1 (t, a)
    have e2 := ih h2
    have hs : ¬ (TokenSwap.Token.native d, self) = (t, a) := by
      intro e; simp only [Prod.mk.injEq] at e; exact ha e.2.symm
    rw [if_neg hs] at e1
    simp only [Prod.mk.injEq] at e1
    simp only [List.map_cons, List.sum_cons]
    by_cases h3 : sender = a
    · simp only [h3, and_true, if_true] at e1 e2 ⊢
      omega
    · simp only [h3, and_false, if_false] at e1 e2 ⊢
      omega

theorem sd_push {self a : Addr} (ha : a ≠ self) {t : TokenSwap.Token} {o : List TokenSwap.Pay}
    {l l' : Ledger (TokenSwap.Token × Addr)} (h : TokenSwap.push self o l = .ok l') :
    getD0 l' (t, a) = getD0 l (t, a) + (o.map (Spec.TokenSwap.gives a t)).sum := by
  induction o generalizing l with
  | nil =>
    simp only [TokenSwap.push, Except.ok.injEq] at h
    subst h
    simp
  | cons p o ih =>
    simp only [TokenSwap.push, bind_ok] at h
    obtain ⟨l1, h1, h2⟩ := h
    have e1 := Treasury.move_flow h1 (t, a)
    have e2 := ih h2
    have hs : ¬ (p.token, self) = (t, a) := by
      intro e; simp only [Prod.mk.injEq] at e; exact ha e.2.symm
    rw [if_neg hs] at e1
    simp only [List.map_cons, List.sum_cons, Spec.TokenSwap.gives]
    simp only [Prod.mk.injEq, and_comm] at e1
    omega

/-- The account of anybody but the swap after a call. -/
theorem sd_account {w w' : TokenSwap.World} {b : Block} {k : TokenSwap.Call} {o : List TokenSwap.Pay}
    (h : TokenSwap.step w b k = .ok (w', o)) {a : Addr} (ha : a ≠ w.self) (t : TokenSwap.Token) :
    getD0 w'.ledger (t, a) + Spec.TokenSwap.paysIn a t k + pays a t k =
      getD0 w.ledger (t, a) + (o.map (Spec.TokenSwap.gives a t)).sum + gets a t k := by
  unfold TokenSwap.step at h
  obtain ⟨_, _, h⟩ := (bind_ok _ _ _).mp h
  cases k with
  | fund x coins =>
    simp only [bind_ok, Except.ok.injEq, Prod.mk.injEq] at h
    obtain ⟨l1, h1, q, _, l2, h2, rfl, rfl⟩ := h
    have e1 := sd_pull ha (t := t) h1
    have e2 := sd_push ha (t := t) h2
    simp only [Spec.TokenSwap.paysIn, pays, gets]
    omega
  | send c x n =>
    simp only [bind_ok, Except.ok.injEq, Prod.mk.injEq] at h
    obtain ⟨l1, h1, q, _, l2, h2, rfl, rfl⟩ := h
    have e1 := Treasury.move_flow h1 (t, a)
    have e2 := sd_push ha (t := t) h2
    have hs : ¬ (TokenSwap.Token.cw20 c, w.self) = (t, a) := by
      intro e; simp only [Prod.mk.injEq] at e; exact ha e.2.symm
    rw [if_neg hs] at e1
    simp only [Prod.mk.injEq, and_comm] at e1
    simp only [Spec.TokenSwap.paysIn, pays, gets]
    omega
  | withdraw x =>
    simp only [bind_ok, Except.ok.injEq, Prod.mk.injEq] at h
    obtain ⟨q, _, l2, h2, rfl, rfl⟩ := h
    have e2 := sd_push ha (t := t) h2
    simp only [Spec.TokenSwap.paysIn, pays, gets]
    omega
  | transfer t' x y n =>
    simp only [bind_ok, Except.ok.injEq, Prod.mk.injEq] at h
    obtain ⟨l1, h1, rfl, rfl⟩ := h
    have e1 := Treasury.move_flow h1 (t, a)
    simp only [Prod.mk.injEq, and_comm] at e1
    simp only [Spec.TokenSwap.paysIn, pays, gets, List.map_nil, List.sum_nil]
    omega

theorem sd_books {w0 w : TokenSwap.World} {b0 b : Block} {log : Spec.TokenSwap.Log}
    (h : TokenSwap.sys.Run w0 b0 log w b) {a : Addr} (ha : a ≠ w0.self) (t : TokenSwap.Token) :
    w.self = w0.self ∧
    getD0 w.ledger (t, a) + Spec.TokenSwap.paid a t log + spent a t log =
      getD0 w0.ledger (t, a) + Spec.TokenSwap.received a t log + earned a t log := by
  induction h with
  | refl => simp [Spec.TokenSwap.paid, Spec.TokenSwap.received, spent, earned]
  | @step s1 s2 b3 log env call out hr hb3 hs ih =>
    obtain ⟨h1, h2⟩ := ih
    have e := sd_account (b := env) hs (a := a) (by rw [h1]; exact ha) t
    have h3 : s2.self = s1.self := by
      obtain ⟨_, hf⟩ := TokenSwap.step_effect hs
      cases hf <;> rfl
    refine ⟨h3.trans h1, ?_⟩
    simp only [Spec.TokenSwap.paid, Spec.TokenSwap.received, spent, earned, List.map_cons, List.sum_cons] at h2 ⊢
    omega

theorem sd_party_eq {s s' : TokenSwap.State} (h : Spec.TokenSwap.terms s = Spec.TokenSwap.terms s') (sd : Bool) :
    (s.party sd).address = (s'.party sd).address ∧ (s.party sd).token = (s'.party sd).token ∧
      (s.party sd).amount = (s'.party sd).amount := by
  simp only [Spec.TokenSwap.terms, Prod.mk.injEq] at h
  obtain ⟨⟨h1, h2, h3⟩, h4, h5, h6⟩ := h
  cases sd
  · exact ⟨h4, h5, h6⟩
  · exact ⟨h1, h2, h3⟩

theorem sd_provides_eq {p q : TokenSwap.Party} (h : p.address = q.address ∧ p.token = q.token ∧ p.amount = q.amount) :
    provides p = provides q := by
  obtain ⟨h1, h2, h3⟩ := h
  simp only [provides, h1, h2, h3]

theorem sd_put_other {s : TokenSwap.State} {x sd : Bool} {p : TokenSwap.Party} (h : x ≠ sd) :
    (s.put x p).party sd = s.party sd := by
  cases x <;> cases sd <;> simp_all [TokenSwap.State.put, TokenSwap.State.party]

/-- Whatever makes a party one that has provided is the call that provides its promise. -/
theorem sd_provided {w w' : TokenSwap.World} {b : Block} {k : TokenSwap.Call} {o : List TokenSwap.Pay}
    (h : TokenSwap.step w b k = .ok (w', o)) {sd : Bool} (h0 : (w.c.party sd).provided = false)
    (h1 : (w'.c.party sd).provided = true) : k = provides (w.c.party sd) := by
  unfold TokenSwap.step at h
  obtain ⟨_, _, h⟩ := (bind_ok _ _ _).mp h
  cases k with
  | fund x coins =>
    simp only [bind_ok, Except.ok.injEq, Prod.mk.injEq, TokenSwap.fund] at h
    obtain ⟨l1, _, q, ⟨y, hy, d, hd, n, hn, hq⟩, l2, _, rfl, rfl⟩ := h
    obtain ⟨_, e2, rfl⟩ := TokenSwap.doFund_ok hq
    by_cases hs : y = sd
    · subst hs
      have e3 := TokenSwap.side_ok hy
      unfold TokenSwap.mustPay at hn
      split at hn
      · rename_i d' n'
        split at hn
        · rename_i hdn
          simp only [Except.ok.injEq] at hn
          unfold TokenSwap.nativeDenom at hd
          split at hd
          · rename_i d2 htok
            simp only [Except.ok.injEq] at hd
            unfold provides
            rw [htok]
            simp only
            rw [← e3, ← e2, ← hn, hdn.1, hd]
          · cases hd
        · cases hn
      · cases hn
    · simp only at h1
      rw [sd_put_other hs, h0] at h1
      cases h1
  | send c x n =>
    simp only [bind_ok, Except.ok.injEq, Prod.mk.injEq, TokenSwap.receive, require_ok, decide_eq_true_eq] at h
    obtain ⟨l1, _, q, ⟨y, hy, _, htok, hq⟩, l2, _, rfl, rfl⟩ := h
    obtain ⟨_, e2, rfl⟩ := TokenSwap.doFund_ok hq
    by_cases hs : y = sd
    · subst hs
      have e3 := TokenSwap.side_ok hy
      unfold provides
      rw [htok]
      simp only
      rw [← e3, ← e2]
    · simp only at h1
      rw [sd_put_other hs, h0] at h1
      cases h1
  | withdraw x =>
    simp only [bind_ok, Except.ok.injEq, Prod.mk.injEq, TokenSwap.withdraw] at h
    obtain ⟨q, ⟨y, _, _, _, _, _, rfl⟩, l2, _, rfl, rfl⟩ := h
    by_cases hs : y = sd
    · subst hs
      simp only [TokenSwap.put_party_self] at h1
      cases h1
    · simp only at h1
      rw [sd_put_other hs, h0] at h1
      cases h1
  | transfer t' x y n =>
    simp only [bind_ok, Except.ok.injEq, Prod.mk.injEq] at h
    obtain ⟨l1, _, rfl, rfl⟩ := h
    simp only at h1
    rw [h0] at h1
    cases h1

theorem sd_provided_run {w0 w : TokenSwap.World} {b0 b : Block} {log : Spec.TokenSwap.Log} (h0 : TokenSwap.sys.init b0 w0)
    (h : TokenSwap.sys.Run w0 b0 log w b) {sd : Bool} (hp : (w.c.party sd).provided = true) :
    ∃ ev ∈ log, ev.call = provides (w.c.party sd) := by
  induction h with
  | refl =>
    obtain ⟨_, h1, h2⟩ := TokenSwap.inv_init h0
    cases sd
    · exact absurd (h2.symm.trans hp) (by decide)
    · exact absurd (h1.symm.trans hp) (by decide)
  | @step s1 s2 b3 log env call out hr hb3 hs ih =>
    have ht : Spec.TokenSwap.terms s2.c = Spec.TokenSwap.terms s1.c := by
      rw [TokenSwap.C42_terms h0 (.step hr hb3 hs), TokenSwap.C42_terms h0 hr]
    rw [sd_provides_eq (sd_party_eq ht sd)]
    by_cases hq : (s1.c.party sd).provided = true
    · obtain ⟨ev, he, h2⟩ := ih hq
      exact ⟨ev, List.mem_cons_of_mem _ he, h2⟩
    · exact ⟨_, List.mem_cons_self, sd_provided (b := env) hs (by simpa using hq) hp⟩

theorem sd_provides_sender (p : TokenSwap.Party) : (provides p).sender = p.address := by
  unfold provides
  split <;> rfl

/-- **C133.** What the swap means for a DAO that is a party to it, whatever anybody does. As long as the DAO has not provided its
promise, or has it back, it has in every token what it had, with what it got from others and without what it paid to others. When
it has provided and the other party has not, it has its promise less; and when both have, it has its promise less and that of the
other party more. And if it has provided, its members decided on that. (What it paid to others its members decided on as well, by
`C133_decided`.) -/
theorem C133_outcome (hU : ∀ i, Lawful (U i)) {u : ∀ i, FullDao.World (T i)} {w0 w : World T} {b0 b : Block}
    {d : ∀ i, List (FullDao.Event (T i) (F i) (D i))} {log : List (Event T F D)} (h : History U N decode r u w0 w b0 b d log)
    {i : I} {sd : Bool} (hi : (w0.swap.c.party sd).address = (w.dao i).core.core.me) (t : TokenSwap.Token) :
    let me := (w.dao i).core.core.me
    let mine := w0.swap.c.party sd
    let other := w0.swap.c.party !sd
    let done := swapLog r log
    ((w.swap.c.party sd).provided = false → has w me t + spent me t done = has w0 me t + earned me t done) ∧
    ((w.swap.c.party sd).provided = true → (w.swap.c.party !sd).provided = false →
      has w me t + spent me t done + Spec.TokenSwap.promise mine t = has w0 me t + earned me t done) ∧
    ((w.swap.c.party sd).provided = true → (w.swap.c.party !sd).provided = true →
      has w me t + spent me t done + Spec.TokenSwap.promise mine t =
        has w0 me t + earned me t done + Spec.TokenSwap.promise other t) ∧
    ((w.swap.c.party sd).provided = true → Decided U decode r i (u i).core.stack (daoLog i log ++ d i) (provides mine)) := by
  obtain ⟨b1, h1, _⟩ := C133_swap h.run
  have hinv := TokenSwap.inv_run h.swap h1
  have hterm := sd_party_eq (TokenSwap.C42_terms h.swap h1)
  have hself : (w.dao i).core.core.me ≠ w0.swap.self := by
    rw [← hi]
    have := (TokenSwap.inv_init h.swap).1.notSelf sd
    exact this
  have hb := (sd_books h1 hself t).2
  have ha := hinv.acct sd
  simp only [TokenSwap.Acct] at ha
  have hadd : (w.swap.c.party sd).address = (w.dao i).core.core.me := (hterm sd).1.trans hi
  have hpm : ∀ x, Spec.TokenSwap.promise (w.swap.c.party x) t = Spec.TokenSwap.promise (w0.swap.c.party x) t := by
    intro x
    simp only [Spec.TokenSwap.promise, (hterm x).2.1, (hterm x).2.2]
  intro me mine other done
  refine ⟨fun hp => ?_, fun hp ho => ?_, fun hp ho => ?_, fun hp => ?_⟩
  · rw [hp, if_neg (by decide)] at ha
    have ha := ha t
    rw [hadd] at ha
    simp only [has, me, done]
    omega
  · rw [hp, ho, if_pos rfl, if_neg (by decide)] at ha
    have ha := ha t
    rw [hadd, hpm] at ha
    simp only [has, me, done, mine]
    omega
  · rw [hp, ho, if_pos rfl, if_pos rfl] at ha
    have ha := ha t
    rw [hadd, hpm, hpm] at ha
    simp only [has, me, done, mine, other]
    omega
  · obtain ⟨ev, he, hc⟩ := sd_provided_run h.swap h1 hp
    have := C133_decided hU h he (i := i) (by rw [hc, sd_provides_sender, hadd])
    rw [hc, sd_provides_eq (hterm sd)] at this
    exact this

/-- **C133.** What is decided about coins and tokens is not lost: whenever the next message of a DAO is about them, sending it
carries it out. -/
theorem C133_not_dropped {w0 w : World T} {b0 b : Block} {log : List (Event T F D)} (h : (sys U N decode r).Run w0 b0 log w b)
    {e : Event T F D} (he : e ∈ log) {i : I} {n : Nat} {rest : List DaoCore.Sub} {k : TokenSwap.Call}
    (hst : (e.pre.dao i).core.stack = .send (.other n) :: rest) (hk : r i n = some k) {ev : FullDao.Event (T i) (F i) (D i)}
    (hev : daoEvent i e = some ev) {x : DaoCore.Created} (hx : ev.call = .core (.deliver x)) :
    doing r e = some k ∧ k.sender = (e.pre.dao i).core.core.me ∧
      TokenSwap.step e.pre.swap e.env.block k = .ok (e.post.swap, e.out.swap) := by
  obtain ⟨_, _, _, _, _, _, hs, _⟩ := h.event e he
  obtain ⟨pre, env, call, out, post⟩ := e
  have hnext : next (r i) (pre.dao i).core.stack = some k := by
    simp only at hst
    rw [hst]; exact hk
  cases call with
  | it q => simp [daoEvent] at hev
  | dao j c =>
    by_cases hj : j = i
    · subst hj
      simp only [daoEvent, dite_true, Option.some.injEq] at hev
      subst hev
      simp only at hx
      subst hx
      replace hs : step U N decode r pre env (.dao j (.core (.deliver x))) = .ok (post, out) := hs
      simp only [step, alone, hnext, Option.isNone_some, require, Bool.false_eq_true, if_false, error_bind] at hs
      cases hs
    · simp [daoEvent, hj] at hev
  | pass j =>
    by_cases hj : j = i
    · subst hj
      obtain ⟨q, hq, h1, _, _, h2⟩ := sd_pass (U := U) (N := N) (decode := decode) (r := r) hs
      rw [hnext] at hq
      cases hq
      exact ⟨hnext, h1, h2⟩
    · simp [daoEvent, hj] at hev

/-! ## What the members can always do -/

theorem sd_provide (p : TokenSwap.Party) : provides p = TokenSwap.provide p := rfl

/-- A party that has not provided can, if it has the promised amount. -/
theorem sd_can_provide {w0 w : TokenSwap.World} {b0 b : Block} {log : Spec.TokenSwap.Log} (h0 : TokenSwap.sys.init b0 w0)
    (hr : TokenSwap.sys.Run w0 b0 log w b) (sd : Bool) (hp : (w.c.party sd).provided = false)
    (hbal : (w.c.party sd).amount ≤ getD0 w.ledger ((w.c.party sd).token, (w.c.party sd).address))
    (hsupply : ∀ t a c, a ≠ c → getD0 w.ledger (t, a) + getD0 w.ledger (t, c) < U128) (b' : Block) :
    ∃ w' o, TokenSwap.step w b' (provides (w.c.party sd)) = .ok (w', o) ∧ (w'.c.party sd).provided = true ∧
      o = TokenSwap.swapMsgs { w.c.party sd with provided := true } (w.c.party !sd) := by
  cases ho : (w.c.party !sd).provided with
  | true =>
    obtain ⟨w', h1, h2, h3⟩ := TokenSwap.C42_completes h0 hr sd hp ho hbal hsupply b'
    refine ⟨w', _, h1, ?_, by simp only [TokenSwap.swapMsgs, ho, Bool.and_self, if_true]⟩
    cases sd
    · exact h3
    · exact h2
  | false =>
    have hi := TokenSwap.inv_run h0 hr
    have hpos := TokenSwap.amount_pos h0 hr sd
    have hns := hi.notSelf sd
    have k1 : ((w.c.party sd).token, (w.c.party sd).address) ≠ ((w.c.party sd).token, w.self) := by
      intro e; simp only [Prod.mk.injEq, true_and] at e; exact hns e
    have s1 := hsupply (w.c.party sd).token _ _ hns
    obtain ⟨l1, hl1⟩ := TokenSwap.move_live (l := w.ledger) (n := (w.c.party sd).amount) k1 hbal (by omega)
    have hside : TokenSwap.side w.c (w.c.party sd).address = .ok sd := by
      unfold TokenSwap.side
      cases sd with
      | true => exact if_pos rfl
      | false =>
        rw [if_neg (show ¬ (w.c.party false).address = w.c.one.address from Ne.symm hi.distinct)]
        exact if_pos rfl
    have hd : TokenSwap.doFund w.c sd (w.c.party sd).amount = .ok (w.c.put sd { w.c.party sd with provided := true }, []) := by
      unfold TokenSwap.doFund
      simp only [hp, ho, require, Bool.not_false, decide_true, if_true, ok_bind, TokenSwap.swapMsgs, Bool.and_false,
        Bool.false_eq_true, if_false]
    refine ⟨{ w with c := w.c.put sd { w.c.party sd with provided := true }, ledger := l1 }, [], ?_, ?_, ?_⟩
    · unfold TokenSwap.step provides
      cases ht : (w.c.party sd).token with
      | native d =>
        rw [ht] at hl1
        have hfund : TokenSwap.fund w.c (w.c.party sd).address [(d, (w.c.party sd).amount)] =
            TokenSwap.doFund w.c sd (w.c.party sd).amount := by
          unfold TokenSwap.fund
          rw [hside, ok_bind, ht]
          simp only [TokenSwap.nativeDenom, ok_bind, TokenSwap.mustPay]
          rw [if_pos ⟨trivial, hpos⟩, ok_bind]
        simp only [TokenSwap.Call.sender, hns, require, ne_eq, not_false_eq_true, decide_true, if_true, ok_bind,
          TokenSwap.pull, hl1, hfund, hd, TokenSwap.push]
      | cw20 t =>
        rw [ht] at hl1
        have hrec : TokenSwap.receive w.c t (w.c.party sd).address (w.c.party sd).amount =
            TokenSwap.doFund w.c sd (w.c.party sd).amount := by
          unfold TokenSwap.receive
          rw [hside, ok_bind, ht]
          simp only [require, decide_true, if_true, ok_bind]
        simp only [TokenSwap.Call.sender, hns, require, ne_eq, not_false_eq_true, decide_true, if_true, ok_bind, hl1, hrec,
          hd, TokenSwap.push]
    · simp only [TokenSwap.put_party_self]
    · simp only [TokenSwap.swapMsgs, ho, Bool.and_false, Bool.false_eq_true, if_false]

/-- What is decided in a DAO is executed, and then its one message, about coins and tokens, is carried out. -/
theorem sd_act (hU : ∀ i, Lawful (U i)) {u : ∀ i, FullDao.World (T i)} {w0 w : World T} {b0 b : Block}
    {d : ∀ i, List (FullDao.Event (T i) (F i) (D i))} {log : List (Event T F D)} (h : History U N decode r u w0 w b0 b d log)
    {i : I} {e : Env} (hb : b.le e.block) {n j : Nat} {c : FullDao.Call (F i) (D i)}
    (hp : Spec.Treasury.Resolved (U i) (w.dao i) (daoLog i log ++ d i) e [n] c) (hn : decode i n = .other j)
    {k : TokenSwap.Call} (hj : r i j = some k) (hk : k.sender = (w.dao i).core.core.me) {x : TokenSwap.World}
    {o : List TokenSwap.Pay} (hx : TokenSwap.step w.swap e.block k = .ok (x, o)) :
    ∃ w' log', (sys U N decode r).Run w b log' w' e.block ∧
      log'.map (fun ev => (ev.env, ev.call)) = [(e, .pass i), (e, .dao i c)] ∧ w'.swap = x ∧
      (w'.dao i).core.stack = (w.dao i).core.stack ∧ ∀ l, l ≠ i → w'.dao l = w.dao l := by
  obtain ⟨bu, b2, hi, h5, _⟩ := sd_all (h.daos i) h.run
  obtain ⟨hnc, y, oy, h2, h3⟩ := Treasury.resolved_executes (N := N i) (decode := decode i) (hU i) ⟨bu, u i, hi, h5⟩
    (h.steady i) (h.totals i) hp
  have hal : alone (r i) (w.dao i).core.stack c = true := by
    cases c with
    | core c => exact absurd rfl (hnc c)
    | _ => rfl
  have h4 : (sys U N decode r).step w e (.dao i c) = .ok (⟨Function.update w.dao i y, w.swap⟩, ⟨oy, []⟩) := by
    simp only [sys, step, hal, require, if_true, ok_bind, h2]
  have hme : y.core.core.me = (w.dao i).core.core.me := (FullDao.full_stack_step h2).1
  have hst : y.core.stack = .send (.other j) :: (w.dao i).core.stack := by
    rw [h3]; simp [hn]
  have h6 : FullDao.step (U i) (N i) (decode i) y e (.core (.deliver ⟨0, []⟩)) =
      .ok ({ y with core := ⟨y.core.core, (w.dao i).core.stack⟩ }, ⟨.none, []⟩) := by
    simp only [FullDao.step, FullDao.notByModule, require, if_true, ok_bind, DaoCore.step, hst]
  have h7 : next (r i) y.core.stack = some k := by rw [hst]; exact hj
  have h8 : (sys U N decode r).step (⟨Function.update w.dao i y, w.swap⟩ : World T) e (.pass i : Call F D) =
      .ok (⟨Function.update (Function.update w.dao i y) i { y with core := ⟨y.core.core, (w.dao i).core.stack⟩ }, x⟩,
        ⟨⟨.none, []⟩, o⟩) := by
    simp only [sys, step, Function.update_self, h7, orErr, ok_bind, hme, hk, decide_true, require, if_true, h6, hx]
  refine ⟨_, [⟨_, e, .pass i, _, _⟩, ⟨w, e, .dao i c, _, _⟩],
    .step (M := sys U N decode r) (env := e) (call := .pass i)
      (.step (M := sys U N decode r) (env := e) (call := .dao i c) .refl hb h4) (Block.le_refl _) h8, rfl, rfl, ?_, ?_⟩
  · simp only [Function.update_self]
  · intro l hl
    simp only [Function.update_of_ne hl]

theorem sd_paysIn_provides {p : TokenSwap.Party} {a : Addr} {t : TokenSwap.Token} :
    Spec.TokenSwap.paysIn a t (provides p) = (if p.address = a then Spec.TokenSwap.promise p t else 0) ∧
      pays a t (provides p) = 0 ∧ gets a t (provides p) = 0 := by
  unfold provides
  cases ht : p.token with
  | native d => simp [Spec.TokenSwap.paysIn, pays, gets, Spec.TokenSwap.promise, ht]
  | cw20 c =>
    simp only [Spec.TokenSwap.paysIn, pays, gets, Spec.TokenSwap.promise, ht, and_true]
    by_cases h1 : p.address = a <;> simp [h1]

/-- **C133.** The members of a DAO that is a party to the swap can always have it provide its promise: what they decided, in any of
its proposal modules, can be executed and is carried out, if the DAO has the promised amount. The DAO has its promise less then;
and if the other party had provided before, it has what the other party promised, and the other party what the DAO promised.
(`hsupply`: no two balances exceed 128 bits together, as when the total supply does not.) -/
theorem C133_provides (hU : ∀ i, Lawful (U i)) {u : ∀ i, FullDao.World (T i)} {w0 w : World T} {b0 b : Block}
    {d : ∀ i, List (FullDao.Event (T i) (F i) (D i))} {log : List (Event T F D)} (h : History U N decode r u w0 w b0 b d log)
    {i : I} {sd : Bool} (hi : (w.swap.c.party sd).address = (w.dao i).core.core.me)
    (hnot : (w.swap.c.party sd).provided = false) {e : Env} (hb : b.le e.block)
    -- the decision
    {n j : Nat} {c : FullDao.Call (F i) (D i)}
    (hp : Spec.Treasury.Resolved (U i) (w.dao i) (daoLog i log ++ d i) e [n] c) (hn : decode i n = .other j)
    (hj : r i j = some (provides (w.swap.c.party sd)))
    (hbal : (w.swap.c.party sd).amount ≤ has w (w.dao i).core.core.me (w.swap.c.party sd).token)
    (hsupply : ∀ t a q, a ≠ q → has w a t + has w q t < U128) :
    ∃ w' log', (sys U N decode r).Run w b log' w' e.block ∧
      log'.map (fun ev => (ev.env, ev.call)) = [(e, .pass i), (e, .dao i c)] ∧ (w'.swap.c.party sd).provided = true ∧
      ∀ t, if (w.swap.c.party !sd).provided then
          has w' (w.dao i).core.core.me t + Spec.TokenSwap.promise (w.swap.c.party sd) t =
            has w (w.dao i).core.core.me t + Spec.TokenSwap.promise (w.swap.c.party !sd) t ∧
          has w' (w.swap.c.party !sd).address t =
            has w (w.swap.c.party !sd).address t + Spec.TokenSwap.promise (w.swap.c.party sd) t
        else
          has w' (w.dao i).core.core.me t + Spec.TokenSwap.promise (w.swap.c.party sd) t = has w (w.dao i).core.core.me t ∧
          has w' (w.swap.c.party !sd).address t = has w (w.swap.c.party !sd).address t := by
  obtain ⟨b1, h1, _⟩ := C133_swap h.run
  have hinv := TokenSwap.inv_run h.swap h1
  obtain ⟨x, o, h2, h3, h4⟩ := sd_can_provide h.swap h1 sd hnot (by rw [hi]; exact hbal) hsupply e.block
  obtain ⟨w', log', h5, h6, h7, _⟩ := sd_act hU h hb hp hn hj (by rw [sd_provides_sender, hi]) h2
  refine ⟨w', log', h5, h6, by rw [h7]; exact h3, fun t => ?_⟩
  have hself := hinv.notSelf
  have e1 := sd_account h2 (hself sd) t
  have e2 := sd_account h2 (hself !sd) t
  obtain ⟨p1, p2, p3⟩ := sd_paysIn_provides (p := w.swap.c.party sd) (a := (w.swap.c.party sd).address) (t := t)
  obtain ⟨q1, q2, q3⟩ := sd_paysIn_provides (p := w.swap.c.party sd) (a := (w.swap.c.party !sd).address) (t := t)
  have hne := TokenSwap.addr_ne hinv sd
  rw [p1, p2, p3, if_pos rfl] at e1
  rw [q1, q2, q3, if_neg hne] at e2
  rw [← hi]
  simp only [has, h7]
  rw [h4] at e1 e2
  simp only [TokenSwap.swapMsgs] at e1 e2
  split
  · rename_i ho
    simp only [ho, Bool.and_self, if_true, List.map_cons, List.map_nil, List.sum_cons, List.sum_nil, Spec.TokenSwap.gives,
      true_and, hne, Ne.symm hne, false_and, if_false, Nat.zero_add, Nat.add_zero] at e1 e2
    simp only [Spec.TokenSwap.promise] at e1 e2 ⊢
    exact ⟨by omega, by omega⟩
  · rename_i ho
    simp only [ho, Bool.and_false, if_false, List.map_nil, List.sum_nil, Bool.false_eq_true, Nat.add_zero] at e1 e2
    exact ⟨by omega, by omega⟩

/-- **C133.** And as long as the other party has not provided, they can always have the promise back. -/
theorem C133_withdraws (hU : ∀ i, Lawful (U i)) {u : ∀ i, FullDao.World (T i)} {w0 w : World T} {b0 b : Block}
    {d : ∀ i, List (FullDao.Event (T i) (F i) (D i))} {log : List (Event T F D)} (h : History U N decode r u w0 w b0 b d log)
    {i : I} {sd : Bool} (hi : (w.swap.c.party sd).address = (w.dao i).core.core.me)
    (hhas : (w.swap.c.party sd).provided = true) (hnot : (w.swap.c.party !sd).provided = false) {e : Env} (hb : b.le e.block)
    -- the decision
    {n j : Nat} {c : FullDao.Call (F i) (D i)}
    (hp : Spec.Treasury.Resolved (U i) (w.dao i) (daoLog i log ++ d i) e [n] c) (hn : decode i n = .other j)
    (hj : r i j = some (.withdraw (w.dao i).core.core.me))
    (hroom : has w (w.dao i).core.core.me (w.swap.c.party sd).token + (w.swap.c.party sd).amount < U128) :
    ∃ w' log', (sys U N decode r).Run w b log' w' e.block ∧
      log'.map (fun ev => (ev.env, ev.call)) = [(e, .pass i), (e, .dao i c)] ∧ (w'.swap.c.party sd).provided = false ∧
      ∀ t, has w' (w.dao i).core.core.me t =
        has w (w.dao i).core.core.me t + Spec.TokenSwap.promise (w.swap.c.party sd) t := by
  obtain ⟨b1, h1, _⟩ := C133_swap h.run
  have hinv := TokenSwap.inv_run h.swap h1
  obtain ⟨x, h2, _, h4⟩ := TokenSwap.C42_withdraw h.swap h1 sd hhas hnot (by rw [hi]; exact hroom) e.block
  replace h2 : TokenSwap.step w.swap e.block (.withdraw (w.swap.c.party sd).address) = _ := h2
  obtain ⟨w', log', h5, h6, h7, _⟩ := sd_act hU h hb hp hn hj rfl (by rw [← hi]; exact h2)
  refine ⟨w', log', h5, h6, by rw [h7, h4, TokenSwap.put_party_self], fun t => ?_⟩
  have e1 := sd_account h2 (hinv.notSelf sd) t
  rw [← hi]
  simp only [has, h7]
  simp only [Spec.TokenSwap.paysIn, pays, gets, List.map_cons, List.map_nil, List.sum_cons, List.sum_nil, Spec.TokenSwap.gives,
    true_and, Nat.add_zero] at e1
  exact e1

end Verif.SwapDaos
