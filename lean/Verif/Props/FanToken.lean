import Verif.Spec.FanToken
/-!
# C79: btsg-ft-factory
-/

namespace Verif.FanToken
open Spec.FanToken

@[simp] theorem listed_nil (q : Addr) : listed [] q = 0 := rfl
@[simp] theorem listed_cons (b : Addr × Nat) (l : List (Addr × Nat)) (q : Addr) :
    listed (b :: l) q = (if b.1 = q then b.2 else 0) + listed l q := by simp [listed]
theorem listed_append (l k : List (Addr × Nat)) (q : Addr) : listed (l ++ k) q = listed l q + listed k q := by
  simp [listed]

theorem mint_ok {w w' : World} {d : Nat} {s r : Addr} {n : Nat} :
    modMsg w d s (.mint r n) = .ok w' ↔ ∃ t, w.tokens.get d = some t ∧ t.minter = s ∧ n ≠ 0 ∧ t.supply + n ≤ t.max ∧
      getD0 w.bal (d, r) + n < U128 ∧ 
      w' = { w with bal := AMap.set w.bal (d, r) (getD0 w.bal (d, r) + n), tokens := w.tokens.set d { t with supply := t.supply + n } } := by
  simp only [modMsg, bind_ok, orErr_ok, require_ok, decide_eq_true_eq, Except.ok.injEq, Ledger.credit_ok]
  constructor
  · rintro ⟨t, h1, _, h2, _, h3, _, h4, bal, ⟨h5, rfl⟩, rfl⟩; exact ⟨t, h1, h2, h3, h4, h5, rfl⟩
  · rintro ⟨t, h1, h2, h3, h4, h5, rfl⟩; exact ⟨t, h1, (), h2, (), h3, (), h4, _, ⟨h5, rfl⟩, rfl⟩

theorem append_msgs {d : Nat} {s : Addr} {l k : List ModMsg} {w w' : World} :
    modMsgs d s (l ++ k) w = .ok w' ↔ ∃ w1, modMsgs d s l w = .ok w1 ∧ modMsgs d s k w1 = .ok w' := by
  induction l generalizing w with
  | nil => simp [modMsgs]
  | cons m l ih =>
    simp only [List.cons_append, modMsgs, bind_ok]
    constructor
    · rintro ⟨w2, h1, h2⟩
      obtain ⟨w3, h3, h4⟩ := ih.1 h2
      exact ⟨w3, ⟨w2, h1, h3⟩, h4⟩
    · rintro ⟨w3, ⟨w2, h1, h3⟩, h4⟩
      exact ⟨w2, h1, ih.2 ⟨w3, h3, h4⟩⟩

/-- Minting a list. -/
theorem mints_do {d : Nat} {s : Addr} {l : List (Addr × Nat)} {w w' : World} {t : Token} (ht : w.tokens.get d = some t)
    (h : modMsgs d s (l.map (fun b => .mint b.1 b.2)) w = .ok w') :
    (∀ b ∈ l, b.2 ≠ 0) ∧ t.supply + (l.map Prod.snd).sum ≤ max t.max t.supply ∧
    w'.tokens.get d = some { t with supply := t.supply + (l.map Prod.snd).sum } ∧
    (∀ d', d' ≠ d → w'.tokens.get d' = w.tokens.get d') ∧
    (∀ q, getD0 w'.bal (d, q) = getD0 w.bal (d, q) + listed l q) ∧
    (∀ d' q, d' ≠ d → getD0 w'.bal (d', q) = getD0 w.bal (d', q)) ∧ w'.c = w.c ∧ w'.self = w.self := by
  induction l generalizing w t with
  | nil =>
    simp only [List.map_nil, modMsgs, Except.ok.injEq] at h
    subst h
    exact ⟨by simp, by simp; omega, by simpa using ht, fun _ _ => rfl, by simp, fun _ _ _ => rfl, rfl, rfl⟩
  | cons b l ih =>
    simp only [List.map_cons, modMsgs, bind_ok, mint_ok] at h
    obtain ⟨w1, ⟨t', h1, h2, h3, h4, h5, rfl⟩, h⟩ := h
    rw [ht, Option.some.injEq] at h1
    subst h1
    obtain ⟨i1, i2, i3, i4, i5, i6, i7, i8⟩ := ih (AMap.get_set_self ..) h
    refine ⟨?_, ?_, ?_, ?_, ?_, ?_, i7, i8⟩
    · intro x hx
      rcases List.mem_cons.1 hx with rfl | hx
      · exact h3
      · exact i1 x hx
    · simp only [List.map_cons, List.sum_cons] at i2 ⊢; omega
    · rw [i3]; simp only [List.map_cons, List.sum_cons, Option.some.injEq, Token.mk.injEq, true_and]; omega
    · intro d' hd; rw [i4 d' hd]; exact AMap.get_set_ne _ _ (Ne.symm hd)
    · intro q
      rw [i5 q]
      show getD0 (AMap.set _ _ _) _ + _ = _
      rw [getD0_set, listed_cons]
      by_cases hq : b.1 = q
      · subst hq; simp; omega
      · rw [if_neg (by simp [hq]), if_neg hq]; omega
    · intro d' q hd
      rw [i6 d' q hd]
      show getD0 (AMap.set _ _ _) _ = _
      rw [getD0_set, if_neg (by intro e; simp only [Prod.mk.injEq] at e; exact hd e.1.symm)]

/-- Minting a list succeeds. -/
theorem mints_live {d : Nat} {s : Addr} {l : List (Addr × Nat)} {w : World} {t : Token} (ht : w.tokens.get d = some t)
    (hm : t.minter = s) (hn : ∀ b ∈ l, b.2 ≠ 0) (hs : t.supply + (l.map Prod.snd).sum ≤ t.max) (hx : t.max < U128)
    (hb : ∀ q, getD0 w.bal (d, q) ≤ t.supply) :
    ∃ w', modMsgs d s (l.map (fun b => .mint b.1 b.2)) w = .ok w' := by
  induction l generalizing w t with
  | nil => exact ⟨w, rfl⟩
  | cons b l ih =>
    simp only [List.map_cons, List.sum_cons] at hs
    have hb1 := hb b.1
    obtain ⟨w', hw'⟩ := ih (w := { w with bal := AMap.set w.bal (d, b.1) (getD0 w.bal (d, b.1) + b.2), tokens := w.tokens.set d { t with supply := t.supply + b.2 } }) (t := { t with supply := t.supply + b.2 }) (AMap.get_set_self ..) hm
      (fun x hx => hn x (List.mem_cons_of_mem _ hx)) (by simp only; omega) hx (by
        intro q
        show getD0 (AMap.set _ _ _) _ ≤ _
        rw [getD0_set]
        have := hb q
        split
        · simp only; omega
        · simp only; omega)
    refine ⟨w', ?_⟩
    simp only [List.map_cons, modMsgs, bind_ok, mint_ok]
    exact ⟨_, ⟨t, ht, hm, hn b (List.mem_cons_self ..), by omega, by omega, rfl⟩, hw'⟩

/-- The mints for the DAO are a list too. -/
def daoList (dao : Addr) (b : Option Nat) : List (Addr × Nat) :=
  match b with | none => [] | some n => if n = 0 then [] else [(dao, n)]

theorem mintDao_eq (dao : Addr) (b : Option Nat) : mintDao dao b = (daoList dao b).map (fun b => .mint b.1 b.2) := by
  unfold mintDao daoList
  cases b with
  | none => rfl
  | some n => simp only; split <;> rfl

theorem daoList_sum (dao : Addr) (b : Option Nat) : ((daoList dao b).map Prod.snd).sum = b.getD 0 := by
  unfold daoList
  cases b with
  | none => rfl
  | some n =>
    simp only
    split
    · rename_i h; simp [h]
    · simp

theorem daoList_listed (dao q : Addr) (b : Option Nat) :
    listed (daoList dao b) q = if dao = q then b.getD 0 else 0 := by
  unfold daoList
  cases b with
  | none => simp
  | some n =>
    simp only
    split
    · rename_i h; simp [h]
    · simp

theorem daoList_ne (dao : Addr) (b : Option Nat) : ∀ x ∈ daoList dao b, x.2 ≠ 0 := by
  unfold daoList
  cases b with
  | none => simp
  | some n =>
    simp only
    split
    · simp
    · rename_i h; simpa using h

/-- The factory's work, as one list of mints and two handovers. -/
theorem factory_ok {w w' : World} {e : Env} {t : NewToken} {u : Unit} :
    step w e (.factory t) = .ok (w', u) ↔ ∃ dao w2, e.dao = some dao ∧ w.tokens.get e.denom = none ∧
      modMsgs e.denom w.self ((t.initial ++ daoList dao t.daoBalance).map (fun b => .mint b.1 b.2))
        { w with c := { creating := none }, tokens := w.tokens.set e.denom ⟨w.self, w.self, t.max, 0⟩ } = .ok w2 ∧
      modMsgs e.denom w.self [.setAuthority dao, .setMinter dao] w2 = .ok w' := by
  simp only [step, execIssue, issue, reply, bind_ok, orErr_ok, require_ok, decide_eq_true_eq, Except.ok.injEq,
    Prod.mk.injEq, and_true]
  constructor
  · rintro ⟨c, ⟨dao, hd, rfl⟩, w1, ⟨_, hn, rfl⟩, r, ⟨p, hp, rfl⟩, w2, h2, rfl⟩
    simp only [Option.some.injEq] at hp
    subst hp
    rw [mintDao_eq, ← List.map_append] at h2
    obtain ⟨w3, h3, h4⟩ := append_msgs.1 h2
    exact ⟨dao, w3, hd, hn, h3, h4⟩
  · rintro ⟨dao, w3, hd, hn, h3, h4⟩
    refine ⟨_, ⟨dao, hd, rfl⟩, _, ⟨(), hn, rfl⟩, _, ⟨_, rfl, rfl⟩, w', ?_, rfl⟩
    simp only
    rw [mintDao_eq, ← List.map_append]
    exact append_msgs.2 ⟨w3, h3, h4⟩

/-- Handing over. -/
theorem handover {d : Nat} {s dao : Addr} {w : World} {t : Token} (ht : w.tokens.get d = some t) (ha : t.authority = s)
    (hm : t.minter = s) : ∃ w', modMsgs d s [.setAuthority dao, .setMinter dao] w = .ok w' ∧
      w'.tokens.get d = some { t with authority := dao, minter := dao } ∧
      (∀ d', d' ≠ d → w'.tokens.get d' = w.tokens.get d') ∧ w'.bal = w.bal ∧ w'.c = w.c := by
  refine ⟨{ w with tokens := AMap.set (AMap.set w.tokens d { t with authority := dao }) d { t with authority := dao, minter := dao } },
    ?_, AMap.get_set_self .., ?_, rfl, rfl⟩
  · simp only [modMsgs, modMsg, bind_ok, orErr_ok, require_ok, decide_eq_true_eq, Except.ok.injEq]
    exact ⟨_, ⟨t, ht, (), ha, rfl⟩, _, ⟨_, AMap.get_set_self .., (), hm, rfl⟩, rfl⟩
  · intro d' hd
    show AMap.get (AMap.set (AMap.set _ _ _) _ _) _ = _
    rw [AMap.get_set_ne _ _ (Ne.symm hd), AMap.get_set_ne _ _ (Ne.symm hd)]

/-- A message to the module leaves tokens that are not issued as they are. -/
theorem modMsg_unissued {w w' : World} {d : Nat} {s : Addr} {m : ModMsg} (h : modMsg w d s m = .ok w') :
    w'.tokens.get d ≠ none ∧ (∀ d', d' ≠ d → w'.tokens.get d' = w.tokens.get d') ∧
      ∀ d' q, d' ≠ d → getD0 w'.bal (d', q) = getD0 w.bal (d', q) := by
  cases m with
  | mint r n =>
    obtain ⟨t, h1, h2, h3, h4, h5, rfl⟩ := mint_ok.1 h
    refine ⟨by rw [show AMap.get _ _ = _ from AMap.get_set_self ..]; simp, fun d' hd => AMap.get_set_ne _ _ (Ne.symm hd), ?_⟩
    intro d' q hd
    show getD0 (AMap.set _ _ _) _ = _
    rw [getD0_set, if_neg (by intro e; simp only [Prod.mk.injEq] at e; exact hd e.1.symm)]
  | setAuthority a =>
    simp only [modMsg, bind_ok, orErr_ok, require_ok, decide_eq_true_eq, Except.ok.injEq] at h
    obtain ⟨t, h1, _, h2, rfl⟩ := h
    exact ⟨by rw [show AMap.get _ _ = _ from AMap.get_set_self ..]; simp, fun d' hd => AMap.get_set_ne _ _ (Ne.symm hd),
      fun _ _ _ => rfl⟩
  | setMinter a =>
    simp only [modMsg, bind_ok, orErr_ok, require_ok, decide_eq_true_eq, Except.ok.injEq] at h
    obtain ⟨t, h1, _, h2, rfl⟩ := h
    exact ⟨by rw [show AMap.get _ _ = _ from AMap.get_set_self ..]; simp, fun d' hd => AMap.get_set_ne _ _ (Ne.symm hd),
      fun _ _ _ => rfl⟩

/-- What the factory does. -/
theorem factory_does {w w' : World} {e : Env} {t : NewToken} {u : Unit} (h : step w e (.factory t) = .ok (w', u)) :
    ∃ dao, e.dao = some dao ∧ w.tokens.get e.denom = none ∧ (∀ b ∈ t.initial, b.2 ≠ 0) ∧ minted t ≤ t.max ∧
      w'.tokens.get e.denom = some ⟨dao, dao, t.max, minted t⟩ ∧
      (∀ q, getD0 w'.bal (e.denom, q) = getD0 w.bal (e.denom, q) + share t dao q) ∧
      (∀ d, d ≠ e.denom → w'.tokens.get d = w.tokens.get d) ∧
      (∀ d q, d ≠ e.denom → getD0 w'.bal (d, q) = getD0 w.bal (d, q)) ∧ w'.c = { creating := none } := by
  obtain ⟨dao, w2, hd, hn, hm, hh⟩ := factory_ok.1 h
  obtain ⟨i1, i2, i3, i4, i5, i6, i7, i8⟩ := mints_do (AMap.get_set_self ..) hm
  simp only [List.map_append, List.sum_append, daoList_sum, Nat.zero_add] at i2 i3
  obtain ⟨w3, g1, g2, g3, g4, g5⟩ := handover (dao := dao) i3 rfl rfl
  rw [hh, Except.ok.injEq] at g1
  subst g1
  refine ⟨dao, hd, hn, fun b hb => i1 b (List.mem_append_left _ hb), ?_, g2, ?_, ?_, ?_, by rw [g5, i7]⟩
  · unfold minted; omega
  · intro q
    rw [g4, i5 q, listed_append, daoList_listed]; rfl
  · intro d hd'
    rw [g3 d hd', i4 d hd']; exact AMap.get_set_ne _ _ (Ne.symm hd')
  · intro d q hd'
    rw [g4, i6 d q hd']

/-- Nobody has anything of a token that has not been issued. -/
theorem unissued {w : World} {b : Block} {log : List Event} (h : sys.Reach w b log) :
    w.c = { creating := none } ∧ ∀ d q, w.tokens.get d = none → getD0 w.bal (d, q) = 0 := by
  refine Sys.Reach.induct (M := sys) (P := fun w _ _ => w.c = { creating := none } ∧
    ∀ d q, w.tokens.get d = none → getD0 w.bal (d, q) = 0) ?_ ?_ h
  · rintro b w ⟨hc, _, hb⟩
    exact ⟨hc, fun d q _ => by rw [hb]; rfl⟩
  · intro w b log e call out w' hr ih _ hst
    obtain ⟨ihc, ih⟩ := ih
    cases call with
    | factory t =>
      obtain ⟨dao, h1, h2, h3, h4, h5, h6, h7, h8, h9⟩ := factory_does hst
      refine ⟨h9, fun d q hd => ?_⟩
      by_cases hde : d = e.denom
      · rw [hde, h5] at hd; cases hd
      · rw [h8 d q hde]; exact ih d q (by rw [← h7 d hde]; exact hd)
    | issue a m mx =>
      simp only [sys, step, issue, bind_ok, require_ok, decide_eq_true_eq, Except.ok.injEq, Prod.mk.injEq] at hst
      obtain ⟨_, ⟨_, h1, rfl⟩, rfl, _⟩ := hst
      refine ⟨ihc, fun d q hd => ?_⟩
      by_cases hde : d = e.denom
      · rw [hde, show AMap.get _ _ = _ from AMap.get_set_self ..] at hd; cases hd
      · exact ih d q (by rw [← hd]; exact (AMap.get_set_ne _ _ (Ne.symm hde)).symm)
    | module m =>
      simp only [sys, step, bind_ok, require_ok, decide_eq_true_eq, Except.ok.injEq, Prod.mk.injEq] at hst
      obtain ⟨_, h1, w1, h2, rfl, _⟩ := hst
      obtain ⟨g1, g2, g3⟩ := modMsg_unissued h2
      refine ⟨?_, fun d q hd => ?_⟩
      · cases m with
        | mint r n => obtain ⟨t, _, _, _, _, _, rfl⟩ := mint_ok.1 h2; exact ihc
        | setAuthority a =>
          simp only [modMsg, bind_ok, orErr_ok, require_ok, decide_eq_true_eq, Except.ok.injEq] at h2
          obtain ⟨t, _, _, _, rfl⟩ := h2; exact ihc
        | setMinter a =>
          simp only [modMsg, bind_ok, orErr_ok, require_ok, decide_eq_true_eq, Except.ok.injEq] at h2
          obtain ⟨t, _, _, _, rfl⟩ := h2; exact ihc
      · by_cases hde : d = e.denom
        · rw [hde] at hd; exact absurd hd g1
        · rw [g3 d q hde]; exact ih d q (by rw [← g2 d hde]; exact hd)
    | transfer dst n =>
      simp only [sys, step, bind_ok, Except.ok.injEq, Prod.mk.injEq] at hst
      obtain ⟨bal, h1, rfl, _⟩ := hst
      refine ⟨ihc, fun d q hd => ?_⟩
      have h0 := ih d q hd
      show getD0 bal (d, q) = 0
      simp only [Ledger.move, bind_ok, Ledger.debit_ok, Ledger.credit_ok] at h1
      obtain ⟨l1, ⟨h2, rfl⟩, h3, rfl⟩ := h1
      rw [getD0_set, getD0_set, getD0_set]
      by_cases hde : e.denom = d
      · subst hde
        have hs := ih e.denom e.sender hd
        have hq := ih e.denom dst hd
        split
        · split <;> omega
        · split <;> omega
      · rw [if_neg (by intro x; simp only [Prod.mk.injEq] at x; exact hde x.1),
          if_neg (by intro x; simp only [Prod.mk.injEq] at x; exact hde x.1)]
        exact h0
    | burn n =>
      simp only [sys, step, bind_ok, orErr_ok, Ledger.debit_ok, Except.ok.injEq, Prod.mk.injEq] at hst
      obtain ⟨t, ht, bal, ⟨h1, rfl⟩, rfl, _⟩ := hst
      refine ⟨ihc, fun d q hd => ?_⟩
      by_cases hde : d = e.denom
      · rw [hde, show AMap.get _ _ = _ from AMap.get_set_self ..] at hd; cases hd
      · show getD0 (AMap.set _ _ _) _ = 0
        rw [getD0_set, if_neg (by intro x; simp only [Prod.mk.injEq] at x; exact hde x.1.symm)]
        exact ih d q (by rw [← hd]; exact (AMap.get_set_ne _ _ (Ne.symm hde)).symm)

/-- C79. When the factory has been called, the DAO that the caller answers with is authority and minter of the new token,
there is as much of it as was asked for, every address has what the list and the balance for the DAO give it and nothing
else, and no other token has changed. -/
theorem C79_issued {w : World} {b : Block} {log : List Event} (h : sys.Reach w b log) {ev : Event} (hev : ev ∈ log)
    {t : NewToken} (hc : ev.call = .factory t) :
    ∃ dao, ev.env.dao = some dao ∧ ev.pre.tokens.get ev.env.denom = none ∧
      ev.post.tokens.get ev.env.denom = some { authority := dao, minter := dao, max := t.max, supply := minted t } ∧
      minted t ≤ t.max ∧ (∀ q, getD0 ev.post.bal (ev.env.denom, q) = share t dao q) ∧
      (∀ d, d ≠ ev.env.denom → ev.post.tokens.get d = ev.pre.tokens.get d) ∧
      (∀ d q, d ≠ ev.env.denom → getD0 ev.post.bal (d, q) = getD0 ev.pre.bal (d, q)) := by
  obtain ⟨b0, w0, h0, hr⟩ := h
  obtain ⟨l1, _, l2, _, hr1, _, hs, _⟩ := hr.event ev hev
  have hu := (unissued ⟨b0, w0, h0, hr1⟩).2
  rw [hc] at hs
  obtain ⟨dao, h1, h2, h3, h4, h5, h6, h7, h8, h9⟩ := factory_does hs
  exact ⟨dao, h1, h2, h5, h4, fun q => by rw [h6 q, hu _ q h2, Nat.zero_add], h7, h8⟩

/-- C79. The factory keeps nothing between calls. -/
theorem C79_clean {w : World} {b : Block} {log : List Event} (h : sys.Reach w b log) : w.c.creating = none := by
  rw [(unissued h).1]

/-- C79. Exactly the calls succeed whose sender has a DAO, that list no zero and that ask for no more than the largest
supply. -/
theorem C79_exact {w : World} {b : Block} {log : List Event} (h : sys.Reach w b log) (e : Env) (t : NewToken)
    (hfresh : w.tokens.get e.denom = none) (hmax : t.max < U128) :
    (∃ w', step w e (.factory t) = .ok (w', ())) ↔
      e.dao ≠ none ∧ (∀ b ∈ t.initial, b.2 ≠ 0) ∧ minted t ≤ t.max := by
  constructor
  · rintro ⟨w', hs⟩
    obtain ⟨dao, h1, h2, h3, h4, _⟩ := factory_does hs
    exact ⟨by rw [h1]; simp, h3, h4⟩
  · rintro ⟨h1, h2, h3⟩
    obtain ⟨dao, hd⟩ := Option.ne_none_iff_exists'.1 h1
    obtain ⟨w2, hm⟩ := mints_live (d := e.denom) (s := w.self) (l := t.initial ++ daoList dao t.daoBalance)
      (w := { w with c := { creating := none }, tokens := w.tokens.set e.denom ⟨w.self, w.self, t.max, 0⟩ })
      (AMap.get_set_self ..) rfl (by
        intro x hx
        rcases List.mem_append.1 hx with hx | hx
        · exact h2 x hx
        · exact daoList_ne _ _ x hx) (by
        simp only [List.map_append, List.sum_append, daoList_sum, Nat.zero_add]; exact h3) hmax (by
        intro q
        show getD0 w.bal _ ≤ 0
        rw [(unissued h).2 _ q hfresh]; exact Nat.le_refl _)
    obtain ⟨_, _, i3, _⟩ := mints_do (AMap.get_set_self ..) hm
    obtain ⟨w3, g1, _⟩ := handover (dao := dao) i3 rfl rfl
    exact ⟨w3, factory_ok.2 ⟨dao, w2, hd, hfresh, hm, g1⟩⟩

/-- A chain before anything has happened. -/
def w0 : World := { c := { creating := none }, self := 100, tokens := [], bal := [] }

/-- C79 is met: voting module 20 of the DAO 30 has a token issued that gives 10 and 11 something, 10 twice, and the DAO
too. -/
theorem C79_example : ∃ w b log, sys.Reach w b log ∧ (∃ ev ∈ log, ∃ t, ev.call = .factory t) ∧
    w.tokens.get 7 = some ⟨30, 30, 1000, 60⟩ ∧ getD0 w.bal (7, 10) = 15 ∧ getD0 w.bal (7, 11) = 20 ∧
    getD0 w.bal (7, 30) = 25 ∧ getD0 w.bal (7, 100) = 0 := by
  obtain ⟨w, b, log, hr, hp⟩ := Sys.check_run (M := sys) (s := w0) (b := ⟨0, 0⟩)
    (cs := [({ block := ⟨1, 5⟩, sender := 20, dao := some 30, denom := 7 },
      .factory { max := 1000, initial := [(10, 5), (11, 20), (10, 10)], daoBalance := some 25 })])
    (p := fun w _ log => decide ((∃ ev ∈ log, ev.call = .factory { max := 1000, initial := [(10, 5), (11, 20), (10, 10)], daoBalance := some 25 }) ∧ w.tokens.get 7 = some ⟨30, 30, 1000, 60⟩ ∧
      getD0 w.bal (7, 10) = 15 ∧ getD0 w.bal (7, 11) = 20 ∧ getD0 w.bal (7, 30) = 25 ∧ getD0 w.bal (7, 100) = 0))
    (by decide +kernel)
  obtain ⟨⟨ev, h1, h2⟩, hp⟩ := of_decide_eq_true hp
  exact ⟨w, b, log, ⟨_, _, ⟨rfl, rfl, rfl⟩, hr⟩, ⟨ev, h1, _, h2⟩, hp⟩

/-- The interface says that the list of balances cannot be empty, but nothing checks it: a token is issued of which
nobody has anything. -/
theorem C79_empty_witness : ∃ w b log, sys.Reach w b log ∧ w.tokens.get 7 = some ⟨30, 30, 1000, 0⟩ ∧
    ∀ q, getD0 w.bal (7, q) = 0 := by
  obtain ⟨w, b, log, hr, hp⟩ := Sys.check_run (M := sys) (s := w0) (b := ⟨0, 0⟩)
    (cs := [({ block := ⟨1, 5⟩, sender := 20, dao := some 30, denom := 7 },
      .factory { max := 1000, initial := [], daoBalance := none })])
    (p := fun w _ _ => decide (w.tokens.get 7 = some ⟨30, 30, 1000, 0⟩ ∧ w.bal = [])) (by decide +kernel)
  have hp := of_decide_eq_true hp
  exact ⟨w, b, log, ⟨_, _, ⟨rfl, rfl, rfl⟩, hr⟩, hp.1, fun q => by rw [hp.2]; rfl⟩

end Verif.FanToken
