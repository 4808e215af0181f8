import Verif.Spec.OnftStaked
import Verif.Proofs.NftStaked
/-!
# Lemmas about dao-voting-onft-staked
-/

namespace Verif.OnftStaked
open Verif Verif.Active Verif.Spec.OnftStaked
open Verif.NftStaked (Holds queued giveBack count matured remaining afterUnstake SameNfts)

/-! ## Lists -/

theorem mem_insertTok {t x : Tok} {l : List Tok} : x ∈ insertTok t l ↔ x = t ∨ x ∈ l := by
  induction l with
  | nil => simp [insertTok]
  | cons y ys ih =>
    simp only [insertTok]
    split
    · simp
    · split
      · rename_i h; subst h; simp
      · simp only [List.mem_cons, ih]; exact or_left_comm

theorem mem_sortDedup {x : Tok} {l : List Tok} : x ∈ sortDedup l ↔ x ∈ l := by
  induction l with
  | nil => simp [sortDedup]
  | cons y ys ih => simp [sortDedup, mem_insertTok, ih]

theorem insertTok_sorted {t : Tok} {l : List Tok} (h : l.Pairwise (· < ·)) :
    (insertTok t l).Pairwise (· < ·) := by
  induction l with
  | nil => simp [insertTok]
  | cons y ys ih =>
    rw [List.pairwise_cons] at h
    simp only [insertTok]
    split
    · rename_i hlt
      rw [List.pairwise_cons, List.pairwise_cons]
      refine ⟨?_, h⟩
      intro z hz
      rcases List.mem_cons.1 hz with rfl | hz
      · exact hlt
      · exact Nat.lt_trans hlt (h.1 z hz)
    · split
      · rw [List.pairwise_cons]; exact h
      · rename_i h1 h2
        rw [List.pairwise_cons]
        refine ⟨?_, ih h.2⟩
        intro z hz
        rcases mem_insertTok.1 hz with rfl | hz
        · exact Nat.lt_of_le_of_ne (Nat.le_of_not_lt h1) (fun e => h2 e.symm)
        · exact h.1 z hz

theorem sortDedup_nodup (l : List Tok) : (sortDedup l).Nodup := by
  have : (sortDedup l).Pairwise (· < ·) := by
    induction l with
    | nil => exact .nil
    | cons t ts ih => exact insertTok_sorted ih
  exact this.imp (fun h => Nat.ne_of_lt h)

theorem queryOwners_ok {o : AMap Tok Addr} {ts : List Tok} {os : List Addr} (h : queryOwners o ts = .ok os) :
    os = ts.map (fun t => (o.get t).getD 0) ∧ ∀ t ∈ ts, (o.get t).isSome := by
  induction ts generalizing os with
  | nil => simp only [queryOwners, Except.ok.injEq] at h; subst h; simp
  | cons t ts ih =>
    simp only [queryOwners, bind_ok, orErr_ok, Except.ok.injEq] at h
    obtain ⟨x, hx, os', h', rfl⟩ := h
    obtain ⟨rfl, h2⟩ := ih h'
    refine ⟨by simp [hx], ?_⟩
    intro y hy
    rcases List.mem_cons.1 hy with rfl | hy
    · simp [hx]
    · exact h2 y hy

theorem queryOwners_exists {o : AMap Tok Addr} {ts : List Tok} (h : ∀ t ∈ ts, (o.get t).isSome) :
    queryOwners o ts = .ok (ts.map (fun t => (o.get t).getD 0)) := by
  induction ts with
  | nil => rfl
  | cons t ts ih =>
    obtain ⟨x, hx⟩ := Option.isSome_iff_exists.1 (h t (by simp))
    have := ih (fun y hy => h y (List.mem_cons_of_mem _ hy))
    simp only [queryOwners, bind_ok, orErr_ok, Except.ok.injEq, this]
    exact ⟨x, hx, _, rfl, by simp [hx]⟩

theorem get_prepareAll (p : AMap Tok Addr) (a : Addr) (ts : List Tok) (t : Tok) :
    (prepareAll p a ts).get t = if t ∈ ts then some a else p.get t := by
  induction ts generalizing p with
  | nil => simp [prepareAll]
  | cons x xs ih =>
    rw [prepareAll, ih, AMap.get_set]
    by_cases h : t ∈ xs
    · simp [h]
    · by_cases hx : x = t
      · subst hx; simp [h]
      · have : t ≠ x := fun e => hx e.symm
        simp [h, hx, this]

theorem get_unprepareAll (p : AMap Tok Addr) (ts : List Tok) (t : Tok) :
    (unprepareAll p ts).get t = if t ∈ ts then none else p.get t := by
  induction ts generalizing p with
  | nil => simp [unprepareAll]
  | cons x xs ih =>
    rw [unprepareAll, ih, AMap.get_erase]
    by_cases h : t ∈ xs
    · simp [h]
    · by_cases hx : x = t
      · subst hx; simp [h]
      · have : t ≠ x := fun e => hx e.symm
        simp [h, hx, this]

theorem get_stakeAll (m : AMap (Addr × Tok) Unit) (a : Addr) (ts : List Tok) (q : Addr × Tok) :
    (stakeAll m a ts).get q = if q.1 = a ∧ q.2 ∈ ts then some () else m.get q := by
  induction ts generalizing m with
  | nil => simp [stakeAll]
  | cons x xs ih =>
    rw [stakeAll, ih, AMap.get_set]
    obtain ⟨q1, q2⟩ := q
    simp only [Prod.mk.injEq, List.mem_cons]
    by_cases h : q1 = a ∧ q2 ∈ xs
    · simp [h]
    · by_cases hx : a = q1 ∧ x = q2
      · obtain ⟨rfl, rfl⟩ := hx; simp
      · have : ¬ (q1 = a ∧ (q2 = x ∨ q2 ∈ xs)) := by
          rintro ⟨rfl, rfl | h2⟩
          · exact hx ⟨rfl, rfl⟩
          · exact h ⟨rfl, h2⟩
        simp [h, hx, this]

theorem stakeAll_wf {m : AMap (Addr × Tok) Unit} (hm : m.WF) (a : Addr) (ts : List Tok) :
    (stakeAll m a ts).WF := by
  induction ts generalizing m with
  | nil => exact hm
  | cons x xs ih => exact ih (AMap.WF_set hm _ _)

theorem stakeAll_count {m : AMap (Addr × Tok) Unit} {a : Addr} {ts : List Tok} (hn : ts.Nodup)
    (h : ∀ t ∈ ts, m.get (a, t) = none) :
    (∀ q, count (stakeAll m a ts) q = count m q + if a = q then ts.length else 0) ∧
      (stakeAll m a ts).length = m.length + ts.length := by
  induction ts generalizing m with
  | nil => simp [stakeAll]
  | cons x xs ih =>
    rw [List.nodup_cons] at hn
    have h0 := h x (by simp)
    obtain ⟨h1, h2⟩ := ih (m := m.set (a, x) ()) hn.2 (by
      intro t ht
      rw [AMap.get_set, if_neg]
      · exact h t (List.mem_cons_of_mem _ ht)
      · rintro e; cases e; exact hn.1 ht)
    refine ⟨fun q => ?_, ?_⟩
    · rw [stakeAll, h1, NftStaked.count_set h0]
      by_cases hq : a = q
      · simp [hq]; omega
      · simp [hq]
    · rw [stakeAll, h2, AMap.length_set, h0]; simp; omega

theorem giveBack_fun {o o' : AMap Tok Addr} {self : Addr} {f : Tok → Addr} {ts : List Tok}
    (h : giveBack o self (ts.map (fun t => (f t, t))) = .ok o') :
    (∀ t ∈ ts, o.get t = some self) ∧ (∀ t, o'.get t = if t ∈ ts then some (f t) else o.get t) ∧
      o'.length = o.length ∧ (o.WF → AMap.WF o') := by
  induction ts generalizing o with
  | nil =>
    simp only [List.map_nil, giveBack, Except.ok.injEq] at h
    subst h; simp
  | cons x xs ih =>
    simp only [List.map_cons, giveBack, bind_ok, require_ok, decide_eq_true_eq] at h
    obtain ⟨_, h0, h⟩ := h
    obtain ⟨h1, h2, h3, h4⟩ := ih h
    refine ⟨?_, ?_, ?_, ?_⟩
    · intro t ht
      rcases List.mem_cons.1 ht with rfl | ht
      · exact h0
      · by_cases e : x = t
        · subst e; exact h0
        · have := h1 t ht
          rw [AMap.get_set, if_neg e] at this; exact this
    · intro t
      rw [h2, AMap.get_set]
      by_cases ht : t ∈ xs
      · simp [ht]
      · by_cases e : x = t
        · subst e; simp [ht]
        · have : t ≠ x := fun h => e h.symm
          simp [ht, e, this]
    · rw [h3, AMap.length_set, h0]; rfl
    · intro hw; exact h4 (AMap.WF_set hw _ _)

theorem giveBack_exists {o : AMap Tok Addr} {self : Addr} {f : Tok → Addr} {ts : List Tok} (hn : ts.Nodup)
    (h : ∀ t ∈ ts, o.get t = some self) : ∃ o', giveBack o self (ts.map (fun t => (f t, t))) = .ok o' := by
  induction ts generalizing o with
  | nil => exact ⟨o, rfl⟩
  | cons x xs ih =>
    rw [List.nodup_cons] at hn
    obtain ⟨o', ho⟩ := ih (o := o.set x (f x)) hn.2 (by
      intro t ht
      rw [AMap.get_set, if_neg]
      · exact h t (List.mem_cons_of_mem _ ht)
      · rintro rfl; exact hn.1 ht)
    refine ⟨o', ?_⟩
    simp only [List.map_cons, giveBack, bind_ok, require_ok, decide_eq_true_eq]
    exact ⟨(), h x (by simp), ho⟩

/-! ## Cancelling -/

/-- The tokens in `ts` that the contract owns. -/
def ours (o : AMap Tok Addr) (self : Addr) (ts : List Tok) : List Tok :=
  ts.filter (fun t => decide (o.get t = some self))

theorem mem_ours {o : AMap Tok Addr} {self : Addr} {ts : List Tok} {t : Tok} :
    t ∈ ours o self ts ↔ t ∈ ts ∧ o.get t = some self := by
  simp [ours, List.mem_filter]

theorem cancelByDao_ok {o p0 p p' : AMap Tok Addr} {self : Addr} {r : Option Addr} {ts : List Tok}
    {out : List (Addr × Tok)} (ho : ∀ t ∈ ts, (o.get t).isSome)
    (hp : ∀ t, p0.get t = none → p.get t = none)
    (h : cancelByDao self r (withPreparers p0 ts (ts.map (fun t => (o.get t).getD 0))) p = .ok (p', out)) :
    (∀ t, p'.get t = if t ∈ ts then none else p.get t) ∧
    out = (ours o self ts).map (fun t => ((r.or (p0.get t)).getD 0, t)) ∧
    (∀ t ∈ ours o self ts, (r.or (p0.get t)).isSome) := by
  induction ts generalizing p out with
  | nil =>
    simp only [withPreparers, cancelByDao, Except.ok.injEq, Prod.mk.injEq] at h
    obtain ⟨rfl, rfl⟩ := h
    simp [ours]
  | cons x xs ih =>
    obtain ⟨y, hy⟩ := Option.isSome_iff_exists.1 (ho x (by simp))
    have ho' : ∀ t ∈ xs, (o.get t).isSome := fun t ht => ho t (List.mem_cons_of_mem _ ht)
    simp only [List.map_cons, withPreparers, cancelByDao, hy, Option.getD_some] at h
    -- the preparations after this token
    have e1 : ∀ t, (if (p0.get x).isSome then p.erase x else p).get t = if x = t then none else p.get t := by
      intro t
      split
      · rw [AMap.get_erase]
      · rename_i hn
        split
        · rename_i e; subst e
          exact hp x (by simpa using hn)
        · rfl
    have hp' : ∀ t, p0.get t = none → (if (p0.get x).isSome then p.erase x else p).get t = none := by
      intro t ht
      rw [e1]; split
      · rfl
      · exact hp t ht
    have fin : ∀ t, (if t ∈ xs then none else if x = t then none else p.get t) =
        if t ∈ x :: xs then none else p.get t := by
      intro t
      by_cases h1 : t ∈ xs
      · simp [h1]
      · by_cases h2 : x = t
        · subst h2; simp
        · have : t ≠ x := fun h => h2 h.symm
          simp [h1, h2, this]
    split at h
    · rename_i hs
      simp only [bind_ok, orErr_ok, Except.ok.injEq, Prod.mk.injEq] at h
      obtain ⟨z, hz, ⟨p2, out2⟩, h2, rfl, rfl⟩ := h
      obtain ⟨i1, i2, i3⟩ := ih ho' hp' h2
      have hours : ours o self (x :: xs) = x :: ours o self xs := by
        simp only [ours, List.filter_cons, hy, hs, decide_true, if_true]
      refine ⟨?_, ?_, ?_⟩
      · intro t; rw [i1, e1]; exact fin t
      · rw [hours, List.map_cons, hz, ← i2]; rfl
      · intro t ht
        rw [hours] at ht
        rcases List.mem_cons.1 ht with rfl | ht
        · rw [hz]; rfl
        · exact i3 t ht
    · rename_i hs
      obtain ⟨i1, i2, i3⟩ := ih ho' hp' h
      have hours : ours o self (x :: xs) = ours o self xs := by
        have : ¬ (some y = some self) := fun e => hs (Option.some.inj e)
        simp only [ours, List.filter_cons, hy, this, decide_false]; rfl
      rw [hours]
      refine ⟨?_, i2, i3⟩
      intro t; rw [i1, e1]; exact fin t

theorem cancelByUser_ok {o p0 p p' : AMap Tok Addr} {self a : Addr} {ts : List Tok}
    {out : List (Addr × Tok)} (ha : a ≠ self) (ho : ∀ t ∈ ts, (o.get t).isSome)
    (h : cancelByUser self a (withPreparers p0 ts (ts.map (fun t => (o.get t).getD 0))) p = .ok (p', out)) :
    (∀ t, p'.get t = if t ∈ ts then none else p.get t) ∧
    out = (ours o self ts).map (fun t => (a, t)) ∧
    (∀ t ∈ ts, o.get t = some a ∨ p0.get t = some a) := by
  induction ts generalizing p out with
  | nil =>
    simp only [withPreparers, cancelByUser, Except.ok.injEq, Prod.mk.injEq] at h
    obtain ⟨rfl, rfl⟩ := h
    simp [ours]
  | cons x xs ih =>
    obtain ⟨y, hy⟩ := Option.isSome_iff_exists.1 (ho x (by simp))
    have ho' : ∀ t ∈ xs, (o.get t).isSome := fun t ht => ho t (List.mem_cons_of_mem _ ht)
    simp only [List.map_cons, withPreparers, cancelByUser, hy, Option.getD_some, bind_ok, require_ok,
      decide_eq_true_eq] at h
    obtain ⟨_, hor, h⟩ := h
    have hor' : o.get x = some a ∨ p0.get x = some a := by
      rcases hor with rfl | h
      · exact Or.inl hy
      · exact Or.inr h
    have fin : ∀ t, (if t ∈ xs then none else (p.erase x).get t) =
        if t ∈ x :: xs then none else p.get t := by
      intro t
      rw [AMap.get_erase]
      by_cases h1 : t ∈ xs
      · simp [h1]
      · by_cases h2 : x = t
        · subst h2; simp
        · have : t ≠ x := fun h => h2 h.symm
          simp [h1, h2, this]
    split at h
    · rename_i hs
      simp only [bind_ok, orErr_ok, Except.ok.injEq, Prod.mk.injEq] at h
      obtain ⟨z, hz, ⟨p2, out2⟩, h2, rfl, rfl⟩ := h
      obtain ⟨i1, i2, i3⟩ := ih ho' h2
      have hza : z = a := by
        rcases hor with e | e
        · exact absurd (e.trans hs) ha
        · rw [hz] at e; exact Option.some.inj e
      subst hza
      have hours : ours o self (x :: xs) = x :: ours o self xs := by
        simp only [ours, List.filter_cons, hy, hs, decide_true, if_true]
      refine ⟨?_, ?_, ?_⟩
      · intro t; rw [i1]; exact fin t
      · rw [hours, List.map_cons, ← i2]
      · intro t ht
        rcases List.mem_cons.1 ht with rfl | ht
        · exact hor'
        · exact i3 t ht
    · rename_i hs
      obtain ⟨i1, i2, i3⟩ := ih ho' h
      have hours : ours o self (x :: xs) = ours o self xs := by
        have : ¬ (some y = some self) := fun e => hs (Option.some.inj e)
        simp only [ours, List.filter_cons, hy, this, decide_false]; rfl
      rw [hours]
      refine ⟨?_, i2, ?_⟩
      · intro t; rw [i1]; exact fin t
      · intro t ht
        rcases List.mem_cons.1 ht with rfl | ht
        · exact hor'
        · exact i3 t ht

/-! ## Effects -/

/-- The records after a confirmed stake. -/
def afterConfirm (s : NftStaked.State) (b : Block) (a : Addr) (ids : List Tok) : NftStaked.State :=
  { s with staked := stakeAll s.staked a ids
           balances := s.balances.save a (s.balanceOf a + ids.length) b.height
           totalStaked := s.totalStaked.save () (s.total + ids.length) b.height }

/-- The successful transactions, with their effects. -/
inductive Effect (w : World) (b : Block) : Call → World → Out → Prop where
  | prepare (a : Addr) (ts : List Tok) (ha : a ≠ w.n.self) (ho : ∀ t ∈ ts, w.n.owners.get t = some a) :
      Effect w b (.exec a (.prepareStake ts)) { w with prepared := prepareAll w.prepared a ts } {}
  | confirm (a : Addr) (ts : List Tok) (ha : a ≠ w.n.self)
      (hp : ∀ t ∈ ts, w.prepared.get t = some a ∧ w.n.owners.get t = some w.n.self)
      (hs : w.n.c.balanceOf a + (sortDedup ts).length < U128 ∧ w.n.c.total + (sortDedup ts).length < U128) :
      Effect w b (.exec a (.confirmStake ts))
        { n := { w.n with c := afterConfirm w.n.c b a (sortDedup ts) }
          prepared := unprepareAll w.prepared (sortDedup ts) }
        { hooks := ((sortDedup ts).map (fun t => NftStaked.hookMsgs w.n.c.hooks true a [t])).flatten }
  | cancel (a : Addr) (ts : List Tok) (r : Option Addr) (f : Tok → Addr) (p o : AMap Tok Addr)
      (ha : a ≠ w.n.self) (hp : ∀ t, p.get t = if t ∈ ts then none else w.prepared.get t)
      (hex : ∀ t ∈ ts, (w.n.owners.get t).isSome)
      (ho : giveBack w.n.owners w.n.self ((ours w.n.owners w.n.self ts).map (fun t => (f t, t))) = .ok o)
      (hf : (a = w.n.c.dao ∧ ∀ t ∈ ours w.n.owners w.n.self ts, some (f t) = r.or (w.prepared.get t)) ∨
        (a ≠ w.n.c.dao ∧ (∀ t, f t = a) ∧ ∀ t ∈ ts, w.n.owners.get t = some a ∨ w.prepared.get t = some a)) :
      Effect w b (.exec a (.cancelStake ts r)) { n := { w.n with owners := o }, prepared := p }
        { send := (ours w.n.owners w.n.self ts).map (fun t => (f t, t)) }
  | shared (a : Addr) (m : Msg) (m' : NftStaked.Msg) (n : NftStaked.World) (out : Out)
      (hm : m.shared = some m') (ha : a ≠ w.n.self) (he : NftStaked.Effect w.n b (.exec a m') n out)
      (hx : NftStaked.exec w.n.c b w.n.owners.length a m' = .ok (n.c, out)) :
      Effect w b (.exec a m) { w with n := n } out
  | transfer (a d : Addr) (t : Tok) (ho : w.n.owners.get t = some a) (ha : a ≠ w.n.self) :
      Effect w b (.transfer a d t) { w with n := { w.n with owners := w.n.owners.set t d } } {}
  | mint (d : Addr) (t : Tok) (ho : w.n.owners.get t = none) (hl : w.n.owners.length + 1 < U64) :
      Effect w b (.mint d t) { w with n := { w.n with owners := w.n.owners.set t d } } {}
  | burn (a : Addr) (t : Tok) (ho : w.n.owners.get t = some a) (ha : a ≠ w.n.self) :
      Effect w b (.burn a t) { w with n := { w.n with owners := w.n.owners.erase t } } {}

theorem all_owner {o : AMap Tok Addr} {ts : List Tok} {a : Addr} (h0 : ∀ t ∈ ts, (o.get t).isSome)
    (h : (ts.map (fun t => (o.get t).getD 0)).all (fun x => decide (x = a)) = true) :
    ∀ t ∈ ts, o.get t = some a := by
  intro t ht
  rw [List.all_eq_true] at h
  have := h _ (List.mem_map.2 ⟨t, ht, rfl⟩)
  obtain ⟨x, hx⟩ := Option.isSome_iff_exists.1 (h0 t ht)
  rw [hx] at this ⊢
  simp only [Option.getD_some, decide_eq_true_eq] at this
  rw [this]

theorem shared_effect {w w' : World} {b : Block} {a : Addr} {m : NftStaked.Msg} {r : World × Out}
    {o : AMap Tok Addr} {out : Out} (hm : ∀ x t, m ≠ .receiveNft x t) (ha : a ≠ w.n.self)
    (hx : execShared w b a m = .ok r) (hg : giveBack w.n.owners w.n.self r.2.send = .ok o)
    (he : { r.1 with n := { r.1.n with owners := o } } = w' ∧ r.2 = out) :
    ∃ n, w' = { w with n := n } ∧ NftStaked.Effect w.n b (.exec a m) n out ∧
      NftStaked.exec w.n.c b w.n.owners.length a m = .ok (n.c, out) := by
  simp only [execShared, bind_ok, Except.ok.injEq] at hx
  obtain ⟨⟨c, o'⟩, hc, rfl⟩ := hx
  obtain ⟨rfl, rfl⟩ := he
  exact ⟨_, rfl, NftStaked.exec_effect hm ha hc hg, hc⟩

theorem step_effect {w w' : World} {b : Block} {call : Call} {out : Out}
    (h : step w b call = .ok (w', out)) : Effect w b call w' out := by
  cases call with
  | exec a m =>
    simp only [step, bind_ok, require_ok, decide_eq_true_eq, Except.ok.injEq, Prod.mk.injEq] at h
    obtain ⟨_, ha, r, hx, o, hg, he⟩ := h
    cases m with
    | prepareStake ts =>
      simp only [exec, execPrepare, bind_ok, require_ok, Except.ok.injEq] at hx
      obtain ⟨_, ⟨os, hos, _, hall, rfl⟩, rfl⟩ := hx
      obtain ⟨rfl, h0⟩ := queryOwners_ok hos
      simp only [giveBack, Except.ok.injEq] at hg
      subst hg
      obtain ⟨rfl, rfl⟩ := he
      exact .prepare a ts ha (all_owner h0 hall)
    | confirmStake ts =>
      simp only [exec, execConfirm, registerStaked, bind_ok, require_ok, add128_ok, Except.ok.injEq,
        Bool.and_eq_true] at hx
      obtain ⟨os, hos, _, ⟨hpr, hall⟩, _, ⟨_, ⟨h1, rfl⟩, _, ⟨h2, rfl⟩, rfl⟩, rfl⟩ := hx
      obtain ⟨rfl, h0⟩ := queryOwners_ok hos
      simp only [giveBack, Except.ok.injEq] at hg
      subst hg
      obtain ⟨rfl, rfl⟩ := he
      refine .confirm a ts ha ?_ ⟨h1, h2⟩
      intro t ht
      have ht' := mem_sortDedup.2 ht
      rw [List.all_eq_true] at hpr
      exact ⟨of_decide_eq_true (hpr t ht'), all_owner h0 hall t ht'⟩
    | cancelStake ts rc =>
      simp only [exec, execCancel, bind_ok] at hx
      obtain ⟨os, hos, hx⟩ := hx
      obtain ⟨rfl, h0⟩ := queryOwners_ok hos
      obtain ⟨rfl, rfl⟩ := he
      split at hx
      · rename_i hdao
        simp only [bind_ok, Except.ok.injEq] at hx
        obtain ⟨⟨p, sends⟩, hx, rfl⟩ := hx
        obtain ⟨i1, rfl, i3⟩ := cancelByDao_ok h0 (fun t ht => ht) hx
        refine .cancel a ts rc (fun t => (rc.or (w.prepared.get t)).getD 0) p o ha i1 h0 hg (Or.inl ⟨hdao, ?_⟩)
        intro t ht
        obtain ⟨y, hy⟩ := Option.isSome_iff_exists.1 (i3 t ht)
        simp only [hy, Option.getD_some]
      · rename_i hdao
        simp only [bind_ok, Except.ok.injEq] at hx
        obtain ⟨⟨p, sends⟩, hx, rfl⟩ := hx
        obtain ⟨i1, rfl, i3⟩ := cancelByUser_ok ha h0 hx
        exact .cancel a ts rc (fun _ => a) p o ha i1 h0 hg (Or.inr ⟨hdao, fun _ => rfl, i3⟩)
    | unstake ts =>
      obtain ⟨n, rfl, hn, hx'⟩ := shared_effect (by simp) ha hx hg he
      exact .shared a _ _ n out rfl ha hn hx'
    | claimNfts =>
      obtain ⟨n, rfl, hn, hx'⟩ := shared_effect (by simp) ha hx hg he
      exact .shared a _ _ n out rfl ha hn hx'
    | updateConfig d =>
      obtain ⟨n, rfl, hn, hx'⟩ := shared_effect (by simp) ha hx hg he
      exact .shared a _ _ n out rfl ha hn hx'
    | addHook d =>
      obtain ⟨n, rfl, hn, hx'⟩ := shared_effect (by simp) ha hx hg he
      exact .shared a _ _ n out rfl ha hn hx'
    | removeHook d =>
      obtain ⟨n, rfl, hn, hx'⟩ := shared_effect (by simp) ha hx hg he
      exact .shared a _ _ n out rfl ha hn hx'
    | updateActiveThreshold d =>
      obtain ⟨n, rfl, hn, hx'⟩ := shared_effect (by simp) ha hx hg he
      exact .shared a _ _ n out rfl ha hn hx'
  | transfer a d t =>
    simp only [step, bind_ok, require_ok, decide_eq_true_eq, Except.ok.injEq, Prod.mk.injEq] at h
    obtain ⟨_, ⟨ho, hos⟩, rfl, rfl⟩ := h
    exact .transfer a d t ho hos
  | mint d t =>
    simp only [step, bind_ok, require_ok, decide_eq_true_eq, Except.ok.injEq, Prod.mk.injEq] at h
    obtain ⟨_, ⟨ho, hl⟩, rfl, rfl⟩ := h
    exact .mint d t ho hl
  | burn a t =>
    simp only [step, bind_ok, require_ok, decide_eq_true_eq, Except.ok.injEq, Prod.mk.injEq] at h
    obtain ⟨_, ⟨ho, hos⟩, rfl, rfl⟩ := h
    exact .burn a t ho hos

theorem init_shape {b : Block} {w : World} (h : sys.init b w) :
    w.prepared = [] ∧ w.n.c.staked = [] ∧ w.n.c.balances = Snap.empty ∧
      w.n.c.totalStaked = Snap.empty.save () 0 b.height ∧ w.n.c.claims = [] ∧ w.n.owners.WF ∧
      w.n.owners.length < U64 := by
  obtain ⟨hp, hw, hl, dao, coll, d, t, hi⟩ := h
  exact ⟨hp, NftStaked.init_shape (w := w.n) ⟨dao, coll, _, d, t, hi, Or.inl rfl, hw, hl⟩⟩

theorem init_inv {b : Block} {w : World} (h : sys.init b w) : NftStaked.Inv w.n := by
  obtain ⟨hp, hw, hl, dao, coll, d, t, hi⟩ := h
  exact NftStaked.inv_reach (b := b) (log := [])
    ⟨b, w.n, ⟨dao, coll, _, d, t, hi, Or.inl rfl, hw, hl⟩, .refl⟩

/-- The balances and the total are written only at the current height. -/
theorem snapshotted :
    sys.Snapshotted (fun w => w.n.c.balances) ∧ sys.Snapshotted (fun w => w.n.c.totalStaked) := by
  refine ⟨⟨?_, ?_⟩, ⟨?_, ?_⟩⟩
  · intro b s h; rw [(init_shape h).2.2.1]; exact Snap.upTo_empty _
  · intro s env call s' out h
    cases step_effect h with
    | confirm => exact Snap.Writes.one _ _ _ _
    | shared a m m' n out hm ha he hx =>
      cases he with
      | payout => exact Snap.Writes.one _ _ _ _
      | unbond => exact Snap.Writes.one _ _ _ _
      | admin m c hsm hm => exact Snap.Writes.of_eq hsm.balances
      | claim => exact .refl
    | prepare => exact .refl
    | cancel => exact .refl
    | transfer => exact .refl
    | mint => exact .refl
    | burn => exact .refl
  · intro b s h; rw [(init_shape h).2.2.2.1]; exact Snap.upTo_save (Snap.upTo_empty b.height) (Nat.le_refl _)
  · intro s env call s' out h
    cases step_effect h with
    | confirm => exact Snap.Writes.one _ _ _ _
    | shared a m m' n out hm ha he hx =>
      cases he with
      | payout => exact Snap.Writes.one _ _ _ _
      | unbond => exact Snap.Writes.one _ _ _ _
      | admin m c hsm hm => exact Snap.Writes.of_eq hsm.total
      | claim => exact .refl
    | prepare => exact .refl
    | cancel => exact .refl
    | transfer => exact .refl
    | mint => exact .refl
    | burn => exact .refl

/-! ## What holds in every history -/

/-- The facts every reachable state has. -/
structure Basic (w : World) : Prop where
  wf : w.n.c.staked.WF
  wfb : w.n.c.balances.cur.WF
  wfo : w.n.owners.WF
  sum : w.n.c.total = Verif.total w.n.c.balances.cur
  small : w.n.owners.length < U64
  le : ∀ a, count w.n.c.staked a ≤ w.n.c.balanceOf a
  tot : w.n.c.totalStaked.get () ≠ none

theorem count_set_le (m : AMap (Addr × Tok) Unit) (a : Addr) (t : Tok) (q : Addr) :
    count (m.set (a, t) ()) q ≤ count m q + if a = q then 1 else 0 := by
  have e := AMap.sum_set (fun (k : Addr × Tok) (_ : Unit) => if k.1 = q then 1 else 0) m (a, t) ()
  simp only at e
  unfold count; omega

theorem stakeAll_count_le (m : AMap (Addr × Tok) Unit) (a : Addr) (ts : List Tok) (q : Addr) :
    count (stakeAll m a ts) q ≤ count m q + if a = q then ts.length else 0 := by
  induction ts generalizing m with
  | nil => simp [stakeAll]
  | cons x xs ih =>
    rw [stakeAll]
    have h1 := ih (m.set (a, x) ())
    have h2 := count_set_le m a x q
    by_cases hq : a = q
    · simp only [hq, if_true, List.length_cons] at *; omega
    · simp only [hq, if_false] at *; omega

theorem basic_effect {w w' : World} {b : Block} {call : Call} {out : Out} (hi : Basic w)
    (hs : Effect w b call w' out) : Basic w' ∧ w'.n.self = w.n.self := by
  cases hs with
  | prepare => exact ⟨⟨hi.wf, hi.wfb, hi.wfo, hi.sum, hi.small, hi.le, hi.tot⟩, rfl⟩
  | confirm a ts ha hp hsm =>
    refine ⟨⟨stakeAll_wf hi.wf _ _, AMap.WF_set hi.wfb _ _, hi.wfo, (NftStaked.total_save _ _ _).trans ?_,
      hi.small, ?_, NftStaked.tot_save _ _ _⟩, rfl⟩
    · have e := NftStaked.sum_set (x := w.n.c.balanceOf a + (sortDedup ts).length) hi.sum a
      show _ = Verif.total (w.n.c.balances.cur.set a (w.n.c.balanceOf a + (sortDedup ts).length))
      omega
    · intro q
      refine Nat.le_trans (stakeAll_count_le _ _ _ q) ?_
      refine Nat.le_trans ?_ (Nat.le_of_eq (NftStaked.bal_save w.n.c a q _ _).symm)
      have := hi.le q
      by_cases hq : a = q
      · subst hq; simp only [if_true]; omega
      · simp only [hq, if_false]; omega
  | cancel a ts r f p o ha hp hex ho hf =>
    obtain ⟨g1, g2, g3, g4⟩ := giveBack_fun ho
    exact ⟨⟨hi.wf, hi.wfb, g4 hi.wfo, hi.sum, by show o.length < U64; rw [g3]; exact hi.small, hi.le, hi.tot⟩, rfl⟩
  | shared a m m' n out hm ha he hx =>
    cases he with
    | payout _ ts mm o _ ha' hts hrm hd ht hba ho hh hsend =>
      have hr := NftStaked.removeAll_inv hi.wf hrm
      obtain ⟨g1, g2, g3, g4⟩ := NftStaked.giveBack_inv ha ho
      refine ⟨⟨hr.wf, AMap.WF_set hi.wfb _ _, g4 hi.wfo, (NftStaked.total_save _ _ _).trans ?_,
        by show o.length < U64; rw [g3]; exact hi.small, ?_, NftStaked.tot_save _ _ _⟩, rfl⟩
      · have e := NftStaked.sum_set (x := w.n.c.balanceOf a - ts.length) hi.sum a
        show _ = Verif.total (w.n.c.balances.cur.set a (w.n.c.balanceOf a - ts.length))
        omega
      · intro q
        refine Nat.le_trans ?_ (Nat.le_of_eq (NftStaked.bal_save w.n.c a q _ _).symm)
        show count mm q ≤ _
        have e := hr.count q
        have := hi.le q
        by_cases hq : a = q
        · subst hq; simp only [if_true] at e ⊢; omega
        · simp only [hq, if_false] at e ⊢; omega
    | unbond _ ts mm d _ ha' hts hrm hd hlen ht hba hh hsend =>
      have hr := NftStaked.removeAll_inv hi.wf hrm
      refine ⟨⟨hr.wf, AMap.WF_set hi.wfb _ _, hi.wfo, (NftStaked.total_save _ _ _).trans ?_,
        hi.small, ?_, NftStaked.tot_save _ _ _⟩, rfl⟩
      · have e := NftStaked.sum_set (x := w.n.c.balanceOf a - ts.length) hi.sum a
        show _ = Verif.total (w.n.c.balances.cur.set a (w.n.c.balanceOf a - ts.length))
        omega
      · intro q
        refine Nat.le_trans ?_ (Nat.le_of_eq (NftStaked.bal_save w.n.c a q _ _).symm)
        show count mm q ≤ _
        have e := hr.count q
        have := hi.le q
        by_cases hq : a = q
        · subst hq; simp only [if_true] at e ⊢; omega
        · simp only [hq, if_false] at e ⊢; omega
    | claim _ o ha hm ho =>
      obtain ⟨g1, g2, g3, g4⟩ := NftStaked.giveBack_inv ha ho
      exact ⟨⟨hi.wf, hi.wfb, g4 hi.wfo, hi.sum, by show o.length < U64; rw [g3]; exact hi.small, hi.le, hi.tot⟩,
        rfl⟩
    | admin _ c hsm hm =>
      refine ⟨⟨?_, ?_, hi.wfo, ?_, hi.small, ?_, ?_⟩, rfl⟩
      · simp only [hsm.staked]; exact hi.wf
      · simp only [hsm.balances]; exact hi.wfb
      · simp only [NftStaked.State.total, hsm.total, hsm.balances]; exact hi.sum
      · intro q; simp only [NftStaked.State.balanceOf, hsm.balances, hsm.staked]; exact hi.le q
      · simp only [hsm.total]; exact hi.tot
  | transfer a d t ho ha =>
    refine ⟨⟨hi.wf, hi.wfb, AMap.WF_set hi.wfo _ _, hi.sum, ?_, hi.le, hi.tot⟩, rfl⟩
    show (w.n.owners.set t d).length < U64
    rw [AMap.length_set, ho]; exact hi.small
  | mint d t ho hl =>
    refine ⟨⟨hi.wf, hi.wfb, AMap.WF_set hi.wfo _ _, hi.sum, ?_, hi.le, hi.tot⟩, rfl⟩
    show (w.n.owners.set t d).length < U64
    rw [AMap.length_set, ho]; exact hl
  | burn a t ho ha =>
    refine ⟨⟨hi.wf, hi.wfb, AMap.WF_erase hi.wfo _, hi.sum, ?_, hi.le, hi.tot⟩, rfl⟩
    show (w.n.owners.erase t).length < U64
    have := AMap.length_erase hi.wfo t
    have := hi.small
    omega

theorem basic_reach {w : World} {b : Block} {log : List Event} (h : sys.Reach w b log) : Basic w := by
  refine Sys.Reach.induct (M := sys) (P := fun w _ _ => Basic w) (fun b s hi => ?_) ?_ h
  · have hv := init_inv hi
    exact ⟨hv.wf, hv.wfb, hv.wfo, hv.sum, hv.small, fun a => Nat.le_of_eq (hv.bal a).symm, hv.tot⟩
  · intro s b l env call out s' _ hi hb hs
    exact (basic_effect hi (step_effect hs)).1

/-- Who prepared a token is what the log says. -/
theorem prepared_reach {w : World} {b : Block} {log : List Event} (h : sys.Reach w b log) (t : Tok) :
    w.prepared.get t = preparedBy t log ∧ preparedBy t log ≠ some w.n.self := by
  refine Sys.Reach.induct (M := sys)
    (P := fun w _ log => w.prepared.get t = preparedBy t log ∧ preparedBy t log ≠ some w.n.self)
    (fun b s hi => ?_) ?_ h
  · rw [(init_shape hi).1]; exact ⟨rfl, by simp [preparedBy]⟩
  · intro s b l env call out s' hr hi hb hs
    obtain ⟨h1, h2⟩ := hi
    have hself := (basic_effect (basic_reach hr) (step_effect hs)).2
    rw [hself]
    cases step_effect hs with
    | prepare a ts ha ho =>
      simp only [preparedBy, get_prepareAll]
      split
      · refine ⟨rfl, ?_⟩
        intro e; exact ha (Option.some.inj e)
      · exact ⟨h1, h2⟩
    | confirm a ts ha hp hsm =>
      simp only [preparedBy, get_unprepareAll, mem_sortDedup]
      split
      · exact ⟨rfl, by simp⟩
      · exact ⟨h1, h2⟩
    | cancel a ts r f p o ha hp hex ho hf =>
      simp only [preparedBy, hp]
      split
      · exact ⟨rfl, by simp⟩
      · exact ⟨h1, h2⟩
    | shared a m m' n out hm ha he hx =>
      have e : preparedBy t (⟨s, env, .exec a m, out, { s with n := n }⟩ :: l) = preparedBy t l := by
        cases m <;> first | rfl | (simp only [Msg.shared] at hm; cases hm)
      rw [e]; exact ⟨h1, h2⟩
    | transfer => exact ⟨h1, h2⟩
    | mint => exact ⟨h1, h2⟩
    | burn => exact ⟨h1, h2⟩

/-! ## While the DAO spares what is kept -/

theorem mem_staked {s : NftStaked.State} {a : Addr} {t : Tok} :
    t ∈ s.stakedNfts a ↔ s.staked.get (a, t) = some () := by
  unfold NftStaked.State.stakedNfts
  rw [List.mem_map]
  constructor
  · rintro ⟨⟨⟨x, y⟩, u⟩, he, rfl⟩
    rw [List.mem_filter] at he
    have hx := of_decide_eq_true he.2
    simp only at hx
    subst hx
    have := (AMap.mem_keys_iff s.staked (x, y)).1 (List.mem_map.2 ⟨_, he.1, rfl⟩)
    cases hg : s.staked.get (x, y) with
    | none => rw [hg] at this; cases this
    | some u => rfl
  · intro h
    exact ⟨((a, t), ()), List.mem_filter.2 ⟨AMap.mem_of_get h, by simp⟩, rfl⟩

theorem keptFor_iff {w : World} {a : Addr} {t : Tok} : KeptFor w a t ↔ Holds w.n.c a t := by
  unfold KeptFor stakedNfts Holds queued waiting
  rw [mem_staked]

/-- The facts every state has that is reached while the DAO spares what is kept. -/
structure Good (w : World) : Prop where
  inv : NftStaked.Inv w.n
  free : ∀ a t, Holds w.n.c a t → w.prepared.get t = none

theorem holds_confirm (c : NftStaked.State) (b : Block) (a : Addr) (ids : List Tok) (q : Addr) (x : Tok) :
    Holds (afterConfirm c b a ids) q x ↔ Holds c q x ∨ (q = a ∧ x ∈ ids) := by
  unfold Holds queued afterConfirm
  simp only [get_stakeAll]
  by_cases h : q = a ∧ x ∈ ids
  · simp [h]
  · simp [h]

theorem good_effect {w w' : World} {b : Block} {call : Call} {out : Out} (hg : Good w)
    (hs : Effect w b call w' out) (hsp : Spares ⟨w, b, call, out, w'⟩) : Good w' := by
  have hi := hg.inv
  cases hs with
  | prepare a ts ha ho =>
    refine ⟨hi, ?_⟩
    intro q t hq
    simp only [get_prepareAll]
    rw [if_neg]
    · exact hg.free q t hq
    · intro ht
      have := hi.own q t hq
      rw [ho t ht] at this; exact ha (Option.some.inj this)
  | confirm a ts ha hp hsm =>
    have hp' : ∀ t ∈ sortDedup ts, w.prepared.get t = some a ∧ w.n.owners.get t = some w.n.self :=
      fun t ht => hp t (mem_sortDedup.1 ht)
    have hfree : ∀ q, ∀ t ∈ sortDedup ts, ¬ Holds w.n.c q t := by
      intro q t ht hq
      have := hg.free q t hq
      rw [(hp' t ht).1] at this; cases this
    have hnone : ∀ q, ∀ t ∈ sortDedup ts, w.n.c.staked.get (q, t) = none := by
      intro q t ht
      cases hgt : w.n.c.staked.get (q, t) with
      | none => rfl
      | some u => exact absurd (Or.inl hgt) (hfree q t ht)
    obtain ⟨hc, hl⟩ := stakeAll_count (sortDedup_nodup ts) (hnone a)
    refine ⟨⟨?_, ?_, ?_, hi.nodup, stakeAll_wf hi.wf _ _, AMap.WF_set hi.wfb _ _, hi.wfo,
      ?_, (NftStaked.total_save _ _ _).trans ?_, (NftStaked.total_save _ _ _).trans ?_,
      NftStaked.tot_save _ _ _, hi.small⟩, ?_⟩
    · intro q x hq
      rcases (holds_confirm ..).1 hq with h | h
      · exact hi.own q x h
      · exact (hp' x h.2).2
    · intro q q' x hq hq'
      rcases (holds_confirm ..).1 hq with h | h <;> rcases (holds_confirm ..).1 hq' with h' | h'
      · exact hi.uniq _ _ _ h h'
      · exact absurd h (hfree q x h'.2)
      · exact absurd h' (hfree q' x h.2)
      · rw [h.1, h'.1]
    · intro q x hq hx
      simp only [afterConfirm, get_stakeAll] at hq
      split at hq
      · rename_i he
        exact hfree q x he.2 (Or.inr hx)
      · exact hi.disj q x hq hx
    · intro q
      refine (NftStaked.bal_save w.n.c a q _ _).trans ?_
      show _ = count (stakeAll w.n.c.staked a (sortDedup ts)) q
      rw [hc]
      by_cases hq : a = q
      · subst hq; simp [hi.bal]
      · simp [hq, hi.bal]
    · have e := NftStaked.sum_set (x := w.n.c.balanceOf a + (sortDedup ts).length) hi.sum a
      show _ = Verif.total (w.n.c.balances.cur.set a (w.n.c.balanceOf a + (sortDedup ts).length))
      omega
    · show _ = (stakeAll w.n.c.staked a (sortDedup ts)).length
      rw [hl, hi.len]
    · intro q t hq
      simp only [get_unprepareAll]
      split
      · rfl
      · rcases (holds_confirm ..).1 hq with h | h
        · exact hg.free q t h
        · rename_i hn; exact absurd h.2 hn
  | cancel a ts r f p o ha hp hex ho hf =>
    obtain ⟨g1, g2, g3, g4⟩ := giveBack_fun ho
    refine ⟨⟨?_, hi.uniq, hi.disj, hi.nodup, hi.wf, hi.wfb, g4 hi.wfo, hi.bal, hi.sum, hi.len, hi.tot, ?_⟩, ?_⟩
    · intro q t hq
      have hown := hi.own q t hq
      show AMap.get o t = some w.n.self
      rw [g2, if_neg]
      · exact hown
      · intro hin
        obtain ⟨ht, _⟩ := mem_ours.1 hin
        rcases hf with ⟨rfl, _⟩ | ⟨_, _, h3⟩
        · exact hsp ts r rfl t ht q (keptFor_iff.2 hq)
        · rcases h3 t ht with h | h
          · rw [hown] at h; exact ha (Option.some.inj h).symm
          · rw [hg.free q t hq] at h; cases h
    · show o.length < U64
      rw [g3]; exact hi.small
    · intro q t hq
      simp only [hp]
      split
      · rfl
      · exact hg.free q t hq
  | shared a m m' n out hm ha he hx =>
    refine ⟨(NftStaked.inv_effect hi he).1, ?_⟩
    intro q t hq
    refine hg.free q t ?_
    cases he with
    | payout _ ts mm o _ ha' hts hrm hd ht hba ho hh hsend =>
      exact ((NftStaked.holds_unstake (NftStaked.removeAll_inv hi.wf hrm) (fun t => hi.disj a t) q t).1 hq).1
    | unbond _ ts mm d _ ha' hts hrm hd hlen ht hba hh hsend =>
      exact (NftStaked.holds_unbond (NftStaked.removeAll_inv hi.wf hrm) q t).1 hq
    | claim _ o ha hm ho => exact ((NftStaked.holds_claim hi q t).1 hq).1
    | admin _ c hsm hm => exact (NftStaked.holds_admin hsm q t).1 hq
  | transfer a d t ho ha =>
    exact ⟨(NftStaked.inv_effect hi (.transfer (b := b) a d t a ho ha)).1, hg.free⟩
  | mint d t ho hl =>
    exact ⟨(NftStaked.inv_effect hi (.mint (b := b) d t ho hl)).1, hg.free⟩
  | burn a t ho ha =>
    exact ⟨(NftStaked.inv_effect hi (.burn (b := b) a t a ho ha)).1, hg.free⟩

theorem good_reach {w : World} {b : Block} {log : List Event} (h : sys.Reach w b log)
    (hsp : ∀ e ∈ log, Spares e) : Good w := by
  refine Sys.Reach.induct (M := sys) (P := fun w _ log => (∀ e ∈ log, Spares e) → Good w)
    (fun b s hi _ => ?_) ?_ h hsp
  · refine ⟨init_inv hi, ?_⟩
    intro a t _; rw [(init_shape hi).1]; rfl
  · intro s b l env call out s' _ ih hb hs hl
    exact good_effect (ih (fun e he => hl e (List.mem_cons_of_mem _ he))) (step_effect hs)
      (hl _ (by simp))

end Verif.OnftStaked
