import Verif.Model.Cw4Voting
import Mathlib.Data.List.Nodup
/-!
# Lemmas about dao-voting-cw4 and cw4-group
-/

namespace Verif.Cw4Voting
open Verif

theorem insert_perm (m : Member) (l : List Member) : (insertMember m l).Perm (m :: l) := by
  induction l with
  | nil => exact .refl _
  | cons x xs ih =>
    simp only [insertMember]
    split
    · exact .refl _
    · exact (ih.cons x).trans (.swap _ _ _)

theorem sort_perm (l : List Member) : (sortMembers l).Perm l := by
  induction l with
  | nil => exact .refl _
  | cons m ms ih => exact (insert_perm _ _).trans (ih.cons m)

theorem dedup_sublist (l : List Member) : (dedup l).Sublist l := by
  induction l with
  | nil => exact .refl _
  | cons m ms ih =>
    cases ms with
    | nil => exact .refl _
    | cons m' ms =>
      simp only [dedup]
      split
      · exact ih.cons _
      · exact ih.cons₂ _

theorem dedup_eq {l : List Member} (h : (dedup l).length = l.length) : dedup l = l :=
  (dedup_sublist l).eq_of_length h

theorem dedup_nodup {l : List Member} (h : l.Nodup) : dedup l = l := by
  induction l with
  | nil => rfl
  | cons m ms ih =>
    cases ms with
    | nil => rfl
    | cons m' ms =>
      have hne : m ≠ m' := by
        rintro rfl; simp at h
      simp only [dedup, hne, if_false, ih h.of_cons]

theorem sumWeights_ok {l : List Member} {t r : Nat} (ht : t < U128) :
    sumWeights l t = .ok r ↔ r = t + (l.map (·.2)).sum ∧ r < U128 := by
  induction l generalizing t with
  | nil =>
    simp only [sumWeights, Except.ok.injEq, List.map_nil, List.sum_nil, Nat.add_zero]
    constructor
    · rintro rfl; exact ⟨rfl, ht⟩
    · rintro ⟨rfl, _⟩; rfl
  | cons e l ih =>
    obtain ⟨a, n⟩ := e
    simp only [sumWeights, List.map_cons, List.sum_cons]
    split
    · simp only [bind_ok, add128_ok]
      constructor
      · rintro ⟨x, ⟨hx, rfl⟩, h⟩
        obtain ⟨h1, h2⟩ := (ih hx).1 h
        exact ⟨by omega, h2⟩
      · rintro ⟨h1, h2⟩
        have hx : t + n < U128 := by omega
        exact ⟨_, ⟨hx, rfl⟩, (ih hx).2 ⟨by omega, h2⟩⟩
    · rw [ih ht]
      have : n = 0 := by omega
      subst this; simp

theorem saveAll_ok {h : Nat} {l : List Member} {s : Snap Addr Nat} {t : Nat} (ht : t < U64) :
    (∃ r, saveAll h l s t = .ok r) ↔ t + (l.map (·.2)).sum < U64 := by
  induction l generalizing s t with
  | nil => simp [saveAll, ht]
  | cons e l ih =>
    obtain ⟨a, n⟩ := e
    simp only [saveAll, bind_ok, add64_ok, List.map_cons, List.sum_cons]
    constructor
    · rintro ⟨r, x, ⟨hx, rfl⟩, h⟩
      have := (ih hx).1 ⟨r, h⟩
      omega
    · intro hh
      have hx : t + n < U64 := by omega
      obtain ⟨r, hr⟩ := (ih (s := s.save a n h) hx).2 (by omega)
      exact ⟨r, _, ⟨hx, rfl⟩, hr⟩

theorem get_save' (s : Snap Addr Nat) (a q : Addr) (n h : Nat) :
    (s.save a n h).get q = if a = q then some n else s.get q := Snap.get_save ..

theorem saveAll_get {h : Nat} {l : List Member} {s s' : Snap Addr Nat} {t t' : Nat}
    (hs : saveAll h l s t = .ok (s', t')) (hn : (l.map (·.1)).Nodup) :
    (∀ a n, (a, n) ∈ l → s'.get a = some n) ∧ (∀ a, (∀ n, (a, n) ∉ l) → s'.get a = s.get a) ∧
      Snap.Writes h s s' := by
  induction l generalizing s t with
  | nil =>
    simp only [saveAll, Except.ok.injEq, Prod.mk.injEq] at hs
    obtain ⟨rfl, rfl⟩ := hs
    exact ⟨by simp, fun _ _ => rfl, .refl⟩
  | cons e l ih =>
    obtain ⟨x, k⟩ := e
    simp only [saveAll, bind_ok] at hs
    obtain ⟨_, _, hs⟩ := hs
    simp only [List.map_cons, List.nodup_cons] at hn
    have hx : ∀ n, (x, n) ∉ l := fun n hm => hn.1 (List.mem_map.2 ⟨_, hm, rfl⟩)
    obtain ⟨h1, h2, h3⟩ := ih hs hn.2
    refine ⟨?_, ?_, (Snap.Writes.one _ _ _ _).trans h3⟩
    · intro a n hm
      rcases List.mem_cons.1 hm with hm | hm
      · cases hm
        rw [h2 x hx, get_save', if_pos rfl]
      · exact h1 a n hm
    · intro a ha
      rw [h2 a (fun n hm => ha n (List.mem_cons_of_mem _ hm)), get_save', if_neg]
      rintro rfl; exact ha k (List.mem_cons_self ..)

/-- The invariant of the loops: the running total is the sum of the weights. -/
structure Fits (s : Snap Addr Nat) (t : Nat) : Prop where
  sum : t = Verif.total s.cur
  wf : AMap.WF s.cur
  small : t < U64

theorem U64_pos : 0 < U64 := by unfold U64; exact Nat.two_pow_pos 64

theorem fits_empty : Fits Snap.empty 0 := ⟨rfl, by simp [Snap.empty, AMap.WF], U64_pos⟩

theorem fits_save {s : Snap Addr Nat} {t t' : Nat} (hf : Fits s t) {a : Addr} {n h : Nat}
    (he : t' + getD0 s.cur a = t + n) (hs : t' < U64) : Fits (s.save a n h) t' := by
  refine ⟨?_, AMap.WF_set hf.wf _ _, hs⟩
  have h1 := total_set s.cur a n
  have h2 := hf.sum
  show t' = Verif.total (AMap.set s.cur a n)
  omega

theorem fits_remove {s : Snap Addr Nat} {t t' : Nat} (hf : Fits s t) {a : Addr} {h : Nat}
    (he : t' + getD0 s.cur a = t) : Fits (s.remove a h) t' := by
  refine ⟨?_, AMap.WF_erase hf.wf _, by have := hf.small; omega⟩
  have h1 := total_erase hf.wf a
  have h2 := hf.sum
  show t' = Verif.total (AMap.erase s.cur a)
  omega

theorem saveAll_fits {h : Nat} {l : List Member} {s s' : Snap Addr Nat} {t t' : Nat}
    (hs : saveAll h l s t = .ok (s', t')) (hf : Fits s t) (hn : (l.map (·.1)).Nodup)
    (hnew : ∀ e ∈ l, s.get e.1 = none) : Fits s' t' := by
  induction l generalizing s t with
  | nil =>
    simp only [saveAll, Except.ok.injEq, Prod.mk.injEq] at hs
    obtain ⟨rfl, rfl⟩ := hs; exact hf
  | cons e l ih =>
    obtain ⟨x, k⟩ := e
    simp only [saveAll, bind_ok, add64_ok] at hs
    obtain ⟨_, ⟨hlt, rfl⟩, hs⟩ := hs
    simp only [List.map_cons, List.nodup_cons] at hn
    have h0 : getD0 s.cur x = 0 := by
      have := hnew (x, k) (List.mem_cons_self ..)
      unfold getD0; rw [show AMap.get s.cur x = none from this]; rfl
    refine ih hs (fits_save hf (by omega) hlt) hn.2 ?_
    intro e he
    rw [get_save', if_neg]
    · exact hnew e (List.mem_cons_of_mem _ he)
    · intro hx; exact hn.1 (List.mem_map.2 ⟨e, he, hx.symm⟩)

theorem addAll_spec {h : Nat} {l : List Member} {s s' : Snap Addr Nat} {t t' : Nat}
    (hs : addAll h l s t = .ok (s', t')) (hf : Fits s t) (hn : (l.map (·.1)).Nodup) :
    Fits s' t' ∧ Snap.Writes h s s' ∧ (∀ a n, (a, n) ∈ l → s'.get a = some n) ∧
      (∀ a, (∀ n, (a, n) ∉ l) → s'.get a = s.get a) := by
  induction l generalizing s t with
  | nil =>
    simp only [addAll, Except.ok.injEq, Prod.mk.injEq] at hs
    obtain ⟨rfl, rfl⟩ := hs
    exact ⟨hf, .refl, by simp, fun _ _ => rfl⟩
  | cons e l ih =>
    obtain ⟨x, k⟩ := e
    simp only [addAll, bind_ok, sub128_ok, add64_ok] at hs
    obtain ⟨t1, ⟨hle, rfl⟩, _, ⟨hlt, rfl⟩, hs⟩ := hs
    simp only [List.map_cons, List.nodup_cons] at hn
    have hx : ∀ n, (x, n) ∉ l := fun n hm => hn.1 (List.mem_map.2 ⟨_, hm, rfl⟩)
    have hle' : getD0 s.cur x ≤ t := hle
    have hf' : Fits (s.save x k h) (t - getD0 s.cur x + k) := fits_save hf (by omega) hlt
    obtain ⟨h1, h2, h3, h4⟩ := ih hs hf' hn.2
    refine ⟨h1, (Snap.Writes.one _ _ _ _).trans h2, ?_, ?_⟩
    · intro a n hm
      rcases List.mem_cons.1 hm with hm | hm
      · cases hm; rw [h4 x hx, get_save', if_pos rfl]
      · exact h3 a n hm
    · intro a ha
      rw [h4 a (fun n hm => ha n (List.mem_cons_of_mem _ hm)), get_save', if_neg]
      rintro rfl; exact ha k (List.mem_cons_self ..)

theorem removeOne_spec {h : Nat} {a : Addr} {s s' : Snap Addr Nat} {t t' : Nat}
    (hs : removeOne h a s t = .ok (s', t')) (hf : Fits s t) :
    Fits s' t' ∧ Snap.Writes h s s' ∧ (∀ q, s'.get q = if a = q then none else s.get q) := by
  unfold removeOne at hs
  split at hs
  · rename_i hnone
    simp only [Except.ok.injEq, Prod.mk.injEq] at hs
    obtain ⟨rfl, rfl⟩ := hs
    refine ⟨hf, .refl, fun q => ?_⟩
    split
    · rename_i e; subst e; exact hnone
    · rfl
  · rename_i n hsome
    simp only [bind_ok, sub128_ok, Except.ok.injEq, Prod.mk.injEq] at hs
    obtain ⟨_, ⟨hle, rfl⟩, rfl, rfl⟩ := hs
    have h0 : getD0 s.cur a = n := by unfold getD0; rw [show AMap.get s.cur a = some n from hsome]; rfl
    exact ⟨fits_remove hf (by omega), .remove _ .refl, fun q => Snap.get_remove ..⟩

theorem removeAll_spec {h : Nat} {l : List Addr} {s s' : Snap Addr Nat} {t t' : Nat}
    (hs : removeAll h l s t = .ok (s', t')) (hf : Fits s t) :
    Fits s' t' ∧ Snap.Writes h s s' ∧ (∀ q, s'.get q = if q ∈ l then none else s.get q) := by
  induction l generalizing s t with
  | nil =>
    simp only [removeAll, Except.ok.injEq, Prod.mk.injEq] at hs
    obtain ⟨rfl, rfl⟩ := hs
    exact ⟨hf, .refl, fun q => by simp⟩
  | cons a l ih =>
    simp only [removeAll, bind_ok] at hs
    obtain ⟨⟨s1, t1⟩, h1, hs⟩ := hs
    obtain ⟨f1, w1, g1⟩ := removeOne_spec h1 hf
    obtain ⟨f2, w2, g2⟩ := ih hs f1
    refine ⟨f2, w1.trans w2, fun q => ?_⟩
    rw [g2, g1]
    by_cases e : a = q
    · subst e; simp
    · simp [e, Ne.symm e]

/-- The invariant of a group. -/
structure Inv (g : Group) : Prop where
  total : ∃ t, g.total.get () = some t ∧ Fits g.members t

theorem createGroup_inv {b : Block} {admin : Option Addr} {ms : List Member} {g : Group}
    (h : createGroup b admin ms = .ok g) :
    (ms.map (·.1)).Nodup ∧ Inv g ∧ g.admin = admin ∧ (∀ a n, (a, n) ∈ ms → g.members.get a = some n) ∧
      (∀ a, (∀ n, (a, n) ∉ ms) → g.members.get a = none) ∧ g.members.UpTo b.height ∧
      g.total.UpTo b.height := by
  simp only [createGroup, bind_ok, require_ok, decide_eq_true_eq, Except.ok.injEq] at h
  obtain ⟨_, hn, ⟨s, t⟩, hs, rfl⟩ := h
  have hp := sort_perm ms
  have hn' : ((sortMembers ms).map (·.1)).Nodup := (hp.map _).nodup_iff.2 hn
  obtain ⟨h1, h2, h3⟩ := saveAll_get hs hn'
  have hf := saveAll_fits hs fits_empty hn' (fun e _ => rfl)
  refine ⟨hn, ⟨⟨t, by simp only [Snap.get_save, if_true], hf⟩⟩, rfl, ?_, ?_, ?_, ?_⟩
  · intro a n hm; exact h1 a n (hp.mem_iff.2 hm)
  · intro a ha; rw [h2 a (fun n hm => ha n (hp.mem_iff.1 hm))]; rfl
  · exact h3.upTo (Snap.upTo_empty b.height) (Nat.le_refl _)
  · exact Snap.upTo_save (Snap.upTo_empty b.height) (Nat.le_refl _)

/-- What a successful call of the group does. -/
inductive Does (g : Group) (b : Block) (sender : Addr) : Msg → Group → Prop where
  | admin (a : Option Addr) (h : g.admin = some sender) : Does g b sender (.updateAdmin a) { g with admin := a }
  | members (remove : List Addr) (add : List Member) (t t1 t2 : Nat) (s1 s2 : Snap Addr Nat)
      (h : g.admin = some sender) (hn : (add.map (·.1)).Nodup) (ht : g.total.get () = some t)
      (h1 : addAll b.height (sortMembers add) g.members t = .ok (s1, t1))
      (h2 : removeAll b.height remove s1 t1 = .ok (s2, t2)) :
      Does g b sender (.updateMembers remove add)
        { g with members := s2, total := g.total.save () t2 b.height }

theorem exec_does {g g' : Group} {b : Block} {a : Addr} {m : Msg} (h : execGroup g b a m = .ok g') :
    Does g b a m g' := by
  cases m with
  | updateAdmin x =>
    simp only [execGroup, bind_ok, require_ok, decide_eq_true_eq, Except.ok.injEq] at h
    obtain ⟨_, ha, rfl⟩ := h
    exact .admin x ha
  | updateMembers remove add =>
    simp only [execGroup, bind_ok, require_ok, decide_eq_true_eq, Except.ok.injEq, orErr_ok] at h
    obtain ⟨_, hn, _, ha, t, ht, ⟨s1, t1⟩, h1, ⟨s2, t2⟩, h2, rfl⟩ := h
    exact .members remove add t t1 t2 s1 s2 ha hn ht h1 h2

theorem inv_does {g g' : Group} {b : Block} {a : Addr} {m : Msg} (h : Does g b a m g') (hi : Inv g) :
    Inv g' ∧ Snap.Writes b.height g.members g'.members ∧ Snap.Writes b.height g.total g'.total := by
  cases h with
  | admin x ha => exact ⟨⟨hi.total⟩, .refl, .refl⟩
  | members remove add t t1 t2 s1 s2 ha hn ht h1 h2 =>
    obtain ⟨t0, ht0, hf⟩ := hi.total
    rw [ht] at ht0; cases ht0
    have hn' : ((sortMembers add).map (·.1)).Nodup := ((sort_perm add).map _).nodup_iff.2 hn
    obtain ⟨f1, w1, _, _⟩ := addAll_spec h1 hf hn'
    obtain ⟨f2, w2, _⟩ := removeAll_spec h2 f1
    exact ⟨⟨⟨t2, by simp only [Snap.get_save, if_true], f2⟩⟩, w1.trans w2, .one _ _ _ _⟩

theorem groupStep_inv {g g' : Group} {b : Block} {c : Call} {u : Unit}
    (h : groupSys.step g b c = .ok (g', u)) : Does g b c.sender c.msg g' := by
  have h' : (do let g' ← execGroup g b c.sender c.msg; Except.ok (g', ())) = Except.ok (ε := Err) (g', u) := h
  simp only [bind_ok, Except.ok.injEq, Prod.mk.injEq] at h'
  obtain ⟨_, h1, rfl, _⟩ := h'
  exact exec_does h1

theorem group_reach {g : Group} {b : Block} {log : List (Ev Group Block Call Unit)}
    (h : groupSys.Reach g b log) : Inv g ∧ g.members.UpTo b.height ∧ g.total.UpTo b.height := by
  refine Sys.Reach.induct (M := groupSys)
    (P := fun g b _ => Inv g ∧ g.members.UpTo b.height ∧ g.total.UpTo b.height) ?_ ?_ h
  · rintro b g ⟨admin, ms, hc⟩
    obtain ⟨_, h1, _, _, _, h2, h3⟩ := createGroup_inv hc
    exact ⟨h1, h2, h3⟩
  · intro g b l env c out g' _ ih hb hs
    obtain ⟨h1, h2, h3⟩ := inv_does (groupStep_inv hs) ih.1
    exact ⟨h1, h2.upTo ih.2.1 hb.1, h3.upTo ih.2.2 hb.1⟩

theorem instantiateNew_inv {b : Block} {dao group : Addr} {ms : List Member} {w : World}
    (h : instantiateNew b dao group ms = .ok w) :
    ms ≠ [] ∧ 0 < (ms.map (·.2)).sum ∧ ∃ g, createGroup b (some dao) (sortMembers ms) = .ok g ∧
      w = ⟨dao, group, g⟩ := by
  simp only [instantiateNew, bind_ok, require_ok, decide_eq_true_eq, Except.ok.injEq] at h
  obtain ⟨_, hne, _, hlen, t, ht, _, h0, g, hg, rfl⟩ := h
  have hp := sort_perm ms
  have he : dedup (sortMembers ms) = sortMembers ms := dedup_eq (by rw [hlen, hp.length_eq])
  rw [he] at ht hg
  obtain ⟨h1, _⟩ := (sumWeights_ok (by unfold U128; exact Nat.two_pow_pos _)).1 ht
  refine ⟨hne, ?_, g, hg, rfl⟩
  have := (hp.map (fun e : Member => e.2)).sum_nat
  omega

theorem step_inv {w w' : World} {b : Block} {c : VCall} {u : Unit} (h : step w b c = .ok (w', u)) :
    ∃ a m g, c = .group ⟨a, m⟩ ∧ Does w.group b a m g ∧ w' = { w with group := g } := by
  cases c with
  | module x => cases h
  | group c =>
    simp only [step, bind_ok, Except.ok.injEq, Prod.mk.injEq] at h
    obtain ⟨g, hg, rfl, _⟩ := h
    exact ⟨c.sender, c.msg, g, rfl, exec_does hg, rfl⟩

theorem created_inv {b : Block} {w : World} (h : Created b w) :
    Inv w.group ∧ w.group.members.UpTo b.height ∧ w.group.total.UpTo b.height := by
  cases h with
  | new h =>
    obtain ⟨_, _, g, hg, rfl⟩ := instantiateNew_inv h
    obtain ⟨_, h1, _, _, _, h2, h3⟩ := createGroup_inv hg
    exact ⟨h1, h2, h3⟩
  | existing hg hb h =>
    simp only [instantiateExisting, bind_ok, require_ok, Except.ok.injEq] at h
    obtain ⟨_, _, rfl⟩ := h
    obtain ⟨h1, h2, h3⟩ := group_reach hg
    exact ⟨h1, Snap.upTo_mono h2 hb.1, Snap.upTo_mono h3 hb.1⟩

theorem addAll_writes {h : Nat} {l : List Member} {s s' : Snap Addr Nat} {t t' : Nat}
    (hs : addAll h l s t = .ok (s', t')) : Snap.Writes h s s' := by
  induction l generalizing s t with
  | nil =>
    simp only [addAll, Except.ok.injEq, Prod.mk.injEq] at hs
    obtain ⟨rfl, rfl⟩ := hs; exact .refl
  | cons e l ih =>
    obtain ⟨x, k⟩ := e
    simp only [addAll, bind_ok] at hs
    obtain ⟨_, _, _, _, hs⟩ := hs
    exact (Snap.Writes.one _ _ _ _).trans (ih hs)

theorem removeAll_writes {h : Nat} {l : List Addr} {s s' : Snap Addr Nat} {t t' : Nat}
    (hs : removeAll h l s t = .ok (s', t')) : Snap.Writes h s s' := by
  induction l generalizing s t with
  | nil =>
    simp only [removeAll, Except.ok.injEq, Prod.mk.injEq] at hs
    obtain ⟨rfl, rfl⟩ := hs; exact .refl
  | cons a l ih =>
    simp only [removeAll, bind_ok] at hs
    obtain ⟨⟨s1, t1⟩, h1, hs⟩ := hs
    refine .trans ?_ (ih hs)
    unfold removeOne at h1
    split at h1
    · simp only [Except.ok.injEq, Prod.mk.injEq] at h1
      obtain ⟨rfl, rfl⟩ := h1; exact .refl
    · simp only [bind_ok, Except.ok.injEq, Prod.mk.injEq] at h1
      obtain ⟨_, _, rfl, rfl⟩ := h1
      exact .remove _ .refl

theorem does_writes {g g' : Group} {b : Block} {a : Addr} {m : Msg} (h : Does g b a m g') :
    Snap.Writes b.height g.members g'.members ∧ Snap.Writes b.height g.total g'.total := by
  cases h with
  | admin x ha => exact ⟨.refl, .refl⟩
  | members remove add t t1 t2 s1 s2 ha hn ht h1 h2 =>
    exact ⟨(addAll_writes h1).trans (removeAll_writes h2), .one _ _ _ _⟩

theorem snapshotted : sys.Snapshotted (fun w => w.group.members) ∧ sys.Snapshotted (fun w => w.group.total) := by
  refine ⟨⟨fun b w hi => (created_inv hi).2.1, ?_⟩, ⟨fun b w hi => (created_inv hi).2.2, ?_⟩⟩
  all_goals
    intro w b c w' u hs
    obtain ⟨a, m, g, rfl, hd, rfl⟩ := step_inv hs
    first | exact (does_writes hd).1 | exact (does_writes hd).2

theorem inv_reach {w : World} {b : Block} {log : List (Ev World Block VCall Unit)} (h : sys.Reach w b log) :
    Inv w.group := by
  refine Sys.Reach.induct (M := sys) (P := fun w _ _ => Inv w.group) (fun b w hi => (created_inv hi).1) ?_ h
  intro w b l env c out w' _ ih hb hs
  obtain ⟨a, m, g, rfl, hd, rfl⟩ := step_inv hs
  exact (inv_does hd ih).1

end Verif.Cw4Voting
