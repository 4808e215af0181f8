import Verif.Proofs.Cw4Voting
import Verif.Props.ActiveThreshold
/-!
# C30, C70, C71: dao-voting-cw4
-/

namespace Verif.Cw4Voting
open Verif

/-- What is logged. -/
abbrev Event := Ev World Block VCall Unit

/-! ## C30 -/

/-- **C30, C71.** The power of an address and the total reported for a height are the weights after the last
call below that height, whatever is called from then on and whenever it is asked. -/
theorem C30_cw4_history {w w' : World} {b b' : Block} {log log' : List Event}
    (h : sys.Reach w b log) (hr : sys.Run w b log' w' b') {x : Nat} (hb : b.height < x)
    (hx : ∀ e ∈ log', x ≤ e.env.height) (a : Addr) (now : Block) :
    power w' now a (some x) = ((power w now a none).1, x) ∧
      totalPower w' now (some x) = ((totalPower w now none).1, x) := by
  simp only [power, totalPower, Option.getD_some]
  rw [snapshotted.1.current h hr hb hx a, snapshotted.2.current h hr hb hx ()]
  exact ⟨rfl, rfl⟩

/-- **C30, C71.** What is reported for a height does not change through calls at or above that height. -/
theorem C30_cw4_stable {w w' : World} {b b' : Block} {log log' : List Event}
    (h : sys.Reach w b log) (hr : sys.Run w b log' w' b') {x : Nat}
    (hx : ∀ e ∈ log', x ≤ e.env.height) (a : Addr) (now now' : Block) :
    power w' now' a (some x) = power w now a (some x) ∧
      totalPower w' now' (some x) = totalPower w now (some x) := by
  simp only [power, totalPower, Option.getD_some]
  rw [snapshotted.1.stable h hr hx a, snapshotted.2.stable h hr hx ()]
  exact ⟨rfl, rfl⟩

/-! ## C71: the total -/

theorem total_now {g : Group} (hi : Inv g) {L : List Addr} (hL : L.Nodup)
    (hc : ∀ a, a ∉ L → (g.members.get a).getD 0 = 0) :
    (g.total.get ()).getD 0 = (L.map (fun a => (g.members.get a).getD 0)).sum := by
  obtain ⟨t, ht, hf⟩ := hi.total
  rw [ht, Option.getD_some, hf.sum, ← total_eq_sum hf.wf hL hc]
  rfl

theorem saveAll_before {h x : Nat} {l : List Member} {s s' : Snap Addr Nat} {t t' : Nat}
    (hs : saveAll h l s t = .ok (s', t')) (hu : s.UpTo h) (hx : x ≤ h) (a : Addr) :
    s'.atHeight a x = s.atHeight a x := by
  induction l generalizing s t with
  | nil =>
    simp only [saveAll, Except.ok.injEq, Prod.mk.injEq] at hs
    obtain ⟨rfl, rfl⟩ := hs; rfl
  | cons e l ih =>
    obtain ⟨y, k⟩ := e
    simp only [saveAll, bind_ok] at hs
    obtain ⟨_, _, hs⟩ := hs
    rw [ih hs (Snap.upTo_save hu (Nat.le_refl _)), Snap.atHeight_save hu hx]

theorem createGroup_before {b : Block} {admin : Option Addr} {ms : List Member} {g : Group}
    (h : createGroup b admin ms = .ok g) {x : Nat} (hx : x ≤ b.height) :
    (∀ a, g.members.atHeight a x = none) ∧ g.total.atHeight () x = none := by
  simp only [createGroup, bind_ok, require_ok, Except.ok.injEq] at h
  obtain ⟨_, _, ⟨s, t⟩, hs, rfl⟩ := h
  refine ⟨fun a => ?_, ?_⟩
  · rw [saveAll_before hs (Snap.upTo_empty _) hx]; rfl
  · simp only
    rw [Snap.atHeight_save (Snap.upTo_empty _) hx]; rfl

theorem sum_zero {L : List Addr} {f : Addr → Nat} (h : ∀ a, f a = 0) : 0 = (L.map f).sum := by
  symm
  apply List.sum_eq_zero
  intro n hn
  obtain ⟨a, _, rfl⟩ := List.mem_map.1 hn
  exact h a

theorem groupSnapshotted :
    groupSys.Snapshotted (fun g => g.members) ∧ groupSys.Snapshotted (fun g => g.total) := by
  refine ⟨⟨?_, ?_⟩, ⟨?_, ?_⟩⟩
  · rintro b g ⟨admin, ms, hc⟩; exact (createGroup_inv hc).2.2.2.2.2.1
  · intro g b c g' u hs; exact (does_writes (groupStep_inv hs)).1
  · rintro b g ⟨admin, ms, hc⟩; exact (createGroup_inv hc).2.2.2.2.2.2
  · intro g b c g' u hs; exact (does_writes (groupStep_inv hs)).2

theorem group_total_at {g : Group} {b : Block} {log : List (Ev Group Block Call Unit)}
    (h : groupSys.Reach g b log) (x : Nat) {L : List Addr} (hL : L.Nodup)
    (hc : ∀ a, a ∉ L → (g.members.atHeight a x).getD 0 = 0) :
    (g.total.atHeight () x).getD 0 = (L.map (fun a => (g.members.atHeight a x).getD 0)).sum := by
  obtain ⟨g1, b1, l1, l2, rfl, h1, hr, hx, hb⟩ := h.split x
  by_cases hlt : b1.height < x
  · have e := fun a => groupSnapshotted.1.current h1 hr hlt hx a
    simp only [e] at hc ⊢
    rw [groupSnapshotted.2.current h1 hr hlt hx ()]
    exact total_now (group_reach h1).1 hL hc
  · rcases hb with hb | ⟨rfl, hi⟩
    · exact absurd hb hlt
    · have e := fun a => groupSnapshotted.1.stable h1 hr hx a
      simp only [e] at hc ⊢
      rw [groupSnapshotted.2.stable h1 hr hx ()]
      obtain ⟨admin, ms, hc'⟩ := hi
      obtain ⟨z1, z2⟩ := createGroup_before hc' (Nat.le_of_not_lt hlt)
      rw [z2]
      exact sum_zero (fun a => by rw [z1]; rfl)

/-- **C71.** Over an existing group, instantiation succeeds exactly if the group lists a member, and the module then reports
the weights the group has, at every height, for the DAO that asked. -/
theorem C71_existing (dao group : Addr) (g : Group) :
    ((∃ w, instantiateExisting dao group g = .ok w) ↔ ∃ a n, g.members.get a = some n) ∧
    ∀ w, instantiateExisting dao group g = .ok w → w.dao = dao ∧ w.groupContract = group ∧ w.group = g ∧
      ∀ now a, power w now a none = ((g.members.get a).getD 0, now.height) ∧
        ∀ x, power w now a (some x) = ((g.members.atHeight a x).getD 0, x) := by
  simp only [instantiateExisting, bind_ok, require_ok, decide_eq_true_eq, Except.ok.injEq]
  refine ⟨⟨?_, ?_⟩, ?_⟩
  · rintro ⟨_, _, h, rfl⟩
    cases hm : g.members.cur with
    | nil => exact absurd hm h
    | cons e l =>
      obtain ⟨a, n⟩ := e
      refine ⟨a, n, ?_⟩
      unfold Snap.get
      rw [hm]
      simp [AMap.get]
  · rintro ⟨a, n, h⟩
    refine ⟨_, (), ?_, rfl⟩
    intro hm
    unfold Snap.get at h
    rw [hm] at h
    cases h
  · rintro w ⟨_, _, rfl⟩
    exact ⟨rfl, rfl, rfl, fun now a => ⟨rfl, fun x => rfl⟩⟩

/-- **C71.** At every height, and without one, the total power is the sum of the powers: over any list of
addresses without repetition that has everybody with power. -/
theorem C71_total {w : World} {b now : Block} {log : List Event} (h : sys.Reach w b log) (x : Option Nat)
    {L : List Addr} (hL : L.Nodup) (hc : ∀ a, a ∉ L → (power w now a x).1 = 0) :
    (totalPower w now x).1 = (L.map (fun a => (power w now a x).1)).sum := by
  cases x with
  | none => exact total_now (inv_reach h) hL hc
  | some x =>
    obtain ⟨w1, b1, l1, l2, rfl, h1, hr, hx, hb⟩ := h.split x
    simp only [power, totalPower] at hc ⊢
    by_cases hlt : b1.height < x
    · have e := fun a => snapshotted.1.current h1 hr hlt hx a
      simp only [e] at hc ⊢
      rw [snapshotted.2.current h1 hr hlt hx ()]
      exact total_now (inv_reach h1) hL hc
    · rcases hb with hb | ⟨rfl, hi⟩
      · exact absurd hb hlt
      · have e := fun a => snapshotted.1.stable h1 hr hx a
        simp only [e] at hc ⊢
        rw [snapshotted.2.stable h1 hr hx ()]
        cases hi with
        | new hn =>
          obtain ⟨_, _, g, hg, rfl⟩ := instantiateNew_inv hn
          obtain ⟨z1, z2⟩ := createGroup_before hg (Nat.le_of_not_lt hlt)
          simp only
          rw [z2]
          exact sum_zero (fun a => by rw [z1]; rfl)
        | existing hg hb h =>
          simp only [instantiateExisting, bind_ok, require_ok, Except.ok.injEq] at h
          obtain ⟨_, _, rfl⟩ := h
          exact group_total_at hg x hL hc

/-! ## C71: a new group -/

/-- **C71.** A module with a new group can be created exactly when members are listed, no address twice, and
their weights add up to more than zero and fit in 64 bits. -/
theorem C71_new_iff {b : Block} {dao group : Addr} {ms : List Member} :
    (∃ w, instantiateNew b dao group ms = .ok w) ↔
      ms ≠ [] ∧ (ms.map (·.1)).Nodup ∧ 0 < (ms.map (·.2)).sum ∧ (ms.map (·.2)).sum < 2 ^ 64 := by
  have hp := sort_perm ms
  have hU : U64 = 2 ^ 64 := by unfold U64; rfl
  have hsum := (hp.map (fun e : Member => e.2)).sum_nat
  have hpp := sort_perm (sortMembers ms)
  have hsum2 := (hpp.map (fun e : Member => e.2)).sum_nat
  constructor
  · rintro ⟨w, h⟩
    obtain ⟨h1, h2, g, hg, _⟩ := instantiateNew_inv h
    have hn := (createGroup_inv hg).1
    simp only [createGroup, bind_ok, require_ok, Except.ok.injEq] at hg
    obtain ⟨_, _, r, hr, _⟩ := hg
    have := (saveAll_ok U64_pos).1 ⟨r, hr⟩
    exact ⟨h1, (hp.map _).nodup_iff.1 hn, h2, by omega⟩
  · rintro ⟨h1, h2, h3, h4⟩
    have hn : ((sortMembers ms).map (·.1)).Nodup := (hp.map _).nodup_iff.2 h2
    have hd : dedup (sortMembers ms) = sortMembers ms := dedup_nodup hn.of_map
    obtain ⟨r, hr⟩ := (saveAll_ok (h := b.height) (l := sortMembers (sortMembers ms)) (s := Snap.empty)
      U64_pos).2 (by omega)
    have hU' : U64 ≤ U128 := by unfold U64 U128; decide +kernel
    have hs : sumWeights (sortMembers ms) 0 = .ok ((sortMembers ms).map (·.2)).sum :=
      (sumWeights_ok (by have := U64_pos; omega)).2 ⟨by omega, by omega⟩
    refine ⟨⟨dao, group, ⟨some dao, r.1, Snap.empty.save () r.2 b.height⟩⟩, ?_⟩
    simp only [instantiateNew, createGroup, bind_ok, require_ok, decide_eq_true_eq, Except.ok.injEq, hd]
    exact ⟨(), h1, (), hp.length_eq, _, hs, (), by omega, _, ⟨(), hn, r, hr, rfl⟩, rfl⟩

/-- **C71.** In a new group every listed member has the listed weight and nobody else has any, from the next
block on at every height until somebody changes it; the DAO, and nobody else, is the admin. -/
theorem C71_new {b : Block} {dao group : Addr} {ms : List Member} {w : World}
    (h : instantiateNew b dao group ms = .ok w) (now : Block) :
    (∀ a n, (a, n) ∈ ms → (power w now a none).1 = n) ∧
    (∀ a, (∀ n, (a, n) ∉ ms) → (power w now a none).1 = 0) ∧
    (totalPower w now none).1 = (ms.map (·.2)).sum ∧ 0 < (totalPower w now none).1 ∧
    w.group.admin = some dao ∧ w.dao = dao ∧ w.groupContract = group := by
  have hp := sort_perm ms
  have hn := (C71_new_iff.1 ⟨w, h⟩).2.1
  obtain ⟨_, h0, g, hg, rfl⟩ := instantiateNew_inv h
  obtain ⟨_, hi, ha, h1, h2, _, _⟩ := createGroup_inv hg
  have e1 : ∀ a n, (a, n) ∈ ms → g.members.get a = some n := fun a n hm => h1 a n (hp.mem_iff.2 hm)
  have e2 : ∀ a, (∀ n, (a, n) ∉ ms) → g.members.get a = none :=
    fun a hm => h2 a (fun n hx => hm n (hp.mem_iff.1 hx))
  have ht : (g.total.get ()).getD 0 = (ms.map (·.2)).sum := by
    rw [total_now hi hn ?_, List.map_map]
    · congr 1
      apply List.map_congr_left
      rintro ⟨a, n⟩ hm
      simp only [Function.comp, e1 a n hm, Option.getD_some]
    · intro a ha
      rw [e2 a (fun n hm => ha (List.mem_map.2 ⟨_, hm, rfl⟩))]; rfl
  refine ⟨fun a n hm => ?_, fun a hm => ?_, ht, ?_, ha, rfl, rfl⟩
  · simp only [power, e1 a n hm, Option.getD_some]
  · simp only [power, e2 a hm, Option.getD_none]
  · have : (totalPower ⟨dao, group, g⟩ now none).1 = (g.total.get ()).getD 0 := rfl
    omega

/-! ## C71: changes -/

/-- **C71.** Everything that ever succeeds is a call of the group by its admin at that time; in particular
the module itself refuses every call. -/
theorem C71_only_admin {w : World} {b : Block} {log : List Event} (h : sys.Reach w b log) {e : Event}
    (he : e ∈ log) : ∃ a m, e.call = .group ⟨a, m⟩ ∧ e.pre.group.admin = some a := by
  obtain ⟨_, _, _, hr⟩ := h
  obtain ⟨_, _, _, _, _, _, hs, _⟩ := hr.event e he
  obtain ⟨a, m, g, hc, hd, _⟩ := step_inv hs
  refine ⟨a, m, hc, ?_⟩
  cases hd <;> assumption

/-- **C71.** What an update of the members does: whoever is listed for removal has no power, whoever is
listed with a weight and not for removal has that weight, everybody else what they had. The admin is as
before. -/
theorem C71_update {w w' : World} {b now : Block} {log : List Event} (h : sys.Reach w b log) {a : Addr}
    {remove : List Addr} {add : List Member} {b' : Block} {u : Unit}
    (hs : step w b' (.group ⟨a, .updateMembers remove add⟩) = .ok (w', u)) (q : Addr) :
    (q ∈ remove → (power w' now q none).1 = 0) ∧
    (∀ n, q ∉ remove → (q, n) ∈ add → (power w' now q none).1 = n) ∧
    (q ∉ remove → (∀ n, (q, n) ∉ add) → power w' now q none = power w now q none) ∧
    w'.group.admin = w.group.admin ∧ w'.dao = w.dao ∧ w'.groupContract = w.groupContract := by
  obtain ⟨a', m, g, hc, hd, rfl⟩ := step_inv hs
  cases hc
  cases hd with
  | members _ _ t t1 t2 s1 s2 ha hn ht h1 h2 =>
    have hp := sort_perm add
    have hn' : ((sortMembers add).map (·.1)).Nodup := (hp.map _).nodup_iff.2 hn
    obtain ⟨t0, ht0, hf⟩ := (inv_reach h).total
    rw [ht] at ht0; cases ht0
    obtain ⟨f1, _, g1, g2⟩ := addAll_spec h1 hf hn'
    obtain ⟨_, _, g3⟩ := removeAll_spec h2 f1
    refine ⟨?_, ?_, ?_, rfl, rfl, rfl⟩
    · intro hq; simp only [power, g3, if_pos hq, Option.getD_none]
    · intro n hq hm
      simp only [power, g3, if_neg hq, g1 q n (hp.mem_iff.2 hm), Option.getD_some]
    · intro hq hm
      simp only [power, g3, if_neg hq, g2 q (fun n hx => hm n (hp.mem_iff.1 hx))]

theorem addAll_exists {h : Nat} {l : List Member} {s : Snap Addr Nat} {t : Nat} (hf : Fits s t)
    (hl : t + (l.map (·.2)).sum < U64) :
    ∃ s' t', addAll h l s t = .ok (s', t') ∧ Fits s' t' := by
  induction l generalizing s t with
  | nil => exact ⟨s, t, rfl, hf⟩
  | cons e l ih =>
    obtain ⟨x, k⟩ := e
    simp only [List.map_cons, List.sum_cons] at hl
    have hle : getD0 s.cur x ≤ t := by rw [hf.sum]; exact getD0_le_total _ _
    have hlt : t - getD0 s.cur x + k < U64 := by omega
    obtain ⟨s', t', h1, h2⟩ := ih (fits_save (a := x) (n := k) (h := h) hf (t' := t - getD0 s.cur x + k)
      (by omega) hlt) (by omega)
    refine ⟨s', t', ?_, h2⟩
    simp only [addAll, bind_ok, sub128_ok, add64_ok]
    exact ⟨_, ⟨hle, rfl⟩, _, ⟨hlt, rfl⟩, h1⟩

theorem removeAll_exists {h : Nat} {l : List Addr} {s : Snap Addr Nat} {t : Nat} (hf : Fits s t) :
    ∃ s' t', removeAll h l s t = .ok (s', t') := by
  induction l generalizing s t with
  | nil => exact ⟨s, t, rfl⟩
  | cons a l ih =>
    have h1 : ∃ s1 t1, removeOne h a s t = .ok (s1, t1) := by
      unfold removeOne
      cases hg : s.get a with
      | none => exact ⟨s, t, rfl⟩
      | some n =>
        have h0 : getD0 s.cur a = n := by unfold getD0; rw [show AMap.get s.cur a = some n from hg]; rfl
        have hle : n ≤ t := by rw [← h0, hf.sum]; exact getD0_le_total _ _
        refine ⟨s.remove a h, t - n, ?_⟩
        simp only [bind_ok, sub128_ok]
        exact ⟨_, ⟨hle, rfl⟩, rfl⟩
    obtain ⟨s1, t1, h1⟩ := h1
    obtain ⟨s2, t2, h2⟩ := ih (removeOne_spec h1 hf).1
    refine ⟨s2, t2, ?_⟩
    simp only [removeAll, bind_ok]
    exact ⟨_, h1, h2⟩

/-- **C71.** The admin can always update the members, remove anybody and hand over or give up its place, as
long as no address is listed with two weights and the old total and the new weights together fit in 64 bits. -/
theorem C71_admin_can {w : World} {b : Block} {log : List Event} (h : sys.Reach w b log) {a : Addr}
    (ha : w.group.admin = some a) (b' now : Block) :
    (∀ remove add, (add.map (·.1)).Nodup →
      (totalPower w now none).1 + (add.map (·.2)).sum < 2 ^ 64 →
      ∃ r, step w b' (.group ⟨a, .updateMembers remove add⟩) = .ok r) ∧
    (∀ x, ∃ w' u, step w b' (.group ⟨a, .updateAdmin x⟩) = .ok (w', u) ∧ w'.group.admin = x) := by
  obtain ⟨t, ht, hf⟩ := (inv_reach h).total
  have hU : U64 = 2 ^ 64 := by unfold U64; rfl
  constructor
  · intro remove add hn hl
    have ht' : (totalPower w now none).1 = t := by simp only [totalPower, ht, Option.getD_some]
    have hsum := ((sort_perm add).map (fun e : Member => e.2)).sum_nat
    obtain ⟨s1, t1, h1, f1⟩ := addAll_exists (h := b'.height) (l := sortMembers add) hf (by omega)
    obtain ⟨s2, t2, h2⟩ := removeAll_exists (h := b'.height) (l := remove) f1
    refine ⟨({ w with group := { w.group with members := s2, total := w.group.total.save () t2 b'.height } },
      ()), ?_⟩
    simp only [step, execGroup, bind_ok, require_ok, decide_eq_true_eq, orErr_ok, Except.ok.injEq]
    exact ⟨_, ⟨(), hn, (), ha, t, ht, (s1, t1), h1, (s2, t2), h2, rfl⟩, rfl⟩
  · intro x
    refine ⟨{ w with group := { w.group with admin := x } }, (), ?_, rfl⟩
    simp only [step, execGroup, bind_ok, require_ok, decide_eq_true_eq, Except.ok.injEq]
    exact ⟨_, ⟨(), ha, rfl⟩, rfl⟩

/-- **C71.** A group without admin never changes again, and neither do the powers. -/
theorem C71_frozen {w w' : World} {b b' : Block} {log : List Event} (ha : w.group.admin = none)
    (hr : sys.Run w b log w' b') : w' = w ∧ log = [] := by
  induction hr with
  | refl => exact ⟨rfl, rfl⟩
  | step hr hb hs ih =>
    obtain ⟨rfl, rfl⟩ := ih
    obtain ⟨a, m, g, rfl, hd, _⟩ := step_inv hs
    cases hd <;> simp_all

/-! ## C70 -/

/-- **C70**, for dao-voting-cw4, when nothing was called yet in the block the question is asked in: the powers
reported without a height are those reported for the height that is given with the answer. Otherwise this is
false of the code: `C70_cw4_witness`. -/
theorem C70_cw4_partial {w : World} {b now : Block} {log : List Event} (h : sys.Reach w b log)
    (hb : b.height < now.height) (a : Addr) :
    power w now a none = power w now a (some now.height) ∧
      totalPower w now none = totalPower w now (some now.height) := by
  have := C30_cw4_history h .refl hb (by simp) a now
  rw [this.1, this.2]
  exact ⟨rfl, rfl⟩

/-! ## Examples -/

/-- Two members, 5 and 7. -/
def exWorld : World := (instantiateNew ⟨10, 100⟩ 1 2 [(21, 7), (20, 5)]).toOption.getD
  ⟨0, 0, ⟨none, Snap.empty, Snap.empty⟩⟩

theorem ex_init : Created ⟨10, 100⟩ exWorld :=
  .new (dao := 1) (group := 2) (ms := [(21, 7), (20, 5)]) (by decide +kernel)

/-- **C71**, an example: the DAO replaces a member and changes a weight in one call; the powers of the old
block are as they were. Then it gives up its place, and can do nothing more. -/
theorem C71_example : ∃ w b log, sys.Run exWorld ⟨10, 100⟩ log w b ∧
    power w b 20 none = (6, 12) ∧ power w b 21 none = (0, 12) ∧ power w b 22 none = (9, 12) ∧
    totalPower w b none = (15, 12) ∧ power w b 21 (some 11) = (7, 11) ∧ totalPower w b (some 11) = (12, 11) ∧
    w.group.admin = none := by
  obtain ⟨w, b, log, hr, hp⟩ := Sys.check_run (M := sys) (s := exWorld) (b := ⟨10, 100⟩)
    (cs := [(⟨11, 110⟩, .group ⟨1, .updateMembers [21] [(22, 9), (20, 6)]⟩),
      (⟨12, 120⟩, .group ⟨1, .updateAdmin none⟩)])
    (p := fun w b _ => decide (power w b 20 none = (6, 12) ∧ power w b 21 none = (0, 12) ∧
      power w b 22 none = (9, 12) ∧ totalPower w b none = (15, 12) ∧ power w b 21 (some 11) = (7, 11) ∧
      totalPower w b (some 11) = (12, 11) ∧ w.group.admin = none)) (by decide +kernel)
  exact ⟨w, b, log, hr, of_decide_eq_true hp⟩

/-- **C70**, why not always for dao-voting-cw4: after a change in the same block the answer without a height
says height 11, but has the new weight; the answer for height 11 is the old one. -/
theorem C70_cw4_witness : ∃ w b log, sys.Reach w b log ∧
    power w b 20 none = (100, 11) ∧ power w b 20 (some 11) = (5, 11) ∧
    totalPower w b none = (107, 11) ∧ totalPower w b (some 11) = (12, 11) := by
  obtain ⟨w, b, log, hr, hp⟩ := Sys.check_run (M := sys) (s := exWorld) (b := ⟨10, 100⟩)
    (cs := [(⟨11, 110⟩, .group ⟨1, .updateMembers [] [(20, 100)]⟩)])
    (p := fun w b _ => decide (power w b 20 none = (100, 11) ∧ power w b 20 (some 11) = (5, 11) ∧
      totalPower w b none = (107, 11) ∧ totalPower w b (some 11) = (12, 11))) (by decide +kernel)
  exact ⟨w, b, log, ⟨_, _, ex_init, hr⟩, of_decide_eq_true hp⟩

/-- A group of one member without weight. -/
def zeroGroup : Group := (createGroup ⟨1, 10⟩ none [(20, 0)]).toOption.getD ⟨none, Snap.empty, Snap.empty⟩

/-- **C71**, what is not checked of an existing group: a module is created over a group whose total weight is
zero and that has no admin, so that its total power is zero for ever; with a new group this is refused. -/
theorem C71_existing_witness : ∃ w, Created ⟨10, 100⟩ w ∧
    (∀ w' b' log now, sys.Run w ⟨10, 100⟩ log w' b' → (totalPower w' now none).1 = 0) ∧
    (∀ w', instantiateNew ⟨10, 100⟩ 1 2 [(20, 0)] ≠ .ok w') := by
  refine ⟨⟨1, 2, zeroGroup⟩, .existing (b0 := ⟨1, 10⟩) (log := []) (g := zeroGroup) (dao := 1) (group := 2)
    ⟨⟨1, 10⟩, zeroGroup, ⟨none, [(20, 0)], by decide +kernel⟩, .refl⟩ ⟨by decide, by decide⟩ (by decide +kernel), ?_, ?_⟩
  · intro w' b' log now hr
    obtain ⟨rfl, _⟩ := C71_frozen (by decide +kernel) hr
    show (zeroGroup.total.get ()).getD 0 = 0
    decide +kernel
  · intro w' h
    have := (C71_new_iff.1 ⟨w', h⟩).2.2.1
    simp at this

end Verif.Cw4Voting
