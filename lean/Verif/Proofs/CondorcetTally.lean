import Verif.Proofs.CondorcetMatrix
import Mathlib.Data.List.Perm.Subperm
/-!
# Votes and winners of the Condorcet tally
-/

namespace Verif.Condorcet
open Verif Verif.Voting Verif.Spec.Condorcet

/-! ## Rankings -/

theorem checkRanking_spec {n : Nat} {vote seen r : List Nat} (h : checkRanking n seen vote = .ok r)
    (hn : seen.Nodup) (hs : ∀ c ∈ seen, c < n) :
    r = seen ++ vote ∧ r.Nodup ∧ ∀ c ∈ r, c < n := by
  induction vote generalizing seen with
  | nil => simp only [checkRanking, Except.ok.injEq] at h; subst h; simp [hn]; exact hs
  | cons v vs ih =>
    simp only [checkRanking] at h
    split at h
    · cases h
    · split at h
      · cases h
      · rename_i h1 h2
        have := ih h (by rw [List.nodup_append]; simp [hn]; intro a ha hav; subst hav; exact h2 ha)
          (by
            intro c hc
            rcases List.mem_append.1 hc with hc | hc
            · exact hs c hc
            · simp at hc; omega)
        simpa using this

theorem full_of_nodup {n : Nat} {r : List Nat} (hn : r.Nodup) (hl : r.length = n)
    (hs : ∀ c ∈ r, c < n) : ∀ c, c ∈ r ↔ c < n := by
  intro c
  refine ⟨hs c, fun hc => ?_⟩
  have hsub : r ⊆ List.range n := fun a ha => List.mem_range.2 (hs a ha)
  have hp : r.Subperm (List.range n) := hn.subperm hsub
  exact (hp.perm_of_length_le (by simp [hl])).mem_iff.2 (List.mem_range.2 hc)

theorem newVote_spec {vote r : List Nat} {n : Nat} (h : newVote vote n = .ok r) :
    r = vote ∧ IsRanking n vote := by
  unfold newVote at h
  split at h
  · cases h
  · rename_i hl
    obtain ⟨h1, h2, h3⟩ := checkRanking_spec h (by simp) (by simp)
    simp at h1; subst h1
    exact ⟨rfl, h2, full_of_nodup h2 (by omega) h3⟩

theorem checkRanking_total {n : Nat} {vote seen : List Nat} (hn : (seen ++ vote).Nodup)
    (hs : ∀ c ∈ vote, c < n) : checkRanking n seen vote = .ok (seen ++ vote) := by
  induction vote generalizing seen with
  | nil => simp [checkRanking]
  | cons v vs ih =>
    have h1 : ¬ v ≥ n := by have := hs v (by simp); omega
    have h2 : v ∉ seen := by
      intro hv
      rw [List.nodup_append] at hn
      exact hn.2.2 v hv v (by simp) rfl
    simp only [checkRanking, h1, h2, if_false]
    rw [ih (by simpa using hn) (fun c hc => hs c (by simp [hc]))]
    simp

theorem ranking_length {n : Nat} {r : List Nat} (h : IsRanking n r) : r.length = n := by
  have hp : r.Perm (List.range n) := by
    rw [List.perm_ext_iff_of_nodup h.1 List.nodup_range]
    intro a; rw [h.2 a, List.mem_range]
  simpa using hp.length_eq

theorem newVote_total {vote : List Nat} {n : Nat} (h : IsRanking n vote) : newVote vote n = .ok vote := by
  unfold newVote
  rw [if_neg (by simp [ranking_length h])]
  have := checkRanking_total (n := n) (vote := vote) (seen := []) (by simpa using h.1)
    (fun c hc => (h.2 c).1 hc)
  simpa using this

/-! ## Recording a ballot -/

theorem if_or (power : Nat) (A B : Prop) [Decidable A] [Decidable B] (h : ¬ (A ∧ B)) :
    (if A ∨ B then (power : Int) else 0) =
      (if A then (power : Int) else 0) + (if B then (power : Int) else 0) := by
  by_cases hA : A <;> by_cases hB : B <;> simp [hA, hB]
  exact absurd ⟨hA, hB⟩ h

theorem recordDefeats_spec {c power : Nat} {ds : List Nat} {m m' : M} (hm : m.Ok) (hp : power ≠ 0)
    (hc : c < m.n) (hds : ∀ d ∈ ds, d < m.n ∧ d ≠ c) (hnd : ds.Nodup)
    (h : recordDefeats c power ds m = .ok m') :
    m'.Ok ∧ m'.n = m.n ∧
      (∀ p q, p < m.n → q < m.n → p ≠ q → m'.val p q =
        m.val p q - (if p = c ∧ q ∈ ds then (power : Int) else 0)
          + (if q = c ∧ p ∈ ds then (power : Int) else 0)) := by
  induction ds generalizing m with
  | nil => simp only [recordDefeats, Except.ok.injEq] at h; subst h; simp [hm]
  | cons d ds ih =>
    simp only [recordDefeats, bind_ok] at h
    obtain ⟨m1, h1, h2⟩ := h
    obtain ⟨hd1, hd2⟩ := hds d (by simp)
    obtain ⟨o1, n1, v1⟩ := decrement_spec hm (Ne.symm hd2) hc hd1 hp h1
    rw [List.nodup_cons] at hnd
    obtain ⟨o2, n2, v2⟩ := ih o1 (by rw [n1]; exact hc)
      (fun e he => by rw [n1]; exact hds e (by simp [he])) hnd.2 h2
    refine ⟨o2, by rw [n2, n1], fun p q hpn hqn hpq => ?_⟩
    rw [v2 p q (by rw [n1]; exact hpn) (by rw [n1]; exact hqn) hpq, v1 p q hpn hqn hpq]
    have a1 : (p = c ∧ q ∈ d :: ds) ↔ (p = c ∧ q = d) ∨ (p = c ∧ q ∈ ds) := by
      rw [List.mem_cons]; tauto
    have a2 : (q = c ∧ p ∈ d :: ds) ↔ (p = d ∧ q = c) ∨ (q = c ∧ p ∈ ds) := by
      rw [List.mem_cons]; tauto
    have e1 : ¬ ((p = c ∧ q = d) ∧ (p = c ∧ q ∈ ds)) := by
      rintro ⟨⟨_, rfl⟩, _, h⟩; exact hnd.1 h
    have e2 : ¬ ((p = d ∧ q = c) ∧ (q = c ∧ p ∈ ds)) := by
      rintro ⟨⟨rfl, _⟩, _, h⟩; exact hnd.1 h
    simp only [a1, a2, if_or power _ _ e1, if_or power _ _ e2]
    omega

/-- What recording the remaining ranking `rest` after `before` adds to entry `(p, q)`. -/
def delta (power : Nat) (before rest : List Nat) (p q : Nat) : Int :=
  (if q ∈ rest ∧ (p ∈ before ∨ rest.idxOf p < rest.idxOf q) then (power : Int) else 0) -
  (if p ∈ rest ∧ (q ∈ before ∨ rest.idxOf q < rest.idxOf p) then (power : Int) else 0)

theorem recordVote_spec {power : Nat} {before rest : List Nat} {m m' : M} (hm : m.Ok) (hp : power ≠ 0)
    (hr : ∀ c ∈ before ++ rest, c < m.n) (hnd : (before ++ rest).Nodup)
    (h : recordVote power before rest m = .ok m') :
    m'.Ok ∧ m'.n = m.n ∧
      (∀ p q, p < m.n → q < m.n → p ≠ q → m'.val p q = m.val p q + delta power before rest p q) := by
  induction rest generalizing before m with
  | nil => simp only [recordVote, Except.ok.injEq] at h; subst h; simp [hm, delta]
  | cons c rest ih =>
    simp only [recordVote, bind_ok] at h
    obtain ⟨m1, h1, h2⟩ := h
    have hnd' := hnd
    rw [List.nodup_append] at hnd'
    obtain ⟨nb, ncr, hdis⟩ := hnd'
    rw [List.nodup_cons] at ncr
    obtain ⟨o1, n1, v1⟩ := recordDefeats_spec hm hp (hr c (by simp))
      (fun d hd => ⟨hr d (by simp [hd]), fun hdc => hdis d hd c (by simp) hdc⟩) nb h1
    obtain ⟨o2, n2, v2⟩ := ih (before := before ++ [c]) o1
      (fun e he => by rw [n1]; exact hr e (by simpa using he)) (by simpa using hnd) h2
    refine ⟨o2, by rw [n2, n1], fun p q hpn hqn hpq => ?_⟩
    rw [v2 p q (by rw [n1]; exact hpn) (by rw [n1]; exact hqn) hpq, v1 p q hpn hqn hpq]
    have hcb : c ∉ before := fun hc => hdis c hc c (by simp) rfl
    have key : ∀ p q, p ≠ q → ((q ∈ c :: rest ∧ (p ∈ before ∨ (c :: rest).idxOf p < (c :: rest).idxOf q)) ↔
        ((q = c ∧ p ∈ before) ∨ (q ∈ rest ∧ (p ∈ before ++ [c] ∨ rest.idxOf p < rest.idxOf q)))) := by
      intro p q hpq
      by_cases hq : q = c
      · subst hq
        have : ¬ (q ∈ rest) := ncr.1
        simp [this]
      · have hq' : c ≠ q := fun h => hq h.symm
        by_cases hpc : p = c
        · subst hpc
          simp [List.idxOf_cons, hq, hq']
        · have hp' : c ≠ p := fun h => hpc h.symm
          simp [List.idxOf_cons, hq, hpc, hq', hp']
    have excl : ∀ p q, ¬ ((q = c ∧ p ∈ before) ∧
        (q ∈ rest ∧ (p ∈ before ++ [c] ∨ rest.idxOf p < rest.idxOf q))) := by
      rintro p q ⟨⟨rfl, _⟩, h, _⟩; exact ncr.1 h
    have k1 := if_or power _ _ (excl p q)
    have k2 := if_or power _ _ (excl q p)
    unfold delta
    simp only [key p q hpq, key q p (Ne.symm hpq), k1, k2]
    omega

/-- Both loops succeed when the entries they touch have room for one more ballot. -/
theorem recordDefeats_total {c power : Nat} {ds : List Nat} {m : M} (hm : m.Ok) (hp : power ≠ 0)
    (hc : c < m.n) (hds : ∀ d ∈ ds, d < m.n ∧ d ≠ c) (hnd : ds.Nodup)
    (hb : ∀ d ∈ ds, - (U128 : Int) < m.val c d - power) : ∃ m', recordDefeats c power ds m = .ok m' := by
  induction ds generalizing m with
  | nil => exact ⟨m, rfl⟩
  | cons d ds ih =>
    obtain ⟨hd1, hd2⟩ := hds d (by simp)
    obtain ⟨m1, h1⟩ := decrement_m_total hm (Ne.symm hd2) hc hd1 (hb d (by simp))
    obtain ⟨o1, n1, v1⟩ := decrement_spec hm (Ne.symm hd2) hc hd1 hp h1
    rw [List.nodup_cons] at hnd
    obtain ⟨m2, h2⟩ := ih o1 (by rw [n1]; exact hc) (fun e he => by rw [n1]; exact hds e (by simp [he])) hnd.2
      (by
        intro e he
        have hed : e ≠ d := fun h => hnd.1 (h ▸ he)
        obtain ⟨e1, e2⟩ := hds e (by simp [he])
        rw [v1 c e hc e1 (Ne.symm e2)]
        have := hb e (by simp [he])
        have a1 : ¬ (c = c ∧ e = d) := by simp [hed]
        have a2 : ¬ (c = d ∧ e = c) := by rintro ⟨_, h⟩; exact e2 h
        simp only [a1, a2, if_false]; omega)
    exact ⟨m2, by simp only [recordDefeats, h1, ok_bind, h2]⟩

theorem recordVote_total {power : Nat} {before rest : List Nat} {m : M} (hm : m.Ok) (hp : power ≠ 0)
    (hr : ∀ c ∈ before ++ rest, c < m.n) (hnd : (before ++ rest).Nodup)
    (hb : ∀ p ∈ rest, ∀ q ∈ before ++ rest, p ≠ q → - (U128 : Int) < m.val p q - power) :
    ∃ m', recordVote power before rest m = .ok m' := by
  induction rest generalizing before m with
  | nil => exact ⟨m, rfl⟩
  | cons c rest ih =>
    have hnd' := hnd
    rw [List.nodup_append] at hnd'
    obtain ⟨nb, ncr, hdis⟩ := hnd'
    rw [List.nodup_cons] at ncr
    have hds : ∀ d ∈ before, d < m.n ∧ d ≠ c := fun d hd =>
      ⟨hr d (by simp [hd]), fun hdc => hdis d hd c (by simp) hdc⟩
    obtain ⟨m1, h1⟩ := recordDefeats_total hm hp (hr c (by simp)) hds nb
      (fun d hd => hb c (by simp) d (by simp [hd]) (Ne.symm (hds d hd).2))
    obtain ⟨o1, n1, v1⟩ := recordDefeats_spec hm hp (hr c (by simp)) hds nb h1
    obtain ⟨m2, h2⟩ := ih (before := before ++ [c]) o1
      (fun e he => by rw [n1]; exact hr e (by simpa using he)) (by simpa using hnd)
      (by
        intro p hp' q hq hpq
        have hpc : p ≠ c := fun h => ncr.1 (h ▸ hp')
        have hpb : p ∉ before := fun h => hdis p h p (by simp [hp']) rfl
        rw [v1 p q (hr p (by simp [hp'])) (hr q (by simpa using hq)) hpq]
        have := hb p (by simp [hp']) q (by simpa using hq) hpq
        simp only [hpc, hpb, false_and, and_false, if_false]; omega)
    exact ⟨m2, by simp only [recordVote, h1, ok_bind, h2]⟩

/-! ## Ballots and the matrix -/

theorem support_append (a b : List Ballot) (x y : Nat) :
    support (a ++ b) x y = support a x y + support b x y := by
  induction a with
  | nil => simp [support]
  | cons c a ih => simp only [List.cons_append, support, ih]; omega

theorem castPower_append (a b : List Ballot) : castPower (a ++ b) = castPower a + castPower b := by
  induction a with
  | nil => simp [castPower]
  | cons c a ih => simp only [List.cons_append, castPower, ih]; omega

theorem support_le_cast (bs : List Ballot) (x y : Nat) : support bs x y + support bs y x ≤ castPower bs := by
  induction bs with
  | nil => simp [support, castPower]
  | cons b bs ih =>
    simp only [support, castPower, prefers, decide_eq_true_eq]
    split <;> split <;> omega

/-- The matrix holds the margins of the ballots. -/
structure Holds (m : M) (n : Nat) (bs : List Ballot) : Prop where
  ok : m.Ok
  size : m.n = n
  val : ∀ x y, x < n → y < n → x ≠ y → m.val x y = (support bs x y : Int) - support bs y x

theorem delta_eq {n power : Nat} {r : List Nat} (h : IsRanking n r) {p q : Nat} (hp : p < n) (hq : q < n) :
    delta power [] r p q = (support [⟨r, power⟩] p q : Int) - support [⟨r, power⟩] q p := by
  have h1 : p ∈ r := (h.2 p).2 hp
  have h2 : q ∈ r := (h.2 q).2 hq
  simp only [delta, support, prefers, h1, h2, true_and, List.not_mem_nil, false_or, decide_eq_true_eq]
  split <;> split <;> simp

theorem holds_vote {m m' : M} {n power : Nat} {bs : List Ballot} {r : List Nat} (hh : Holds m n bs)
    (hr : IsRanking n r) (hp : power ≠ 0) (h : recordVote power [] r m = .ok m') :
    Holds m' n (bs ++ [⟨r, power⟩]) := by
  obtain ⟨o, e, v⟩ := recordVote_spec hh.ok hp (by intro c hc; rw [hh.size]; exact (hr.2 c).1 (by simpa using hc))
    (by simpa using hr.1) h
  refine ⟨o, by rw [e, hh.size], fun x y hx hy hxy => ?_⟩
  rw [v x y (by rw [hh.size]; exact hx) (by rw [hh.size]; exact hy) hxy, hh.val x y hx hy hxy,
    delta_eq hr hx hy, support_append, support_append]
  omega

/-! ## Statistics -/

/-- What the row loop knows about the rows it has seen. -/
structure ColInv (m : M) (col : Nat) (rows : List Nat) (a : ColStats) : Prop where
  dist0 : a.distance = 0 ↔ ∀ r ∈ rows, r ≠ col → 0 < m.val col r
  margin : ∀ b : Nat, b < U128 → (b ≤ a.minMargin ↔ ∀ r ∈ rows, r ≠ col → 0 < m.val col r → (b : Int) ≤ m.val col r)
  neg : ∀ b : Nat, 0 < b → (a.maxNegative < b ↔ ∀ r ∈ rows, r ≠ col → - m.val col r < b)
  dist : ∀ b : Nat, (∀ r ∈ rows, r ≠ col → - m.val col r < b) →
    a.distance ≤ b * (rows.filter (fun r => decide (r ≠ col))).length

theorem colInv_nil (m : M) (col : Nat) : ColInv m col [] ⟨0, U128 - 1, 0⟩ :=
  ⟨by simp, by intro b hb; simp; omega, by intro b hb; simp; omega, by intro b _; simp⟩

theorem colInv_add {m : M} {col row : Nat} {rows : List Nat} {a : ColStats} {c : Cell}
    (hne : row ≠ col) (hc : cellValue c = m.val col row)
    (hz : c ≠ .positive 0 ∧ c ≠ .negative 0) (h : ColInv m col rows a) :
    ColInv m col (rows ++ [row]) (a.add c) := by
  have hlen : ((rows ++ [row]).filter (fun r => decide (r ≠ col))).length
      = (rows.filter (fun r => decide (r ≠ col))).length + 1 := by
    simp [List.filter_append, hne]
  have split : ∀ (P : Nat → Prop), (∀ r ∈ rows ++ [row], r ≠ col → P r) ↔
      (∀ r ∈ rows, r ≠ col → P r) ∧ P row := by
    intro P
    constructor
    · intro hh; exact ⟨fun r hr => hh r (by simp [hr]), hh row (by simp) hne⟩
    · rintro ⟨h1, h2⟩ r hr hrc
      rcases List.mem_append.1 hr with hr | hr
      · exact h1 r hr hrc
      · simp at hr; subst hr; exact h2
  cases c with
  | positive p =>
    have hp0 : p ≠ 0 := by rintro rfl; exact hz.1 rfl
    simp only [cellValue] at hc
    have hadd : a.add (.positive p) = ⟨a.distance, min p a.minMargin, a.maxNegative⟩ := by
      simp only [ColStats.add, Nat.min_def]
      by_cases hlt : p < a.minMargin
      · rw [if_pos hlt, if_pos (by omega)]
      · rw [if_neg hlt]
        by_cases hle : p ≤ a.minMargin
        · rw [if_pos hle]
          have : p = a.minMargin := by omega
          rw [this]
        · rw [if_neg hle]
    rw [hadd]
    refine ⟨?_, ?_, ?_, ?_⟩
    · rw [split, h.dist0, ← hc]; simp; omega
    · intro b hb
      rw [split (fun r => 0 < m.val col r → (b : Int) ≤ m.val col r), ← h.margin b hb, ← hc]
      simp only [Nat.le_min]; omega
    · intro b hb
      rw [split (fun r => - m.val col r < b), ← h.neg b hb, ← hc]; simp only; omega
    · intro b hb
      rw [split] at hb
      have := h.dist b hb.1
      rw [hlen, Nat.mul_add]; simp only; omega
  | zero =>
    simp only [cellValue] at hc
    simp only [ColStats.add]
    refine ⟨?_, ?_, ?_, ?_⟩
    · rw [split, ← hc]; simp
    · intro b hb
      rw [split (fun r => 0 < m.val col r → (b : Int) ≤ m.val col r), ← h.margin b hb, ← hc]
      simp
    · intro b hb
      rw [split (fun r => - m.val col r < b), ← h.neg b hb, ← hc]; simp only; omega
    · intro b hb
      rw [split] at hb
      have := h.dist b hb.1
      have h2 := hb.2
      rw [← hc] at h2
      rw [hlen, Nat.mul_add]; simp only; omega
  | negative v =>
    have hv0 : v ≠ 0 := by rintro rfl; exact hz.2 rfl
    simp only [cellValue] at hc
    simp only [ColStats.add]
    refine ⟨?_, ?_, ?_, ?_⟩
    · rw [split, ← hc]; simp
    · intro b hb
      rw [split (fun r => 0 < m.val col r → (b : Int) ≤ m.val col r), ← h.margin b hb, ← hc]
      simp only; omega
    · intro b hb
      rw [split (fun r => - m.val col r < b), ← h.neg b hb, ← hc]
      simp only; split <;> omega
    · intro b hb
      rw [split] at hb
      have := h.dist b hb.1
      have h2 := hb.2
      rw [← hc] at h2
      rw [hlen, Nat.mul_add]; simp only; omega

theorem colInv_skip {m : M} {col : Nat} {rows : List Nat} {a : ColStats} (h : ColInv m col rows a) :
    ColInv m col (rows ++ [col]) a := by
  have split : ∀ (P : Nat → Prop), (∀ r ∈ rows ++ [col], r ≠ col → P r) ↔
      (∀ r ∈ rows, r ≠ col → P r) := by
    intro P
    constructor
    · intro hh r hr; exact hh r (by simp [hr])
    · intro h1 r hr hrc
      rcases List.mem_append.1 hr with hr | hr
      · exact h1 r hr hrc
      · simp at hr; exact absurd hr hrc
  refine ⟨by rw [split]; exact h.dist0, ?_, ?_, ?_⟩
  · intro b hb; rw [split (fun r => 0 < m.val col r → (b : Int) ≤ m.val col r)]; exact h.margin b hb
  · intro b hb; rw [split (fun r => - m.val col r < b)]; exact h.neg b hb
  · intro b hb; rw [split] at hb
    have := h.dist b hb
    simpa [List.filter_append] using this

theorem rowLoop_spec {m : M} (hm : m.Ok) {col : Nat} (hc : col < m.n) (rows done : List Nat)
    (hr : ∀ r ∈ rows, r < m.n) {a : ColStats} (h : ColInv m col done a) :
    ∃ a', m.rowLoop col rows a = .ok a' ∧ ColInv m col (done ++ rows) a' := by
  induction rows generalizing done a with
  | nil => exact ⟨a, rfl, by simpa using h⟩
  | cons r rows ih =>
    by_cases hrc : r = col
    · subst hrc
      obtain ⟨a', h1, h2⟩ := ih (done ++ [r]) (fun e he => hr e (by simp [he])) (colInv_skip h)
      exact ⟨a', by simp [M.rowLoop, h1], by simpa using h2⟩
    · obtain ⟨c, h1, h2, h3⟩ := get_ok hm (Ne.symm hrc) hc (hr r (by simp))
      obtain ⟨a', h4, h5⟩ := ih (done ++ [r]) (fun e he => hr e (by simp [he])) (colInv_add hrc h2 h3 h)
      refine ⟨a', ?_, by simpa using h5⟩
      rw [M.rowLoop, if_pos hrc, h1, ok_bind]; exact h4

theorem filter_len {n col : Nat} (h : col < n) :
    ((List.range n).filter (fun r => decide (r ≠ col))).length = n - 1 := by
  induction n with
  | zero => omega
  | succ n ih =>
    rw [List.range_succ, List.filter_append, List.length_append]
    by_cases hc : col = n
    · subst hc
      have : (List.range col).filter (fun r => decide (r ≠ col)) = List.range col := by
        apply List.filter_eq_self.2; intro a ha; simp at ha ⊢; omega
      rw [this]; simp
    · have := ih (by omega)
      rw [this]
      have hn : (n ≠ col) := fun h => hc h.symm
      simp [hn]; omega

/-- Column `col` is positive. -/
def PosCol (m : M) (col : Nat) : Prop := ∀ r, r < m.n → r ≠ col → 0 < m.val col r

/-- Column `col` can become positive with the outstanding power. -/
def CanWin (m : M) (o col : Nat) : Prop := ∀ r, r < m.n → r ≠ col → - m.val col r < o

/-- One column, as the loop sees it. -/
theorem column_spec {m : M} (hm : m.Ok) {col : Nat} (hc : col < m.n) :
    ∃ a, m.rowLoop col (List.range m.n) ⟨0, U128 - 1, 0⟩ = .ok a ∧
      (a.distance = 0 ↔ PosCol m col) ∧
      (∀ b, b < U128 → (b ≤ a.minMargin ↔ ∀ r, r < m.n → r ≠ col → 0 < m.val col r → (b : Int) ≤ m.val col r)) ∧
      (∀ o, ¬ PosCol m col → (winnable a m.n o = true ↔ CanWin m o col)) := by
  obtain ⟨a, h1, hi⟩ := rowLoop_spec hm hc (List.range m.n) [] (fun r hr => List.mem_range.1 hr)
    (colInv_nil m col)
  simp only [List.nil_append] at hi
  refine ⟨a, h1, ?_, ?_, ?_⟩
  · rw [hi.dist0]; simp only [List.mem_range]; rfl
  · intro b hb; rw [hi.margin b hb]; simp only [List.mem_range]
  · intro o hnp
    simp only [winnable, Bool.and_eq_true, decide_eq_true_eq]
    by_cases ho : o = 0
    · subst ho
      constructor
      · rintro ⟨_, h⟩; omega
      · intro hw
        exact absurd (fun r hr hrc => by have := hw r hr hrc; omega) hnp
    · have hn := hi.neg o (by omega)
      simp only [List.mem_range] at hn
      constructor
      · rintro ⟨_, h⟩; exact hn.1 h
      · intro hw
        refine ⟨?_, hn.2 hw⟩
        have := hi.dist o (by intro r hr hrc; exact hw r (List.mem_range.1 hr) hrc)
        rwa [filter_len hc] at this

/-- Candidate `c` leads by more than the outstanding power. -/
def Unassailable (m : M) (o c : Nat) : Prop := ∀ r, r < m.n → r ≠ c → (o : Int) < m.val c r

/-- What the tally reports, in terms of the matrix. -/
def WinnerSpec (m : M) (o : Nat) : Winner → Prop
  | .undisputed c => c < m.n ∧ PosCol m c ∧ Unassailable m o c
  | .some c => c < m.n ∧ PosCol m c ∧ ¬ Unassailable m o c
  | .none => (∀ c, c < m.n → ¬ PosCol m c) ∧ ∃ c, c < m.n ∧ CanWin m o c
  | .never => (∀ c, c < m.n → ¬ PosCol m c) ∧ ∀ c, c < m.n → ¬ CanWin m o c

theorem colLoop_spec {m : M} (hm : m.Ok) (o : Nat) (cols done : List Nat) (hcols : ∀ c ∈ cols, c < m.n)
    (nw : Bool) (hdone : ∀ c ∈ done, ¬ PosCol m c) (hnw : nw = false ↔ ∃ c ∈ done, CanWin m o c) :
    ∃ st, m.colLoop o cols nw = .ok st ∧
      match st with
      | .positiveColumn c mm => c ∈ cols ∧ PosCol m c ∧
          ∀ b, b < U128 → (b ≤ mm ↔ ∀ r, r < m.n → r ≠ c → (b : Int) ≤ m.val c r)
      | .noPositiveColumn nw' => (∀ c ∈ done ++ cols, ¬ PosCol m c) ∧
          (nw' = false ↔ ∃ c ∈ done ++ cols, CanWin m o c) := by
  induction cols generalizing done nw with
  | nil => exact ⟨_, rfl, by simpa using hdone, by simpa using hnw⟩
  | cons col cols ih =>
    obtain ⟨a, h1, h2, h3, h4⟩ := column_spec hm (hcols col (by simp))
    simp only [M.colLoop, h1, ok_bind]
    by_cases hd : a.distance = 0
    · simp only [hd, if_true]
      have hpos := h2.1 hd
      refine ⟨_, rfl, by simp, hpos, ?_⟩
      intro b hb
      rw [h3 b hb]
      constructor
      · intro h r hr hrc; exact h r hr hrc (hpos r hr hrc)
      · intro h r hr hrc _; exact h r hr hrc
    · simp only [hd, if_false]
      have hnp : ¬ PosCol m col := fun h => hd (h2.2 h)
      have hw := h4 o hnp
      obtain ⟨st, e1, e2⟩ := ih (done ++ [col]) (fun c hc => hcols c (by simp [hc]))
        (if winnable a m.n o then false else nw)
        (by
          intro c hc
          rcases List.mem_append.1 hc with hc | hc
          · exact hdone c hc
          · simp at hc; subst hc; exact hnp)
        (by
          constructor
          · intro h
            by_cases hwin : winnable a m.n o = true
            · exact ⟨col, by simp, hw.1 hwin⟩
            · rw [if_neg hwin] at h
              obtain ⟨c, hc, h'⟩ := hnw.1 h
              exact ⟨c, by simp [hc], h'⟩
          · rintro ⟨c, hc, h'⟩
            split
            · rfl
            · rename_i hwin
              rcases List.mem_append.1 hc with hc | hc
              · exact hnw.2 ⟨c, hc, h'⟩
              · simp at hc; subst hc; exact absurd (hw.2 h') hwin)
      refine ⟨st, e1, ?_⟩
      cases st with
      | positiveColumn c mm => exact ⟨by simp [e2.1], e2.2⟩
      | noPositiveColumn b => simpa using e2

theorem computeWinner_spec {m : M} (hm : m.Ok) {o : Nat} (h2 : 2 ≤ m.n)
    (hb : ∀ x y, x < m.n → y < m.n → x ≠ y → m.val x y + o < U128) :
    ∃ w, computeWinner m o = .ok w ∧ WinnerSpec m o w := by
  obtain ⟨st, h1, h3⟩ := colLoop_spec hm o (List.range m.n) [] (fun c hc => List.mem_range.1 hc) true
    (by simp) (by simp)
  simp only [computeWinner, M.stats, h1, ok_bind]
  cases st with
  | positiveColumn c mm =>
    obtain ⟨hc, hp, hmm⟩ := h3
    have hc := List.mem_range.1 hc
    have key : mm > o ↔ Unassailable m o c := by
      have hex : ∃ r, r < m.n ∧ r ≠ c := by
        by_cases h : c = 0
        · exact ⟨1, by omega, by omega⟩
        · exact ⟨0, by omega, by omega⟩
      obtain ⟨r0, hr0, hr0c⟩ := hex
      have a1 := hb c r0 hc hr0 (Ne.symm hr0c)
      have a2 := hp r0 hr0 hr0c
      have := hmm (o + 1) (by omega)
      constructor
      · intro h r hr hrc
        have := this.1 (by omega) r hr hrc
        omega
      · intro h
        have := this.2 (fun r hr hrc => by have := h r hr hrc; omega)
        omega
    simp only
    split
    · rename_i h; exact ⟨_, rfl, hc, hp, key.1 h⟩
    · rename_i h; exact ⟨_, rfl, hc, hp, fun h' => h (key.2 h')⟩
  | noPositiveColumn nw =>
    simp only [List.nil_append, List.mem_range] at h3
    obtain ⟨h4, h5⟩ := h3
    cases nw with
    | true =>
      refine ⟨_, rfl, h4, fun c hc hw => ?_⟩
      have := h5.2 ⟨c, hc, hw⟩
      cases this
    | false => exact ⟨_, rfl, h4, h5.1 rfl⟩

theorem posCol_unique {m : M} {c d : Nat} (hc : c < m.n) (hd : d < m.n) (h1 : PosCol m c) (h2 : PosCol m d) :
    c = d := by
  by_contra hne
  have a := h1 d hd (Ne.symm hne)
  have b := h2 c hc hne
  rw [val_antisymm] at b; omega

/-! ## The tally and its ballots -/

/-- The tally is the one of ballots `bs` in an election of `n` candidates and total power `total`. -/
structure TallyOf (t : Tally) (n total : Nat) (bs : List Ballot) : Prop where
  two : 2 ≤ n
  holds : Holds t.m n bs
  fits : total < U128
  out : t.outstanding + castPower bs = total
  ranks : ∀ b ∈ bs, IsRanking n b.ranking ∧ b.power ≠ 0
  winner : WinnerSpec t.m t.outstanding t.winner

theorem holds_bound {m : M} {n o : Nat} {bs : List Ballot} (h : Holds m n bs)
    (ho : o + castPower bs < U128) :
    ∀ x y, x < m.n → y < m.n → x ≠ y → m.val x y + o < U128 := by
  intro x y hx hy hxy
  rw [h.size] at hx hy
  rw [h.val x y hx hy hxy]
  have := support_le_cast bs x y
  omega

theorem newTally_of {n total sh : Nat} {e : Expiration} {t : Tally} (h2 : 2 ≤ n) (hT : total < U128)
    (h : newTally n total sh e = .ok t) :
    TallyOf t n total [] ∧ t.expiration = e ∧ t.startHeight = sh := by
  simp only [newTally, bind_ok, Except.ok.injEq] at h
  obtain ⟨m, hm, w, hw, rfl⟩ := h
  obtain ⟨o, e1, v⟩ := newM_ok hm
  have hh : Holds m n [] := ⟨o, e1, fun x y _ _ _ => by rw [v]; simp [support]⟩
  obtain ⟨w', h3, h4⟩ := computeWinner_spec o (o := total) (by omega)
    (holds_bound hh (by simp only [castPower]; omega))
  rw [hw] at h3; injection h3 with h3; subst h3
  exact ⟨⟨h2, hh, hT, by simp [castPower], by simp, h4⟩, rfl, rfl⟩

theorem addVote_of {n total power : Nat} {t t' : Tally} {bs : List Ballot} {r : List Nat}
    (ht : TallyOf t n total bs) (hr : IsRanking n r) (hp : power ≠ 0) (h : t.addVote r power = .ok t') :
    TallyOf t' n total (bs ++ [⟨r, power⟩]) ∧ t'.expiration = t.expiration ∧
      t'.startHeight = t.startHeight ∧ power ≤ t.outstanding := by
  simp only [Tally.addVote, bind_ok, sub128_ok, Except.ok.injEq] at h
  obtain ⟨m, hm, o, ⟨hle, rfl⟩, w, hw, rfl⟩ := h
  have hh := holds_vote ht.holds hr hp hm
  have hout := ht.out
  have hc : castPower (bs ++ [⟨r, power⟩]) = castPower bs + power := by
    rw [castPower_append]; simp [castPower]
  have hsz := hh.size
  obtain ⟨w', h3, h4⟩ := computeWinner_spec hh.ok (o := t.outstanding - power)
    (by rw [hsz]; exact ht.two) (holds_bound hh (by rw [hc]; have := ht.fits; omega))
  rw [hw] at h3; injection h3 with h3; subst h3
  refine ⟨⟨ht.two, hh, ht.fits, ?_, ?_, h4⟩, rfl, rfl, hle⟩
  · simp only; rw [hc]; omega
  · intro b hb
    rcases List.mem_append.1 hb with hb | hb
    · exact ht.ranks b hb
    · simp at hb; subst hb; exact ⟨hr, hp⟩

theorem addVote_total {n total power : Nat} {t : Tally} {bs : List Ballot} {r : List Nat}
    (ht : TallyOf t n total bs) (hr : IsRanking n r) (hp : power ≠ 0) (hle : power ≤ t.outstanding) :
    ∃ t', t.addVote r power = .ok t' := by
  have hout := ht.out
  have hfit := ht.fits
  have hsz := ht.holds.size
  obtain ⟨m, hm⟩ := recordVote_total (before := []) (rest := r) ht.holds.ok hp
    (by intro c hc; rw [hsz]; exact (hr.2 c).1 (by simpa using hc)) (by simpa using hr.1)
    (by
      intro p hp' q hq hpq
      rw [ht.holds.val p q ((hr.2 p).1 hp') ((hr.2 q).1 (by simpa using hq)) hpq]
      have := support_le_cast bs p q
      omega)
  have hh := holds_vote ht.holds hr hp hm
  have hc : castPower (bs ++ [⟨r, power⟩]) = castPower bs + power := by
    rw [castPower_append]; simp [castPower]
  obtain ⟨w', h3, _⟩ := computeWinner_spec hh.ok (o := t.outstanding - power)
    (by rw [hh.size]; exact ht.two) (holds_bound hh (by rw [hc]; omega))
  refine ⟨{ t with m := m, outstanding := t.outstanding - power, winner := w' }, ?_⟩
  have hs : sub128 t.outstanding power = .ok (t.outstanding - power) := by
    unfold sub128; rw [if_pos hle]
  simp only [Tally.addVote, hm, ok_bind, hs, h3]

theorem newTally_total {n total sh : Nat} {e : Expiration} (h2 : 2 ≤ n) (hT : total < U128)
    (hn : n * (n - 1) < U32) : ∃ t, newTally n total sh e = .ok t := by
  have hm : ∃ m, newM n = .ok m := by unfold newM; rw [if_pos hn]; exact ⟨_, rfl⟩
  obtain ⟨m, hm⟩ := hm
  obtain ⟨o, e1, v⟩ := newM_ok hm
  have hh : Holds m n [] := ⟨o, e1, fun x y _ _ _ => by rw [v]; simp [support]⟩
  obtain ⟨w', h3, _⟩ := computeWinner_spec o (o := total) (by omega)
    (holds_bound hh (by simp only [castPower]; omega))
  exact ⟨⟨m, e, sh, total, w'⟩, by simp only [newTally, hm, ok_bind, h3]⟩

/-! ## Winners in terms of ballots -/

theorem posCol_iff {m : M} {n c : Nat} {bs : List Ballot} (h : Holds m n bs) (hc : c < n) :
    PosCol m c ↔ CondorcetWinner n bs c := by
  unfold PosCol CondorcetWinner
  rw [h.size]
  constructor
  · intro hp
    refine ⟨hc, fun y hy hyc => ?_⟩
    have := hp y hy hyc
    rw [h.val c y hc hy (Ne.symm hyc)] at this; omega
  · rintro ⟨_, hp⟩ y hy hyc
    rw [h.val c y hc hy (Ne.symm hyc)]
    have := hp y hy hyc; omega

/-- The ballot that ranks `c` first and `y` last exists. -/
theorem ranking_exists {n c y : Nat} (hc : c < n) (hy : y < n) (hne : c ≠ y) :
    ∃ r, IsRanking n r ∧ (∀ x, x < n → x ≠ c → prefers r c x = true) ∧
      (∀ x, x < n → x ≠ y → prefers r x y = true) := by
  let mid := (List.range n).filter (fun x => decide (x ≠ c) && decide (x ≠ y))
  have hmid : ∀ x, x ∈ mid ↔ x < n ∧ x ≠ c ∧ x ≠ y := by
    intro x; simp only [mid, List.mem_filter, List.mem_range, Bool.and_eq_true, decide_eq_true_eq]
  have hmn : mid.Nodup := List.nodup_range.filter _
  have hcm : c ∉ mid := fun h => ((hmid c).1 h).2.1 rfl
  have hym : y ∉ mid := fun h => ((hmid y).1 h).2.2 rfl
  refine ⟨c :: (mid ++ [y]), ⟨?_, ?_⟩, ?_, ?_⟩
  · rw [List.nodup_cons, List.nodup_append]
    refine ⟨by simp [hcm, hne], hmn, by simp, ?_⟩
    intro a ha b hb; simp at hb; subst hb; rintro rfl; exact hym ha
  · intro x
    simp only [List.mem_cons, List.mem_append, hmid, List.not_mem_nil, or_false]
    constructor
    · rintro (rfl | ⟨h, _⟩ | rfl) <;> assumption
    · intro hx
      by_cases h1 : x = c
      · exact Or.inl h1
      · by_cases h2 : x = y
        · exact Or.inr (Or.inr h2)
        · exact Or.inr (Or.inl ⟨hx, h1, h2⟩)
  · intro x _ hxc
    have : c ≠ x := Ne.symm hxc
    simp [prefers, List.idxOf_cons, this]
  · intro x hx hxy
    by_cases h1 : x = c
    · subst h1; simp [prefers, List.idxOf_cons, hne]
    · have h2 : c ≠ x := Ne.symm h1
      have hxm : x ∈ mid := (hmid x).2 ⟨hx, h1, hxy⟩
      have h3 : mid.idxOf x < mid.length := List.idxOf_lt_length_iff.2 hxm
      simp [prefers, List.idxOf_cons, h2, hne, List.idxOf_append, hxm, hym]
      omega

theorem support_extra_le {bs : List Ballot} {x y : Nat} : support bs x y ≤ castPower bs := by
  have := support_le_cast bs x y; omega

/-- Exactly when a lead is out of reach of the outstanding power. -/
theorem unassailable_iff {m : M} {n o c : Nat} {bs : List Ballot} (h : Holds m n bs) (hc : c < n)
    (hp : PosCol m c) :
    Unassailable m o c ↔ ∀ extra, Allowed n o extra → CondorcetWinner n (bs ++ extra) c := by
  constructor
  · intro hu extra hex
    refine ⟨hc, fun y hy hyc => ?_⟩
    have h1 := hu y (by rw [h.size]; exact hy) hyc
    rw [h.val c y hc hy (Ne.symm hyc)] at h1
    rw [support_append, support_append]
    have h2 := support_extra_le (bs := extra) (x := y) (y := c)
    have h3 := hex.2
    omega
  · intro hall r hr hrc
    rw [h.size] at hr
    by_contra hlt
    have hpos := hp r (by rw [h.size]; exact hr) hrc
    obtain ⟨k, hk, hfirst, _⟩ := ranking_exists hr hc hrc
    have hw := hall [⟨k, o⟩] ⟨by simp [hk], by simp [castPower]⟩
    have := hw.2 r hr hrc
    rw [support_append, support_append] at this
    have hrc1 := hfirst c hc (Ne.symm hrc)
    have hrc2 : prefers k c r = false := by
      simp only [prefers, decide_eq_true_eq, decide_eq_false_iff_not] at hrc1 ⊢; omega
    simp only [support, hrc1, hrc2, if_true] at this
    rw [h.val c r hc hr (Ne.symm hrc)] at hlt
    simp at this
    omega

/-- Exactly when the outstanding power can still make `c` the winner. -/
theorem canWin_iff {m : M} {n o c : Nat} {bs : List Ballot} (h : Holds m n bs) (hc : c < n)
    (h2 : 2 ≤ n) (hnp : ¬ PosCol m c) :
    CanWin m o c ↔ ∃ extra, Allowed n o extra ∧ CondorcetWinner n (bs ++ extra) c := by
  constructor
  · intro hw
    have hex : ∃ y, y < n ∧ c ≠ y := by
      by_cases h : c = 0
      · exact ⟨1, by omega, by omega⟩
      · exact ⟨0, by omega, by omega⟩
    obtain ⟨y, hy, hcy⟩ := hex
    obtain ⟨k, hk, hfirst, _⟩ := ranking_exists hc hy hcy
    refine ⟨[⟨k, o⟩], ⟨by simp [hk], by simp [castPower]⟩, hc, fun z hz hzc => ?_⟩
    have h1 := hw z (by rw [h.size]; exact hz) hzc
    rw [h.val c z hc hz (Ne.symm hzc)] at h1
    rw [support_append, support_append]
    have a1 := hfirst z hz hzc
    have a2 : prefers k z c = false := by
      simp only [prefers, decide_eq_true_eq, decide_eq_false_iff_not] at a1 ⊢; omega
    simp only [support, a1, a2, if_true]
    simp
    omega
  · rintro ⟨extra, hex, hw⟩ r hr hrc
    rw [h.size] at hr
    have h1 := hw.2 r hr hrc
    rw [support_append, support_append] at h1
    have h3 := support_extra_le (bs := extra) (x := c) (y := r)
    have h4 := hex.2
    rw [h.val c r hc hr (Ne.symm hrc)]
    omega

end Verif.Condorcet
