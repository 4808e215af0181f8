import Verif.Proofs.StakeTracker
/-!
# C37: the stake tracker reports the tokens staked at every time
-/

namespace Verif.StakeTracker

open Verif.Wormhole Verif.Spec.StakeTracker

theorem secs_mono {a b : Block} (h : a.le b) : secs a ≤ secs b := Nat.div_le_div_right h.2

/-! ## Sums and counts over validators -/

/-- Sum over a list of validators. -/
def total (vs : List Nat) (f : Nat → Nat) : Nat := (vs.map f).sum

theorem total_congr {vs : List Nat} {f g : Nat → Nat} (h : ∀ v ∈ vs, f v = g v) : total vs f = total vs g := by
  unfold total
  rw [List.map_congr_left h]

theorem total_point {vs : List Nat} {f g : Nat → Nat} {v : Nat} (hn : vs.Nodup) (hv : v ∈ vs)
    (h : ∀ w, w ≠ v → f w = g w) : total vs f + g v = total vs g + f v := by
  induction vs with
  | nil => cases hv
  | cons a l ih =>
    rw [List.nodup_cons] at hn
    unfold total
    simp only [List.map_cons, List.sum_cons]
    rcases List.mem_cons.mp hv with rfl | hv
    · have : total l f = total l g := total_congr (fun w hw => h w (fun e => hn.1 (e ▸ hw)))
      unfold total at this
      omega
    · have := ih hn.2 hv
      unfold total at this
      have := h a (fun e => hn.1 (e ▸ hv))
      omega

theorem count_eq (vs : List Nat) (f : Nat → Nat) : count vs f = total vs (fun v => if f v = 0 then 0 else 1) := by
  induction vs with
  | nil => rfl
  | cons a l ih =>
    unfold count total at *
    simp only [List.filter_cons, List.map_cons, List.sum_cons, ← ih]
    by_cases h : f a = 0
    · simp [h]
    · simp only [h, ne_eq, not_false_eq_true, decide_true, if_true, List.length_cons, if_false]
      omega

theorem count_congr {vs : List Nat} {f g : Nat → Nat} (h : ∀ v ∈ vs, f v = g v) : count vs f = count vs g := by
  rw [count_eq, count_eq]
  exact total_congr (fun v hv => by simp only [h v hv])

theorem count_point {vs : List Nat} {f g : Nat → Nat} {v : Nat} (hn : vs.Nodup) (hv : v ∈ vs)
    (h : ∀ w, w ≠ v → f w = g w) :
    count vs f + (if g v = 0 then 0 else 1) = count vs g + (if f v = 0 then 0 else 1) := by
  rw [count_eq, count_eq]
  exact total_point (f := fun v => if f v = 0 then 0 else 1) (g := fun v => if g v = 0 then 0 else 1) hn hv
    (fun w hw => by simp only [h w hw])

/-! ## Amounts -/

theorem wf_empty : WF empty := ⟨AMap.WF_nil, AMap.WF_nil, AMap.WF_nil⟩

theorem wf_step {s s' : State} {b : Block} {call : Call} {o : Unit} (hw : WF s)
    (h : sys.step s b call = .ok (s', o)) : WF s' := by
  change step s b call = _ at h
  cases call <;> simp only [step] at h <;> obtain ⟨s1, h1, h⟩ := (bind_ok _ _ _).mp h <;>
    simp only [Except.ok.injEq, Prod.mk.injEq] at h <;> obtain ⟨rfl, _⟩ := h
  · exact (onDelegate_effect hw h1).1
  · exact (onRedelegate_effect hw h1).1
  · exact (onUndelegate_effect hw h1).1
  · exact (onBondedSlash_effect hw h1).1
  · unfold onUnbondingSlash at h1
    obtain ⟨r, hr, h1⟩ := (bind_ok _ _ _).mp h1
    obtain ⟨r2, hr2, h1⟩ := (bind_ok _ _ _).mp h1
    unfold dangerouslyUpdate at hr hr2
    obtain ⟨u, _, hr⟩ := (bind_ok _ _ _).mp hr
    obtain ⟨u2, _, hr2⟩ := (bind_ok _ _ _).mp hr2
    simp only [Except.ok.injEq] at hr hr2
    rw [← hr, ← hr2] at h1
    unfold cardDangerIf at h1
    split at h1
    · obtain ⟨r3, hr3, h1⟩ := (bind_ok _ _ _).mp h1
      unfold dangerouslyUpdate at hr3
      obtain ⟨u3, _, hr3⟩ := (bind_ok _ _ _).mp hr3
      simp only [Except.ok.injEq] at hr3 h1
      subst hr3
      subst h1
      exact ⟨AMap.WF_set hw.t _ _, AMap.WF_set hw.v _ _, AMap.WF_set hw.c _ _⟩
    · simp only [Except.ok.injEq] at h1
      subst h1
      exact ⟨AMap.WF_set hw.t _ _, AMap.WF_set hw.v _ _, hw.c⟩

theorem wf_reach {s : State} {b : Block} {log : Log} (h : sys.Reach s b log) : WF s := by
  refine Sys.Reach.induct (P := fun s _ _ => WF s) ?_ ?_ h
  · rintro b s rfl; exact wf_empty
  · intro s b log e c o s' _ ih _ hs
    exact wf_step ih hs

/-- One registered event changes the tokens of every validator at every time by what it says, and the total by
the same. -/
theorem amount_step {s s' : State} {b : Block} {call : Call} {o : Unit} (hw : WF s)
    (h : sys.step s b call = .ok (s', o)) (hc : ∀ t v a, call ≠ .unbondingSlash t v a) :
    (∀ v x, (validatorStaked s' x v : Int) = validatorStaked s x v + effect v x b call) ∧
    (∀ x vs, vs.Nodup → (∀ v ∈ names call, v ∈ vs) →
      totalStaked s x = total vs (validatorStaked s x) → totalStaked s' x = total vs (validatorStaked s' x)) := by
  change step s b call = _ at h
  cases call <;> simp only [step] at h <;> obtain ⟨s1, h1, h⟩ := (bind_ok _ _ _).mp h <;>
    simp only [Except.ok.injEq, Prod.mk.injEq] at h <;> obtain ⟨rfl, _⟩ := h
  · rename_i v a _
    obtain ⟨_, e1, e2, _⟩ := onDelegate_effect hw h1
    refine ⟨?_, ?_⟩
    · intro w x
      rw [e2 x w]
      simp only [effect, eq_comm (a := w)]
      split <;> omega
    · intro x vs hn hv ht
      have hp := total_point (f := validatorStaked s1 x) (g := validatorStaked s x) (v := v) hn
        (hv v (by simp [names])) (fun w hw => by rw [e2 x w, if_neg (fun h => hw h.1)])
      have := e2 x v
      have := e1 x
      by_cases hx : secs b ≤ x <;> simp only [hx, and_true, and_false, if_true, if_false] at * <;> omega
  · rename_i src dst a _
    obtain ⟨_, e0, e1, e2, _⟩ := onRedelegate_effect hw h1
    have hpt : ∀ x w, validatorStaked s1 x w + (if w = src ∧ secs b ≤ x then a else 0)
        = validatorStaked s x w + if w = dst ∧ secs b ≤ x then a else 0 := by
      intro x w
      rw [e2 x w]
      have : (if w = src ∧ secs b ≤ x then a else 0) ≤ validatorStaked s x w := by
        split
        · rename_i h; rw [h.1]; exact e0 x h.2
        · omega
      omega
    refine ⟨?_, ?_⟩
    · intro w x
      have := hpt x w
      simp only [effect, eq_comm (a := src), eq_comm (a := dst)]
      by_cases h1 : w = src ∧ secs b ≤ x
      · by_cases h2 : w = dst ∧ secs b ≤ x
        · rw [if_pos h1, if_pos h2] at this ⊢; omega
        · rw [if_pos h1, if_neg h2] at this ⊢; omega
      · by_cases h2 : w = dst ∧ secs b ≤ x
        · rw [if_neg h1, if_pos h2] at this ⊢; omega
        · rw [if_neg h1, if_neg h2] at this ⊢; omega
    · intro x vs hn hv ht
      rw [e1 x, ht]
      have hsum : ∀ l : List Nat, total l (validatorStaked s1 x) + total l (fun w => if w = src ∧ secs b ≤ x then a else 0)
          = total l (validatorStaked s x) + total l (fun w => if w = dst ∧ secs b ≤ x then a else 0) := by
        intro l
        induction l with
        | nil => rfl
        | cons p l ih =>
          have := hpt x p
          unfold total at *
          simp only [List.map_cons, List.sum_cons]
          omega
      have hone : ∀ w, w ∈ vs → total vs (fun q => if q = w ∧ secs b ≤ x then a else 0) = if secs b ≤ x then a else 0 := by
        intro w hw
        have hz : total vs (fun _ => 0) = 0 := by
          unfold total
          clear hn hv ht hw
          induction vs with
          | nil => rfl
          | cons p l ih => simp only [List.map_cons, List.sum_cons, ih]
        have := total_point (f := fun q => if q = w ∧ secs b ≤ x then a else 0) (g := fun _ => 0) (v := w) hn hw
          (fun q hq => by simp [hq])
        rw [hz] at this
        simpa using this
      have := hsum vs
      rw [hone src (hv src (by simp [names])), hone dst (hv dst (by simp [names]))] at this
      omega
  · rename_i v a d _
    obtain ⟨_, e0, e1, e2, _⟩ := onUndelegate_effect hw h1
    refine ⟨?_, ?_⟩
    · intro w x
      rw [e2 x w]
      simp only [effect, eq_comm (a := w)]
      split
      · rename_i h
        have := (e0 x h.2).2
        obtain ⟨rfl, _⟩ := h
        omega
      · omega
    · intro x vs hn hv ht
      have hp := total_point (f := validatorStaked s1 x) (g := validatorStaked s x) (v := v) hn
        (hv v (by simp [names])) (fun w hw => by rw [e2 x w, if_neg (fun h => hw h.1)])
      have := e2 x v
      have := e1 x
      have := e0 x
      by_cases hx : secs b + d ≤ x <;> simp only [hx, and_true, and_false, if_true, if_false, true_implies] at * <;> omega
  · rename_i t v a _
    obtain ⟨_, e0, e1, e2, _⟩ := onBondedSlash_effect hw h1
    refine ⟨?_, ?_⟩
    · intro w x
      rw [e2 x w]
      simp only [effect, eq_comm (a := w)]
      split
      · rename_i h
        have := (e0 x h.2).2
        obtain ⟨rfl, _⟩ := h
        omega
      · omega
    · intro x vs hn hv ht
      have hp := total_point (f := validatorStaked s1 x) (g := validatorStaked s x) (v := v) hn
        (hv v (by simp [names])) (fun w hw => by rw [e2 x w, if_neg (fun h => hw h.1)])
      have := e2 x v
      have := e1 x
      have := e0 x
      by_cases hx : t ≤ x <;> simp only [hx, and_true, and_false, if_true, if_false, true_implies] at * <;> omega
  · rename_i t v a _
    exact absurd rfl (hc t v a)

/-- C37 (amounts, without slashes of unbonding tokens). Whatever was registered, in whatever order of ends of
unbonding periods, the tokens reported for a validator at any time are those delegated and not yet left at that
time. -/
theorem C37_amount_partial {s : State} {b : Block} {log : Log} (h : sys.Reach s b log) (hn : NoUnbondingSlash log)
    (v x : Nat) : (validatorStaked s x v : Int) = amount v x log := by
  revert hn
  refine Sys.Reach.induct (P := fun s _ log => NoUnbondingSlash log → (validatorStaked s x v : Int) = amount v x log)
    ?_ ?_ h
  · rintro b s rfl _; rfl
  · intro s b log e c o s' hr ih _ hs hn
    have hstep := (amount_step (wf_reach hr) hs (fun t v a => hn _ List.mem_cons_self t v a)).1 v x
    rw [hstep, ih (fun e he => hn e (List.mem_cons_of_mem _ he))]
    simp only [amount]
    omega

/-- C37 (total, without slashes of unbonding tokens). At every time the reported total is the sum of the reported
tokens of all validators. -/
theorem C37_total_partial {s : State} {b : Block} {log : Log} (h : sys.Reach s b log) (hn : NoUnbondingSlash log)
    {vs : List Nat} (hv : Covers vs log) (x : Nat) :
    totalStaked s x = (vs.map (validatorStaked s x)).sum := by
  revert hn hv
  refine Sys.Reach.induct (P := fun s _ log => NoUnbondingSlash log → Covers vs log →
    totalStaked s x = total vs (validatorStaked s x)) ?_ ?_ h
  · rintro b s rfl _ _
    have : ∀ l : List Nat, total l (validatorStaked empty x) = 0 := by
      intro l
      induction l with
      | nil => rfl
      | cons p l ih =>
        unfold total at *
        simp only [List.map_cons, List.sum_cons, ih]
        rfl
    rw [this]
    rfl
  · intro s b log e c o s' hr ih _ hs hn hv
    exact (amount_step (wf_reach hr) hs (fun t v a => hn _ List.mem_cons_self t v a)).2 x vs hv.1
      (fun v hm => hv.2 _ List.mem_cons_self v hm)
      (ih (fun e he => hn e (List.mem_cons_of_mem _ he)) ⟨hv.1, fun e he => hv.2 e (List.mem_cons_of_mem _ he)⟩)

/-! ## The number of validators -/

/-- From now on the tokens of a validator can only become fewer unless something new is registered. -/
theorem mono_reach {s : State} {b : Block} {log : Log} (h : sys.Reach s b log) (hn : NoUnbondingSlash log) :
    ∀ v y x, secs b ≤ y → y ≤ x → validatorStaked s x v ≤ validatorStaked s y v := by
  revert hn
  refine Sys.Reach.induct (P := fun s b log => NoUnbondingSlash log →
    ∀ v y x, secs b ≤ y → y ≤ x → validatorStaked s x v ≤ validatorStaked s y v) ?_ ?_ h
  · rintro b s rfl _ v y x _ _; exact Nat.le_refl _
  · intro s b log e c o s' hr ih hb hs hn v y x hy hyx
    simp only [sys, id] at hy hb
    have hstep := (amount_step (wf_reach hr) hs (fun t v a => hn _ List.mem_cons_self t v a)).1 v
    have := secs_mono hb
    have hle := ih (fun e he => hn e (List.mem_cons_of_mem _ he)) v y x (by omega) hyx
    have h1 := hstep y
    have h2 := hstep x
    have heff : effect v x e c ≤ effect v y e c := by
      cases c with
      | delegate w a =>
        simp only [effect]
        have e1 : secs e ≤ y := hy
        have e2 : secs e ≤ x := by omega
        simp only [e1, e2, and_true]
        exact Int.le_refl _
      | redelegate src dst a =>
        simp only [effect]
        have e1 : secs e ≤ y := hy
        have e2 : secs e ≤ x := by omega
        simp only [e1, e2, and_true]
        exact Int.le_refl _
      | undelegate w a d =>
        simp only [effect]
        split <;> split <;> omega
      | bondedSlash t w a =>
        simp only [effect]
        split <;> split <;> omega
      | unbondingSlash t w a => simp [effect]
    omega

theorem not_leaving {s : State} {t v : Nat} (h : ¬ Leaving s t v) :
    validatorStaked s t v = 0 ∨ ∀ x, t ≤ x → validatorStaked s x v ≠ 0 := by
  by_cases hz : validatorStaked s t v = 0
  · exact Or.inl hz
  · exact Or.inr (fun x hx he => h ⟨hz, x, hx, he⟩)

theorem not_pending {s : State} {t v : Nat} (h : ¬ Pending s t v) :
    ∀ x, t ≤ x → validatorStaked s x v = validatorStaked s t v := by
  intro x hx
  by_contra hne
  exact h ⟨x, hx, hne⟩

/-- C37 (count, for regular uses). If every registered event is regular in the sense of the specification, the
reported number of validators is, at every time, the number of validators with tokens. -/
theorem C37_count_partial {s : State} {b : Block} {log : Log} (h : sys.Reach s b log) (hreg : ∀ e ∈ log, Regular e)
    {vs : List Nat} (hv : Covers vs log) (x : Nat) :
    validatorCardinality s x = count vs (validatorStaked s x) := by
  revert hreg hv
  refine Sys.Reach.induct (P := fun s _ log => (∀ e ∈ log, Regular e) → Covers vs log →
    validatorCardinality s x = count vs (validatorStaked s x)) ?_ ?_ h
  · rintro b s rfl _ _
    have : ∀ l : List Nat, count l (validatorStaked empty x) = 0 := by
      intro l
      induction l with
      | nil => rfl
      | cons p l ih =>
        unfold count at *
        simp only [List.filter_cons]
        rw [if_neg (by simp [validatorStaked, empty, load, latest])]
        exact ih
    rw [this]
    rfl
  · intro s b log e c o s' hr ih hb hs hreg hv
    have hn : NoUnbondingSlash log := by
      intro e' he' t v a hc
      have := hreg e' (List.mem_cons_of_mem _ he')
      unfold Regular at this
      rw [hc] at this
      exact this
    have hmono := mono_reach hr hn
    have ih := ih (fun e he => hreg e (List.mem_cons_of_mem _ he)) ⟨hv.1, fun e he => hv.2 e (List.mem_cons_of_mem _ he)⟩
    have hw := wf_reach hr
    have hR := hreg _ List.mem_cons_self
    have hnames := hv.2 _ List.mem_cons_self
    simp only [sys, id] at hb
    have hbt := secs_mono hb
    clear hreg
    change step s e c = _ at hs
    cases c <;> simp only [step] at hs <;> obtain ⟨s1, h1, hs⟩ := (bind_ok _ _ _).mp hs <;>
      simp only [Except.ok.injEq, Prod.mk.injEq] at hs <;> obtain ⟨rfl, _⟩ := hs
    · rename_i v a _
      obtain ⟨_, e1, e2, e3⟩ := onDelegate_effect hw h1
      have hp := count_point (f := validatorStaked s1 x) (g := validatorStaked s x) (v := v) hv.1
        (hnames v (by simp [names])) (fun w hw => by rw [e2 x w, if_neg (fun h => hw h.1)])
      have hx1 := e2 x v
      have hx3 := e3 x
      simp only [Regular] at hR
      by_cases ht : secs e ≤ x
      · simp only [ht, and_true, if_true] at hx1 hx3
        by_cases ha : a = 0
        · subst ha
          simp only [Nat.add_zero, ne_eq, not_true_eq_false, and_false, if_false] at hx1 hx3
          rw [hx1] at hp
          omega
        · rcases hR with hR | hR
          · exact absurd hR ha
          · rcases not_leaving hR with h0 | h0
            · have hxz : validatorStaked s x v = 0 := by
                have := hmono v (secs e) x hbt ht
                omega
              simp only [h0, ha, ne_eq, not_false_eq_true, and_true, if_true] at hx3
              rw [if_neg (show ¬ validatorStaked s1 x v = 0 by omega), if_pos hxz] at hp
              omega
            · have h1' := h0 (secs e) (Nat.le_refl _)
              have h2' := h0 x ht
              simp only [h1', false_and, if_false] at hx3
              rw [if_neg (show ¬ validatorStaked s1 x v = 0 by omega), if_neg h2'] at hp
              omega
      · simp only [ht, and_false, if_false] at hx1 hx3
        rw [hx1] at hp
        omega
    · rename_i src dst a _
      obtain ⟨_, e0, e1, e2, e3⟩ := onRedelegate_effect hw h1
      simp only [Regular] at hR
      obtain ⟨ha, hsrc, hdst⟩ := hR
      have hsrc := not_pending hsrc
      have hx3 := e3 x
      by_cases ht : secs e ≤ x
      · simp only [ht, and_true] at hx3
        by_cases hsd : src = dst
        · subst hsd
          have hsame : ∀ w, validatorStaked s1 x w = validatorStaked s x w := by
            intro w
            rw [e2 x w]
            by_cases hw' : w = src
            · subst hw'
              have := e0 x ht
              simp only [ht, and_self, if_true]
              omega
            · simp [hw']
          rw [count_congr (fun w _ => hsame w), ← ih]
          simp only [if_true] at hx3
          omega
        · have hdst : ¬ Leaving s (secs e) dst := by
            rcases hdst with h | h
            · exact absurd h hsd
            · exact h
          -- first the source loses, then the destination gains
          let g := fun w => if w = src then validatorStaked s x src - a else validatorStaked s x w
          have hp1 := count_point (f := g) (g := validatorStaked s x) (v := src) hv.1
            (hnames src (by simp [names])) (fun w hw => by simp only [g, if_neg hw])
          have hp2 := count_point (f := validatorStaked s1 x) (g := g) (v := dst) hv.1
            (hnames dst (by simp [names])) (fun w hw => by
              simp only [g, e2 x w, hw, false_and, if_false, Nat.add_zero, ht, and_true]
              split
              · rename_i h; rw [h]
              · rfl)
          have hg1 : g src = validatorStaked s x src - a := by simp only [g, if_true]
          have hg2 : g dst = validatorStaked s x dst := by simp only [g, if_neg (Ne.symm hsd)]
          have hd : validatorStaked s1 x dst = validatorStaked s x dst + a := by
            rw [e2 x dst]
            simp only [Ne.symm hsd, false_and, if_false, ht, and_self, if_true]
            omega
          rw [hg1] at hp1
          rw [hg2, hd] at hp2
          have hs0 := hsrc x ht
          have hle := e0 x ht
          simp only [if_neg (Ne.symm hsd), Nat.sub_zero] at hx3
          rw [hs0] at hp1 hle
          have hne : validatorStaked s (secs e) src ≠ 0 := by omega
          rw [if_neg hne] at hp1
          rw [if_neg (show ¬ (validatorStaked s x dst + a = 0) by omega)] at hp2
          rcases not_leaving hdst with h0 | h0
          · have hxz : validatorStaked s x dst = 0 := by
              have := hmono dst (secs e) x hbt ht
              omega
            rw [if_pos hxz] at hp2
            rw [if_pos h0] at hx3
            by_cases hz : validatorStaked s (secs e) src - a = 0
            · simp only [hz, if_true] at hp1 hx3
              omega
            · simp only [hz, if_false] at hp1 hx3
              omega
          · have h2' := h0 x ht
            have h1' := h0 (secs e) (Nat.le_refl _)
            rw [if_neg h2'] at hp2
            rw [if_neg h1'] at hx3
            by_cases hz : validatorStaked s (secs e) src - a = 0
            · simp only [hz, if_true] at hp1 hx3
              omega
            · simp only [hz, if_false] at hp1 hx3
              omega
      · simp only [ht, and_false, if_false] at hx3
        rw [count_congr (g := validatorStaked s x) (fun w _ => by rw [e2 x w]; simp [ht])]
        omega
    · rename_i v a d _
      obtain ⟨_, e0, e1, e2, e3⟩ := onUndelegate_effect hw h1
      have hp := count_point (f := validatorStaked s1 x) (g := validatorStaked s x) (v := v) hv.1
        (hnames v (by simp [names])) (fun w hw => by rw [e2 x w, if_neg (fun h => hw h.1)])
      have hx1 := e2 x v
      have hx3 := e3 x
      simp only [Regular] at hR
      by_cases ht : secs e + d ≤ x
      · simp only [ht, and_true, if_true] at hx1 hx3
        by_cases ha : a = 0
        · subst ha
          simp only [Nat.sub_zero, ne_eq, not_true_eq_false, and_false, if_false] at hx1 hx3
          rw [hx1] at hp
          omega
        · rcases hR with hR | hR
          · exact absurd hR ha
          · have hc := not_pending hR x ht
            have := (e0 x ht).2
            rw [hx1, hc] at hp
            by_cases hz : validatorStaked s (secs e + d) v - a = 0
            · simp only [hz, ha, ne_eq, not_false_eq_true, and_true, if_true] at hx3 hp
              rw [if_neg (by omega)] at hp
              omega
            · simp only [hz, false_and, if_false] at hx3 hp
              rw [if_neg (by omega)] at hp
              omega
      · simp only [ht, and_false, if_false] at hx1 hx3
        rw [hx1] at hp
        omega
    · rename_i t v a _
      obtain ⟨_, e0, e1, e2, e3⟩ := onBondedSlash_effect hw h1
      have hp := count_point (f := validatorStaked s1 x) (g := validatorStaked s x) (v := v) hv.1
        (hnames v (by simp [names])) (fun w hw => by rw [e2 x w, if_neg (fun h => hw h.1)])
      have hx1 := e2 x v
      have hx3 := e3 x
      simp only [Regular] at hR
      by_cases ht : t ≤ x
      · simp only [ht, and_true, if_true] at hx1 hx3
        have := (e0 x ht).2
        rw [hx1, if_neg (show ¬ validatorStaked s x v = 0 by omega)] at hp
        by_cases hz : validatorStaked s x v - a = 0
        · rw [if_pos hz] at hp hx3
          omega
        · rw [if_neg hz] at hp hx3
          omega
      · simp only [ht, and_false, if_false] at hx1 hx3
        rw [hx1] at hp
        omega
    · simp only [Regular] at hR

/-! ## Where the reported numbers are wrong -/

/-- A block `n` seconds after the start. -/
def at_ (n : Nat) : Block := { height := n, time := n * 1000000000 }

/-- What the tracker reports at `x` after a history: total, the tokens of validators 1 and 2, and the count. -/
def report (cs : List (Block × Call)) (x : Nat) : Option (Nat × Nat × Nat × Nat) :=
  match sys.play empty (at_ 0) cs with
  | some (s, _, _) => some (totalStaked s x, validatorStaked s x 1, validatorStaked s x 2, validatorCardinality s x)
  | none => none

/-- A report is one of a reachable tracker. -/
theorem report_reach {cs : List (Block × Call)} {x t v1 v2 n : Nat} (h : report cs x = some (t, v1, v2, n)) :
    ∃ s b log, sys.Reach s b log ∧ totalStaked s x = t ∧ validatorStaked s x 1 = v1 ∧ validatorStaked s x 2 = v2 ∧
      validatorCardinality s x = n := by
  unfold report at h
  cases hp : sys.play empty (at_ 0) cs with
  | none => rw [hp] at h; cases h
  | some r =>
    obtain ⟨s, b, log⟩ := r
    rw [hp] at h
    simp only [Option.some.injEq, Prod.mk.injEq] at h
    obtain ⟨h1, h2, h3, h4⟩ := h
    exact ⟨s, b, log, ⟨at_ 0, empty, rfl, Sys.play_run hp⟩, h1, h2, h3, h4⟩

/-- Finding. All tokens of a validator are unbonding until time 10; at time 1 more is delegated to it. At time 10
the tracker reports 5 tokens with validator 1 and no validators. -/
theorem C37_leaving_witness :
    report [(at_ 0, .delegate 1 10), (at_ 0, .undelegate 1 10 10), (at_ 1, .delegate 1 5)] 10 = some (5, 5, 0, 0) := by
  decide +kernel

/-- Finding. With a redelegation away from a validator some of whose tokens are unbonding, that validator is counted
for ever: nothing is staked with validator 1 at time 10 but two validators are reported. -/
theorem C37_redelegate_witness :
    report [(at_ 0, .delegate 1 10), (at_ 0, .undelegate 1 4 10), (at_ 1, .redelegate 1 2 6)] 10
      = some (6, 0, 6, 2) := by
  decide +kernel

/-- Finding. A redelegation of nothing adds a validator. -/
theorem C37_redelegate_zero_witness :
    report [(at_ 0, .delegate 1 10), (at_ 1, .redelegate 1 2 0)] 1 = some (10, 10, 0, 2) := by
  decide +kernel

/-- Finding. When the unbonding period of the chain becomes shorter, an undelegation may end before an earlier one,
and the validator it empties later is still counted. -/
theorem C37_shorter_period_witness :
    report [(at_ 0, .delegate 1 10), (at_ 0, .undelegate 1 5 20), (at_ 1, .undelegate 1 5 5)] 20
      = some (0, 0, 0, 1) := by
  decide +kernel

/-- Finding. A slash of unbonding tokens of one validator while tokens of another leave earlier: from time 5 the
reported total (15) exceeds the sum over the validators (6 + 5). -/
theorem C37_unbonding_slash_witness :
    report [(at_ 0, .delegate 1 10), (at_ 0, .delegate 2 10), (at_ 0, .undelegate 1 10 10), (at_ 0, .undelegate 2 5 5),
      (at_ 2, .unbondingSlash 2 1 4)] 6 = some (15, 6, 5, 2) := by
  decide +kernel

/-- A regular history for which the theorems above speak: delegations to two validators, an undelegation, a
redelegation, and a slash registered late that empties validator 1 until its tokens came. -/
theorem C37_example :
    [0, 3, 4, 12, 13].map (report [(at_ 0, .delegate 1 10), (at_ 1, .delegate 2 7), (at_ 3, .undelegate 2 7 10),
      (at_ 4, .delegate 1 3), (at_ 5, .bondedSlash 2 1 10)])
      = [some (10, 10, 0, 1), some (7, 0, 7, 1), some (10, 3, 7, 2), some (10, 3, 7, 2), some (3, 3, 0, 1)] := by
  decide +kernel

/-- The hypotheses of the theorems above are met by a history with a delegation, an undelegation and a slash. -/
theorem C37_hypotheses : ∃ s b log, sys.Reach s b log ∧ (∀ e ∈ log, Regular e) ∧ NoUnbondingSlash log ∧
    Covers [1] log ∧ log.length = 3 ∧ validatorStaked s 10 1 = 3 := by
  have h1 : sys.step empty (at_ 0) (.delegate 1 10) =
      .ok (⟨[(((), 0), 10)], [((1, 0), 10)], [(((), 0), 1)]⟩, ()) := by decide +kernel
  have h2 : sys.step ⟨[(((), 0), 10)], [((1, 0), 10)], [(((), 0), 1)]⟩ (at_ 0) (.undelegate 1 4 10) =
      .ok (⟨[(((), 0), 10), (((), 10), 6)], [((1, 0), 10), ((1, 10), 6)], [(((), 0), 1)]⟩, ()) := by decide +kernel
  have h3 : sys.step ⟨[(((), 0), 10), (((), 10), 6)], [((1, 0), 10), ((1, 10), 6)], [(((), 0), 1)]⟩ (at_ 5)
      (.bondedSlash 2 1 3) =
      .ok (⟨[(((), 0), 10), (((), 10), 3), (((), 2), 7)], [((1, 0), 10), ((1, 10), 3), ((1, 2), 7)],
        [(((), 0), 1)]⟩, ()) := by decide +kernel
  have hr : sys.Reach empty (at_ 0) [] := ⟨at_ 0, empty, rfl, .refl⟩
  have r1 := hr.step (Block.le_refl _) h1
  have r2 := r1.step (Block.le_refl _) h2
  have r3 := r2.step (show (sys.block (at_ 0)).le (sys.block (at_ 5)) by
    unfold Block.le; simp only [sys, id]; decide) h3
  refine ⟨_, _, _, r3, ?_, ?_, ?_, rfl, by decide +kernel⟩
  · intro e he
    simp only [List.mem_cons, List.not_mem_nil, or_false] at he
    rcases he with rfl | rfl | rfl
    · simp only [Regular]; decide
    · refine Or.inr ?_
      rintro ⟨x, _, hne⟩
      exact hne (by simp [validatorStaked, load, latest])
    · refine Or.inr ?_
      rintro ⟨hne, _⟩
      exact hne rfl
  · intro e he t v a
    simp only [List.mem_cons, List.not_mem_nil, or_false] at he
    rcases he with rfl | rfl | rfl <;> simp
  · refine ⟨by simp, ?_⟩
    intro e he v hv
    simp only [List.mem_cons, List.not_mem_nil, or_false] at he
    rcases he with rfl | rfl | rfl <;> simpa [names] using hv

end Verif.StakeTracker
