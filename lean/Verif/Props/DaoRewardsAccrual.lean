import Verif.Proofs.DaoRewardsAccrual
import Verif.Props.DaoRewards
/-!
# C46: rewards distributor, what members accrue and keep
-/

namespace Verif.DaoRewards
open Spec.DaoRewards
open ExternalRewards (SCALE SCALE_pos)

variable {w0 w w1 : World} {b0 b b1 b2 : Block} {log log1 : List Event}

theorem tail_hyps {id : Nat} {e : Event} (h : Announced id (e :: log1 ++ log) ∧ SameVotes id (e :: log1 ++ log) ∧
    Calm id (e :: log1 ++ log)) : Announced id (log1 ++ log) ∧ SameVotes id (log1 ++ log) ∧ Calm id (log1 ++ log) :=
  ⟨fun x hx => h.1 x (List.mem_cons_of_mem _ hx), fun x hx => h.2.1 x (List.mem_cons_of_mem _ hx),
    fun x hx => h.2.2 x (List.mem_cons_of_mem _ hx)⟩

/-- C46, the share: while power does not change and nothing happens to a linear distribution, a member's claimable
amount grows between two blocks by the member's share of what is emitted, `amount` for each whole period that has
passed, to within two tokens of rounding. -/
theorem C46_share (h0 : sys.init b0 w0) (hr : sys.Run w0 b0 log w b) {id : Nat} {a : Addr} (han : Announced id log)
    (hsv : SameVotes id log) (hca : Calm id log) (hb : b.le b1) (hb2 : b1.le b2) {d : Dist} {amount : Nat}
    {dur : Duration} {c : Bool} (hd : w.c.dists.get id = some d) (hrate : d.epoch.rate = .linear amount dur c)
    (hf : (w.vote d.vp).since < b1.height) (hT : 0 < total (w.vote d.vp).cur) (hP : getD0 (w.vote d.vp).cur a < U128)
    (h1 : Shows w b1 id a) (h2 : Shows w b2 id a) :
    claimable w b2 id a ≤ claimable w b1 id a +
      getD0 (w.vote d.vp).cur a * (amount * (ran d b2 / units dur - ran d b1 / units dur)) / total (w.vote d.vp).cur + 2 ∧
    claimable w b1 id a +
      getD0 (w.vote d.vp).cur a * (amount * (ran d b2 / units dur - ran d b1 / units dur)) / total (w.vote d.vp).cur ≤
      claimable w b2 id a + 1 := by
  obtain ⟨k, hk⟩ := di_run h0 hr han hsv hca d hd
  obtain ⟨n1, h1⟩ := h1
  obtain ⟨n2, h2⟩ := h2
  have hs1 := hk.shape.mono (fresh' := True) hb (fun _ => trivial) (Or.inl trivial)
  have hs2 := hs1.mono (fresh' := True) hb2 (fun _ => trivial) (Or.inl trivial)
  obtain ⟨p1, e1⟩ := query_linear hd hs1 hrate hf h1
  obtain ⟨_, e2⟩ := query_linear hd hs2 hrate (Nat.lt_of_lt_of_le hf hb2.1) h2
  have hA : ran d b1 / len dur ≤ ran d b2 / len dur := by
    refine Nat.div_le_div_right ?_
    unfold ran
    have i1 := hb2.1
    have i2 := hb2.2
    split
    · omega
    · rename_i u x _ _
      have : min b1.time x / NANOS ≤ min b2.time x / NANOS := Nat.div_le_div_right (by omega)
      omega
    · exact Nat.le_refl _
  have hPS : getD0 (w.vote d.vp).cur a < SCALE := Nat.lt_of_lt_of_le hP (by decide +kernel)
  have := share_bounds hPS hT SCALE_pos (Nat.mul_le_mul_left amount hA) p1 e1 e2
  rw [units_len, Nat.mul_sub]
  unfold claimable
  rw [h1, h2]
  exact this

/-- C46, what was accrued is kept, for histories as in `C45_bound_partial` in which a continuous distribution that has
run out is not funded again: whatever happens, changes of power, of the rate and withdrawals included, a member that
does not claim can later claim at least as much. Missing: the histories of `C46_witness_revive` and
`C46_witness_votes`, in which this is false. -/
theorem C46_kept_partial (h0 : sys.init b0 w0) (hr : sys.Run w0 b0 log w b) (hr1 : sys.Run w b log1 w1 b1) {id : Nat}
    {a : Addr} (han : Announced id (log1 ++ log)) (hsv : SameVotes id (log1 ++ log)) (hca : Calm id (log1 ++ log))
    (hc : ∀ e ∈ log1, ¬ Claims id a e) (hrv : ∀ e ∈ log1, ¬ Revives id e) (hw : Shows w b id a)
    (hsh : ∀ e ∈ log1, Shows e.pre e.env id a ∧ Shows e.post e.env id a) :
    claimable w b id a ≤ claimable w1 b1 id a := by
  suffices h : Shows w1 b1 id a ∧ claimable w b id a ≤ claimable w1 b1 id a from h.2
  induction hr1 with
  | refl => exact ⟨hw, Nat.le_refl _⟩
  | step hr1 hb hs ih =>
    rename_i s1 s2 bb log1 env call out
    obtain ⟨han', hsv', hca'⟩ := tail_hyps ⟨han, hsv, hca⟩
    obtain ⟨ih1, ih2⟩ := ih han' hsv' hca' (fun e he => hc e (List.mem_cons_of_mem _ he))
      (fun e he => hrv e (List.mem_cons_of_mem _ he)) (fun e he => hsh e (List.mem_cons_of_mem _ he))
    obtain ⟨⟨n1, g1⟩, ⟨n2, g2⟩⟩ := hsh _ (List.mem_cons_self ..)
    refine ⟨⟨n2, g2⟩, ?_⟩
    obtain ⟨n0, g0⟩ := ih1
    have hrr := hr.append hr1
    have hdi := di_run h0 hrr han' hsv' hca'
    have hwi := winv_run h0 hrr
    change Block.le bb env at hb
    obtain ⟨_, _, _, hbb, _⟩ := step_eff id hs
    rw [hwi.now] at hbb
    have k1 := kept_time hdi hwi hb hbb g0 g1
    have k2 := kept_step hdi hb hs (hc _ (List.mem_cons_self ..)) (hsv _ (List.mem_cons_self ..))
      (hrv _ (List.mem_cons_self ..)) g1 g2
    have e0 : claimable s1 bb id a = n0 := by unfold claimable; rw [g0]
    have e2 : claimable s2 env id a = n2 := by unfold claimable; rw [g2]
    change _ ≤ claimable s2 env id a
    rw [e0] at ih2
    rw [e2]
    omega

theorem seg_run (h0 : sys.init b0 w0) (hr : sys.Run w0 b0 log w b) (hr1 : sys.Run w b log1 w1 b1) {id : Nat}
    {a : Addr} (han : Announced id (log1 ++ log)) (hsv : SameVotes id (log1 ++ log)) (hca : Calm id (log1 ++ log))
    (hl : ∀ e ∈ log1, Leaves id a e) {d : Dist} {amount : Nat} {dur : Duration} {c : Bool}
    (hd : w.c.dists.get id = some d) (hrate : d.epoch.rate = .linear amount dur c)
    (hf : (w.vote d.vp).since < b.height) (hT : 0 < total (w.vote d.vp).cur) :
    Seg id a w d amount (len dur) (getD0 (w.vote d.vp).cur a) (total (w.vote d.vp).cur) (OnPeriods id log1) log1.length
      w1 b1 := by
  suffices h : ∀ ex : Prop, (ex → OnPeriods id log1) →
      Seg id a w d amount (len dur) (getD0 (w.vote d.vp).cur a) (total (w.vote d.vp).cur) ex log1.length w1 b1 from
    h _ (fun h => h)
  intro ex hex
  induction hr1 with
  | refl =>
    refine ⟨d, 0, hd, rfl, rfl, rfl, rfl, ?_, Nat.le_refl _, ?_, ?_, Nat.le_refl _, ?_⟩
    · intro b' _; rw [Nat.zero_mul, Nat.zero_add]; exact ⟨Nat.le_refl _, fun _ => rfl⟩
    · rw [Nat.sub_self, Nat.mul_zero]; exact Nat.zero_le _
    · intro _; rw [Nat.mul_zero, Nat.zero_mul]; exact Nat.zero_le _
    · intro E _; exact ⟨Nat.le_refl _, Nat.le_add_right _ _⟩
  | step hr1 hb hs ih =>
    rename_i s1 s2 bb log1 env call out
    obtain ⟨han', hsv', hca'⟩ := tail_hyps ⟨han, hsv, hca⟩
    have hex' : ex → OnPeriods id log1 := fun h e he => hex h e (List.mem_cons_of_mem _ he)
    have hsg := ih han' hsv' hca' (fun e he => hl e (List.mem_cons_of_mem _ he)) hex'
    have hrr := hr.append hr1
    have hdi := di_run h0 hrr han' hsv' hca'
    change Block.le bb env at hb
    have hsg' := hsg
    obtain ⟨d1, M, h1, h2, h3, h4, h5, h6⟩ := hsg'
    obtain ⟨k, hk⟩ := hdi d1 h1
    have hsp := hk.shape.mono (fresh' := True) hb (fun _ => trivial) (Or.inl trivial)
    obtain ⟨o1, o2⟩ := leaves_once hs (hl _ (List.mem_cons_self ..)) h1
    have hle := hr1.block_le
    refine Seg.step h1 hsg hrate hb hsp (Nat.lt_of_lt_of_le hf (Nat.le_trans hle.1 hb.1)) hT ⟨rfl, rfl⟩ o1
      (by rw [← h2]; exact o2) ?_
    intro he hch
    have := hex he _ (List.mem_cons_self ..) hch d1 amount dur c h1 (h4.trans hrate)
    rw [units_len] at this
    exact this

/-- C46, the schedule: while others claim, hooks arrive and power in other contracts changes, a member can never claim
more than if nothing of that had happened, and if rewards are only updated when a whole number of periods has passed,
not less, up to two tokens of rounding for each transaction. Missing: updates within a period lose the part of the
period that has passed, for all members (`C46_witness_updates`). -/
theorem C46_schedule_partial (h0 : sys.init b0 w0) (hr : sys.Run w0 b0 log w b) (hr1 : sys.Run w b log1 w1 b1)
    {id : Nat} {a : Addr} (han : Announced id (log1 ++ log)) (hsv : SameVotes id (log1 ++ log))
    (hca : Calm id (log1 ++ log)) (hl : ∀ e ∈ log1, Leaves id a e) {d : Dist} {amount : Nat} {dur : Duration} {c : Bool}
    (hd : w.c.dists.get id = some d) (hrate : d.epoch.rate = .linear amount dur c)
    (hf : (w.vote d.vp).since < b.height) (hT : 0 < total (w.vote d.vp).cur) (hb : b1.le b2)
    (h1 : Shows w b2 id a) (h2 : Shows w1 b2 id a) :
    claimable w1 b2 id a ≤ claimable w b2 id a ∧
    (OnPeriods id log1 → getD0 (w.vote d.vp).cur a < U128 →
      claimable w b2 id a ≤ claimable w1 b2 id a + 2 * log1.length) := by
  have hseg := seg_run h0 hr hr1 han hsv hca hl hd hrate hf hT
  obtain ⟨d1, M, s1, s2, s3, s4, s5, s6, s7, s8, s9, s10, s11⟩ := hseg
  obtain ⟨k, hk⟩ := di_run h0 hr (fun e he => han e (List.mem_append_right _ he))
    (fun e he => hsv e (List.mem_append_right _ he)) (fun e he => hca e (List.mem_append_right _ he)) d hd
  obtain ⟨k1, hk1⟩ := di_run h0 (hr.append hr1) han hsv hca d1 s1
  obtain ⟨n1, h1⟩ := h1
  obtain ⟨n2, h2⟩ := h2
  have hle : b.le b2 := Block.le_trans hr1.block_le hb
  have hf2 : (w.vote d.vp).since < b2.height := Nat.lt_of_lt_of_le hf hle.1
  have hs1 := hk.shape.mono (fresh' := True) hle (fun _ => trivial) (Or.inl trivial)
  have hs2 := hk1.shape.mono (fresh' := True) hb (fun _ => trivial) (Or.inl trivial)
  obtain ⟨p1, e1⟩ := query_linear hd hs1 hrate hf2 h1
  obtain ⟨p2, e2⟩ := query_linear s1 hs2 (s4.trans hrate) (by rw [s2, s5]; exact hf2) h2
  rw [s2, s3, s5] at p2 e2
  have hlen : 0 < len dur := by
    rcases Nat.eq_zero_or_pos (len dur) with hz | hz
    · exfalso
      obtain ⟨_, r, _, q1, q2, _, _⟩ := queryPending_ok h1
      rw [hd] at q1; cases q1
      have hz' : len dur = 0 := hz
      simp only [World.answers, atHeight_fresh hf2] at q2
      have := (active_linear hs1 hrate q2).1
      omega
    · exact hz
  obtain ⟨r1, r2⟩ := s6 b2 hb
  have hAN : amount * (ran d b2 / len dur) = amount * (M + ran d1 b2 / len dur) ∨
      amount * (M + ran d1 b2 / len dur) ≤ amount * (ran d b2 / len dur) := by
    right
    refine Nat.mul_le_mul_left _ ?_
    have := Nat.div_le_div_right (c := len dur) r1
    rw [Nat.add_comm (M * len dur), Nat.add_mul_div_right _ _ hlen] at this
    omega
  obtain ⟨f1, f2⟩ := seg_bounds (P := getD0 (w.vote d.vp).cur a) (T := total (w.vote d.vp).cur) (S := SCALE)
    (A0 := amount * (ran d b2 / len dur)) (A := amount) (N := ran d1 b2 / len dur) (M := M)
    (E0 := d.epoch.earned + d.hist) (E := d1.epoch.earned + d.hist) (acc0 := accOf w.c id a) (acc := accOf w1.c id a)
    (pend0 := pendOf w.c id a) (pend := pendOf w1.c id a) (n := n1) (n' := n2) (j := log1.length) hT SCALE_pos
    (by omega) hAN (by rw [Nat.add_sub_add_right]; exact s8) p2 s11 e1 e2
  unfold claimable
  rw [h1, h2]
  refine ⟨f1, ?_⟩
  intro hex hP
  refine f2 ?_ (by rw [Nat.add_sub_add_right]; exact s9 hex) (Nat.lt_of_lt_of_le hP (by decide +kernel))
  rw [r2 hex, Nat.add_comm (M * len dur), Nat.add_mul_div_right _ _ hlen, Nat.add_comm M]

/-! ### Histories -/

/-- `Shows`, evaluated. -/
def shown (w : World) (b : Block) (id : Nat) (a : Addr) : Bool :=
  match queryPending w.c b (w.answers b) a id with
  | .ok _ => true
  | .error _ => false

theorem shown_ok {w : World} {b : Block} {id : Nat} {a : Addr} (h : shown w b id a = true) : Shows w b id a := by
  unfold shown at h
  split at h
  · rename_i n hn; exact ⟨n, hn⟩
  · cases h

/-- Ten tokens every ten blocks for the members of voting contract 50, 100 in all. -/
def exStart : List (Block × Call) :=
  [(⟨10, 0⟩, .exec 9 [(0, 100)] (.create (.native 0) exRate 50 60 none none)),
   (⟨20, 0⟩, .change 50 [(2, 3)] [60]),
   (⟨30, 0⟩, .exec 60 [] (.hook [2]))]

/-- Hooks on whole periods and a claim of another member. -/
def exLater : List (Block × Call) :=
  [(⟨40, 0⟩, .exec 60 [] (.hook [1, 2])),
   (⟨40, 0⟩, .exec 60 [] (.hook [1])),
   (⟨40, 0⟩, .exec 2 [] (.claim 1)),
   (⟨41, 0⟩, .change 51 [(2, 1)] [])]

/-- The calls of a history are the ones above. -/
def exLeaves (a : Addr) (e : Event) : Bool :=
  match e.call with
  | .exec _ _ (.hook _) => true
  | .exec s _ (.claim 1) => decide (s ≠ a)
  | .change 51 _ _ => (match e.pre.c.dists.get 1 with | some d => decide (d.vp ≠ 51) | none => true)
  | _ => false

theorem exLeaves_ok {a : Addr} {e : Event} (h : exLeaves a e = true) : Leaves 1 a e := by
  unfold exLeaves at h
  unfold Leaves
  split at h
  · rename_i hc; rw [hc]; trivial
  · rename_i hc
    rw [hc]
    simp only [decide_eq_true_eq] at h
    exact fun hh => h hh.1
  · rename_i hc
    rw [hc]
    intro d hd
    simp only [hd, decide_eq_true_eq] at h
    exact h
  · cases h

/-- An example that meets the hypotheses of `C46_schedule_partial`, with updates on whole periods: the claims of another
member and hooks do not change what member 1 can claim. -/
theorem C46_example_schedule : ∃ w b log w1 b1 log1 d, sys.Run exWorld ⟨10, 0⟩ log w b ∧ sys.Run w b log1 w1 b1 ∧
    Announced 1 (log1 ++ log) ∧ SameVotes 1 (log1 ++ log) ∧ Calm 1 (log1 ++ log) ∧ (∀ e ∈ log1, Leaves 1 1 e) ∧
    w.c.dists.get 1 = some d ∧ d.epoch.rate = .linear 10 (.height 10) true ∧ (w.vote d.vp).since < b.height ∧
    0 < total (w.vote d.vp).cur ∧ OnPeriods 1 log1 ∧ log1.length = 4 ∧
    Shows w ⟨55, 0⟩ 1 1 ∧ Shows w1 ⟨55, 0⟩ 1 1 ∧ claimable w ⟨55, 0⟩ 1 1 = 17 ∧ claimable w1 ⟨55, 0⟩ 1 1 = 17 := by
  obtain ⟨w, b, log, hr, hp⟩ := Sys.check_run (M := sys) (s := exWorld) (b := ⟨10, 0⟩) (cs := exStart)
    (p := fun w b log => exCheck 1 log && (match sys.play w b exLater with
      | some (w1, _, log1) => exCheck 1 log1 && log1.all (exLeaves 1) && decide (log1.length = 4) &&
        (match w.c.dists.get 1 with
          | some d => decide (d.epoch.rate = .linear 10 (.height 10) true ∧ (w.vote d.vp).since < b.height ∧
              0 < total (w.vote d.vp).cur)
          | none => false) &&
        log1.all (fun e => match e.pre.c.dists.get 1 with
          | some d => decide (d.epoch.rate = .linear 10 (.height 10) true ∧ (e.post.c.dists.get 1 ≠ some d → 10 ∣ ran d e.env))
          | none => false) &&
        shown w ⟨55, 0⟩ 1 1 && shown w1 ⟨55, 0⟩ 1 1 && decide (claimable w ⟨55, 0⟩ 1 1 = 17 ∧ claimable w1 ⟨55, 0⟩ 1 1 = 17)
      | none => false))
    (by decide +kernel)
  rw [Bool.and_eq_true] at hp
  obtain ⟨hc, hp⟩ := hp
  split at hp
  case h_2 => cases hp
  rename_i w1 b1 log1 hpl
  have hr1 := Sys.play_run hpl
  simp only [Bool.and_eq_true, decide_eq_true_eq] at hp
  obtain ⟨⟨⟨⟨⟨⟨⟨p1, p2⟩, p3⟩, p4⟩, p5⟩, p6⟩, p7⟩, p8⟩ := hp
  split at p4
  case h_2 => cases p4
  rename_i d hd
  rw [decide_eq_true_eq] at p4
  obtain ⟨a1, a2, a3⟩ := exCheck_ok hc
  obtain ⟨c1, c2, c3⟩ := exCheck_ok p1
  refine ⟨w, b, log, w1, b1, log1, d, hr, hr1, ?_, ?_, ?_, ?_, hd, p4.1, p4.2.1, p4.2.2, ?_, p3, shown_ok p6, shown_ok p7, p8⟩
  · intro e he; rcases List.mem_append.1 he with he | he
    · exact c1 e he
    · exact a1 e he
  · intro e he; rcases List.mem_append.1 he with he | he
    · exact c2 e he
    · exact a2 e he
  · intro e he; rcases List.mem_append.1 he with he | he
    · exact c3 e he
    · exact a3 e he
  · intro e he; exact exLeaves_ok (List.all_eq_true.1 p2 e he)
  · intro e he hch d1 amount dur c hd1 hrate
    have := List.all_eq_true.1 p5 e he
    simp only [hd1, decide_eq_true_eq] at this
    obtain ⟨t1, t2⟩ := this
    rw [hrate] at t1; cases t1
    exact t2 (by rw [← hd1]; exact hch)

/-- An example that meets the hypotheses of `C46_kept_partial`: power changes, the rate changes and funds are withdrawn,
and member 1, who could claim 12, can claim 30 in the end. -/
theorem C46_example_kept : ∃ w b log w1 b1 log1, sys.Run exWorld ⟨10, 0⟩ log w b ∧ sys.Run w b log1 w1 b1 ∧
    Announced 1 (log1 ++ log) ∧ SameVotes 1 (log1 ++ log) ∧ Calm 1 (log1 ++ log) ∧ (∀ e ∈ log1, ¬ Claims 1 1 e) ∧
    (∀ e ∈ log1, ¬ Revives 1 e) ∧ (∀ e ∈ log1, Shows e.pre e.env 1 1 ∧ Shows e.post e.env 1 1) ∧ log1.length = 5 ∧
    Shows w b 1 1 ∧ claimable w b 1 1 = 12 ∧ claimable w1 b1 1 1 = 30 := by
  obtain ⟨w, b, log, hr, hp⟩ := Sys.check_run (M := sys) (s := exWorld) (b := ⟨10, 0⟩) (cs := exStart)
    (p := fun w b log => exCheck 1 log && (match sys.play w b
        [(⟨40, 0⟩, .change 50 [(2, 1)] [60]),
         (⟨50, 0⟩, .exec 9 [] (.update 1 (some (.linear 2 (.height 1) true)) none none none none)),
         (⟨55, 0⟩, .exec 2 [] (.claim 1)),
         (⟨60, 0⟩, .change 50 [(1, 0)] [60]),
         (⟨62, 0⟩, .exec 9 [] (.withdraw 1))] with
      | some (w1, b1, log1) => exCheck 1 log1 &&
        log1.all (fun e => shown e.pre e.env 1 1 && shown e.post e.env 1 1 && (match e.call with
          | .exec s _ (.claim _) => decide (s ≠ 1)
          | .exec _ _ (.fund _) => false
          | .send .. => false
          | _ => true)) && decide (log1.length = 5) && shown w b 1 1 &&
          decide (claimable w b 1 1 = 12 ∧ claimable w1 b1 1 1 = 30)
      | none => false))
    (by decide +kernel)
  rw [Bool.and_eq_true] at hp
  obtain ⟨hc, hp⟩ := hp
  split at hp
  case h_2 => cases hp
  rename_i w1 b1 log1 hpl
  have hr1 := Sys.play_run hpl
  simp only [Bool.and_eq_true, decide_eq_true_eq] at hp
  obtain ⟨⟨⟨⟨p1, p2⟩, p3⟩, p4⟩, p5⟩ := hp
  obtain ⟨a1, a2, a3⟩ := exCheck_ok hc
  obtain ⟨c1, c2, c3⟩ := exCheck_ok p1
  have p2 := List.all_eq_true.1 p2
  refine ⟨w, b, log, w1, b1, log1, hr, hr1, ?_, ?_, ?_, ?_, ?_, ?_, p3, shown_ok p4, p5⟩
  · intro e he; rcases List.mem_append.1 he with he | he
    · exact c1 e he
    · exact a1 e he
  · intro e he; rcases List.mem_append.1 he with he | he
    · exact c2 e he
    · exact a2 e he
  · intro e he; rcases List.mem_append.1 he with he | he
    · exact c3 e he
    · exact a3 e he
  · rintro e he ⟨coins, hcl⟩
    have := p2 e he
    simp [hcl] at this
  · rintro e he ⟨d, amount, dur, _, _, _, hm⟩
    have := p2 e he
    split at hm
    · rename_i hcl; simp [hcl] at this
    · rename_i hcl; simp [hcl] at this
    · exact hm
  · intro e he
    have := p2 e he
    simp only [Bool.and_eq_true] at this
    exact ⟨shown_ok this.1.1, shown_ok this.1.2⟩

/-- How often rewards are updated does matter: two hook messages, each within a period, and member 1, the only member,
loses the 20 tokens of two whole periods. -/
theorem C46_witness_updates : ∃ w b log w1 b1 log1, sys.Run exWorld ⟨10, 0⟩ log w b ∧ sys.Run w b log1 w1 b1 ∧
    (∀ e ∈ log1, ∃ members, e.call = .exec 60 [] (.hook members)) ∧ log1.length = 2 ∧
    claimable w ⟨30, 0⟩ 1 1 = 20 ∧ Shows w1 ⟨30, 0⟩ 1 1 ∧ claimable w1 ⟨30, 0⟩ 1 1 = 0 := by
  obtain ⟨w, b, log, hr, hp⟩ := Sys.check_run (M := sys) (s := exWorld) (b := ⟨10, 0⟩)
    (cs := [(⟨10, 0⟩, .exec 9 [(0, 100)] (.create (.native 0) exRate 50 60 none none))])
    (p := fun w b _ => match sys.play w b
        [(⟨19, 0⟩, .exec 60 [] (.hook [1])), (⟨28, 0⟩, .exec 60 [] (.hook [1]))] with
      | some (w1, _, log1) => log1.all (fun e => decide (e.call = .exec 60 [] (.hook [1]))) && decide (log1.length = 2) &&
          shown w1 ⟨30, 0⟩ 1 1 && decide (claimable w ⟨30, 0⟩ 1 1 = 20 ∧ claimable w1 ⟨30, 0⟩ 1 1 = 0)
      | none => false)
    (by decide +kernel)
  split at hp
  case h_2 => cases hp
  rename_i w1 b1 log1 hpl
  simp only [Bool.and_eq_true, decide_eq_true_eq] at hp
  obtain ⟨⟨⟨p1, p2⟩, p3⟩, p4, p5⟩ := hp
  refine ⟨w, b, log, w1, b1, log1, hr, Sys.play_run hpl, ?_, p2, p4, shown_ok p3, p5⟩
  intro e he
  exact ⟨[1], of_decide_eq_true (List.all_eq_true.1 p1 e he)⟩

/-- What was accrued is not always kept: funding a continuous distribution that has run out, here after its funds were
withdrawn in the middle of a period, takes away the ten tokens member 1 could claim. -/
theorem C46_witness_revive : ∃ w b log w1 b1 log1, sys.Run exWorld ⟨10, 0⟩ log w b ∧ sys.Run w b log1 w1 b1 ∧
    log1.map (fun e => e.call) = [.exec 9 [(0, 1)] (.fund (some 1))] ∧
    claimable w b 1 1 = 10 ∧ Shows w1 b1 1 1 ∧ claimable w1 b1 1 1 = 0 := by
  obtain ⟨w, b, log, hr, hp⟩ := Sys.check_run (M := sys) (s := exWorld) (b := ⟨10, 0⟩)
    (cs := [(⟨10, 0⟩, .exec 9 [(0, 100)] (.create (.native 0) exRate 50 60 none none)),
            (⟨15, 0⟩, .exec 60 [] (.hook [1])), (⟨26, 0⟩, .exec 9 [] (.withdraw 1))])
    (p := fun w b _ => match sys.play w b [(⟨27, 0⟩, .exec 9 [(0, 1)] (.fund (some 1)))] with
      | some (w1, b1, log1) => decide (log1.map (fun e => e.call) = [.exec 9 [(0, 1)] (.fund (some 1))]) &&
          shown w1 b1 1 1 && decide (claimable w b 1 1 = 10 ∧ claimable w1 b1 1 1 = 0)
      | none => false)
    (by decide +kernel)
  split at hp
  case h_2 => cases hp
  rename_i w1 b1 log1 hpl
  simp only [Bool.and_eq_true, decide_eq_true_eq] at hp
  obtain ⟨⟨p1, p2⟩, p3, p4⟩ := hp
  exact ⟨w, b, log, w1, b1, log1, hr, Sys.play_run hpl, p1, p3, shown_ok p2, p4⟩

/-- Nor is it kept when the owner gives the distribution another voting contract. -/
theorem C46_witness_votes : ∃ w b log w1 b1 log1, sys.Run exWorld ⟨10, 0⟩ log w b ∧ sys.Run w b log1 w1 b1 ∧
    log1.map (fun e => e.call) = [.exec 9 [] (.update 1 none (some 51) none none none)] ∧
    claimable w ⟨30, 0⟩ 1 1 = 20 ∧ b1 = ⟨30, 0⟩ ∧ Shows w1 b1 1 1 ∧ claimable w1 b1 1 1 = 0 := by
  obtain ⟨w, b, log, hr, hp⟩ := Sys.check_run (M := sys) (s := exWorld) (b := ⟨10, 0⟩)
    (cs := [(⟨10, 0⟩, .exec 9 [(0, 100)] (.create (.native 0) exRate 50 60 none none))])
    (p := fun w b _ => match sys.play w b [(⟨30, 0⟩, .exec 9 [] (.update 1 none (some 51) none none none))] with
      | some (w1, b1, log1) => decide (log1.map (fun e => e.call) = [.exec 9 [] (.update 1 none (some 51) none none none)]) &&
          shown w1 b1 1 1 && decide (claimable w ⟨30, 0⟩ 1 1 = 20 ∧ b1 = ⟨30, 0⟩ ∧ claimable w1 b1 1 1 = 0)
      | none => false)
    (by decide +kernel)
  split at hp
  case h_2 => cases hp
  rename_i w1 b1 log1 hpl
  simp only [Bool.and_eq_true, decide_eq_true_eq] at hp
  obtain ⟨⟨p1, p2⟩, p3, p4, p5⟩ := hp
  exact ⟨w, b, log, w1, b1, log1, hr, Sys.play_run hpl, p1, p3, p4, shown_ok p2, p5⟩

end Verif.DaoRewards
