import Verif.Proofs.FundedDao
import Verif.Props.WholeDaoMajority
/-!
# C102: the members of a real voting module get their shares of distributed funds
-/

namespace Verif.FundedDao
open Verif Verif.Spec.FundedDao
open Verif.WholeDao (VotingModule run_blocks lawful_bounded)
open Verif.Spec.WholeDao (Lawful)
open Verif.Spec.FundDistributor (fairShare pool thisRound)

variable {S E C O : Type} {V : VotingModule S E C O} {w w' w0 : World S} {b b' b0 : Block} {log log' : List (Event S E C)}

/-- **C102.** The distribution height not being ahead of its time, what a member has received of a token since the last
redistribution is nothing or exactly its share of the pool, and it is the share once the member has claimed the token:
the power the voting module has for the member at the distribution height, over the total power at the height at which
the distributor was created. However anybody stakes, unstakes, claims and moves tokens in between. -/
theorem C102_share (hV : Lawful V) (hi : Init V b0 w0) (hr : (sys V).Run w0 b0 log w b)
    (h0 : w0.dist.c.distHeight ≤ b0.height) (hn : NoneAhead log) (a : Addr) (t : Token) :
    let got := Spec.FundDistributor.received a t (thisRound (distLog V log))
    let share := fairShare (pool t (distLog V log)) (V.power w.vote a w.dist.c.distHeight) (V.total w.vote b0.height)
    (got = 0 ∨ got = share) ∧
      ((∃ e ∈ thisRound (distLog V log), Spec.FundDistributor.claimsFor a t e.call = true) → got = share) := by
  obtain ⟨b1, _, h2⟩ := dist_run hr
  have h3 := FundDistributor.C43_share (dist_init hi) h2 (answers hV hi h0 hr hn) a t
  rw [total_now hV hi hr] at h3
  exact h3

/-- **C102.** From then on nobody can change the power that counts for a member: whatever happens later short of a
redistribution, the voting module gives the same answer for the distribution height. -/
theorem C102_fixed (hV : Lawful V) (hi : Init V b0 w0) (hr : (sys V).Run w0 b0 log w b)
    (h0 : w0.dist.c.distHeight ≤ b0.height) (hn : NoneAhead log) (hr' : (sys V).Run w b log' w' b')
    (hno : NoneAgain log') (a : Addr) :
    w'.dist.c.distHeight = w.dist.c.distHeight ∧
      V.power w'.vote a w'.dist.c.distHeight = V.power w.vote a w.dist.c.distHeight := by
  have h1 := (height_le h0 hr hn).1
  have h2 := vote_later hV hi hr hr' (x := w.dist.c.distHeight)
    (fun e he => Nat.le_trans h1 (run_blocks hr' e he).1)
  have h3 : w'.dist.c.distHeight = w.dist.c.distHeight := by
    clear h2
    induction hr' with
    | refl => rfl
    | @step s1 s2 b3 log2 env call out hr2 hb3 hs ih =>
      rw [← ih (fun e he => hno e (List.mem_cons_of_mem _ he))]
      cases call with
      | dist c =>
        rcases (step_dist_height (dist_effect hs).1).2 with h3 | ⟨q, x, rfl, _⟩
        · exact h3
        · exact absurd rfl (hno _ List.mem_cons_self q x)
      | vote ve c => rw [(vote_effect hs).2.2]
  rw [h3]
  exact ⟨rfl, h2.1 a⟩

/-- The heights at which power counted so far. -/
def Heights (w : World S) (log : List (Event S E C)) (h : Nat) : Prop :=
  h = w.dist.c.distHeight ∨ ∃ e ∈ log, e.pre.dist.c.distHeight = h

theorem within (hV : Lawful V) (hi : Init V b0 w0) (hr : (sys V).Run w0 b0 log w b)
    (h0 : w0.dist.c.distHeight ≤ b0.height) (hn : NoneAhead log)
    (hT : ∀ h, Heights w log h → V.total w.vote h ≤ V.total w.vote b0.height) :
    Spec.FundDistributor.Within (fun h a => V.power w.vote a h) w.dist (distLog V log) := by
  intro h hh as has
  obtain ⟨l, b1, h1, _⟩ := vote_reach hi hr
  have h2 := lawful_bounded hV h1 h as has
  have h3 : w.dist.c.totalPower = V.total w.vote b0.height := by
    rw [(height_le h0 hr hn).2.2]; exact total_now hV hi hr
  rw [h3]
  refine Nat.le_trans h2 (hT h ?_)
  rcases hh with hh | ⟨e, he, hh⟩
  · exact .inl hh
  · obtain ⟨ev, hev, _, h4, _⟩ := mem_distLog he
    exact .inr ⟨ev, hev, by rw [← h4]; exact hh⟩

/-- **C102.** If the members had no more power at the distribution heights than when the distributor was created, then
the payments stay within what was funded, and the contract holds what was funded and is not paid out. -/
theorem C102_solvent (hV : Lawful V) (hi : Init V b0 w0) (hr : (sys V).Run w0 b0 log w b)
    (h0 : w0.dist.c.distHeight ≤ b0.height) (hn : NoneAhead log)
    (hT : ∀ h, Heights w log h → V.total w.vote h ≤ V.total w.vote b0.height) (t : Token) :
    paidOut V t log ≤ funded V t log ∧
      funded V t log - paidOut V t log ≤ getD0 w.dist.ledger (t, w.dist.self) := by
  obtain ⟨b1, _, h2⟩ := dist_run hr
  exact (FundDistributor.C44_solvent (dist_init hi) h2 (answers hV hi h0 hr hn)
    (within hV hi hr h0 hn hT) t).2

/-- **C102.** Under the same condition a claim of everything always goes through once the funding period is over.
(`hroom`: the balance of the claimant with that of the contract does not exceed 128 bits.) -/
theorem C102_claim (hV : Lawful V) (hi : Init V b0 w0) (hr : (sys V).Run w0 b0 log w b)
    (h0 : w0.dist.c.distHeight ≤ b0.height) (hn : NoneAhead log)
    (hT : ∀ h, Heights w log h → V.total w.vote h ≤ V.total w.vote b0.height) {a : Addr} (hb : b.le b')
    (hex : w.dist.c.funding.isExpired b' = true) (ha : a ≠ w.dist.self)
    (hroom : ∀ t, getD0 w.dist.ledger (t, a) + getD0 w.dist.ledger (t, w.dist.self) < U128) :
    ∃ w' o, (sys V).step w b' (.dist (.claimAll a)) = .ok (w', o) := by
  obtain ⟨b1, _, h2⟩ := dist_run hr
  obtain ⟨w', o, hs⟩ := FundDistributor.C43_claim_live (e := distEnv V w.vote b') (a := a) (dist_init hi) h2
    (answers hV hi h0 hr hn) (within hV hi hr h0 hn hT) (fun _ => rfl) hex ha hroom
  have hs : FundDistributor.step w.dist (distEnv V w.vote b') (.claimAll a) = .ok (w', o) := hs
  refine ⟨{ w with dist := w' }, o, ?_⟩
  show step V w b' (.dist (.claimAll a)) = .ok ({ w with dist := w' }, o)
  simp only [step, bind_ok, Except.ok.injEq, Prod.mk.injEq]
  exact ⟨(w', o), hs, rfl, rfl⟩

/-! ## The distribution height is the height of the creation -/

theorem heights_one {h : Nat} (hr : (sys V).Run w0 b0 log w b) (hno : NoneAgain log) (hh : Heights w log h) :
    h = w0.dist.c.distHeight := by
  have key : ∀ {w : World S} {b : Block} {log : List (Event S E C)}, (sys V).Run w0 b0 log w b → NoneAgain log →
      w.dist.c.distHeight = w0.dist.c.distHeight ∧ ∀ e ∈ log, e.pre.dist.c.distHeight = w0.dist.c.distHeight := by
    clear hh hno hr
    intro w b log hr hno
    induction hr with
    | refl => exact ⟨rfl, by simp⟩
    | @step s1 s2 b3 log2 env call out hr2 hb3 hs ih =>
      obtain ⟨i1, i2⟩ := ih (fun e he => hno e (List.mem_cons_of_mem _ he))
      refine ⟨?_, ?_⟩
      · rw [← i1]
        cases call with
        | dist c =>
          rcases (step_dist_height (dist_effect hs).1).2 with h3 | ⟨q, x, rfl, _⟩
          · exact h3
          · exact absurd rfl (hno _ List.mem_cons_self q x)
        | vote ve c => rw [(vote_effect hs).2.2]
      · intro e he
        rcases List.mem_cons.1 he with rfl | he
        · exact i1
        · exact i2 e he
  obtain ⟨h1, h2⟩ := key hr hno
  rcases hh with hh | ⟨e, he, hh⟩
  · rw [hh, h1]
  · rw [← hh, h2 e he]

theorem noneAhead (hno : NoneAgain log) : NoneAhead log := fun e he a h hc => absurd hc (hno e he a h)

theorem takeWhile_all {α : Type} {p : α → Bool} {l : List α} (h : ∀ x ∈ l, p x = true) : l.takeWhile p = l := by
  induction l with
  | nil => rfl
  | cons x l ih =>
    rw [List.takeWhile_cons_of_pos (h x List.mem_cons_self), ih (fun y hy => h y (List.mem_cons_of_mem _ hy))]

theorem round_all (hno : NoneAgain log) : thisRound (distLog V log) = distLog V log := by
  unfold Spec.FundDistributor.thisRound
  refine takeWhile_all ?_
  intro e he
  obtain ⟨ev, hev, hc, _⟩ := mem_distLog he
  cases hcall : e.call with
  | redistribute a h => rw [hcall] at hc; exact absurd hc (hno ev hev a h)
  | _ => rfl

/-- **C102.** A distributor created for the height of its own block, and never told to redistribute: a member gets
nothing before it claims and afterwards exactly the fraction of the funds that its power was of the total when the
distributor was created; payments stay within the funds; and every member can always claim once the funding period is
over. -/
theorem C102_at_creation (hV : Lawful V) (hi : Init V b0 w0) (hr : (sys V).Run w0 b0 log w b)
    (h0 : w0.dist.c.distHeight = b0.height) (hno : NoneAgain log) :
    (∀ a t, (received V a t log = 0 ∨
        received V a t log = fairShare (funded V t log) (V.power w.vote a b0.height) (V.total w.vote b0.height)) ∧
      (Claimed a t log →
        received V a t log = fairShare (funded V t log) (V.power w.vote a b0.height) (V.total w.vote b0.height))) ∧
    (∀ t, paidOut V t log ≤ funded V t log ∧
      funded V t log - paidOut V t log ≤ getD0 w.dist.ledger (t, w.dist.self)) ∧
    ∀ a b', b.le b' → w.dist.c.funding.isExpired b' = true → a ≠ w.dist.self →
      (∀ t, getD0 w.dist.ledger (t, a) + getD0 w.dist.ledger (t, w.dist.self) < U128) →
      ∃ w' o, (sys V).step w b' (.dist (.claimAll a)) = .ok (w', o) := by
  have hle : w0.dist.c.distHeight ≤ b0.height := Nat.le_of_eq h0
  have hn := noneAhead hno
  have hT : ∀ h, Heights w log h → V.total w.vote h ≤ V.total w.vote b0.height := by
    intro h hh
    rw [heights_one hr hno hh, h0]
    exact Nat.le_refl _
  refine ⟨?_, C102_solvent hV hi hr hle hn hT, fun a b' hb hex ha hroom => C102_claim hV hi hr hle hn hT hb hex ha hroom⟩
  intro a t
  obtain ⟨h1, h2⟩ := C102_share hV hi hr hle hn a t
  have hd : w.dist.c.distHeight = b0.height := by rw [heights_one hr hno (.inl rfl), h0]
  have hp : pool t (distLog V log) = funded V t log := by
    unfold Spec.FundDistributor.pool
    rw [round_all hno]
    show _ - (_ - _) = Spec.FundDistributor.funded t (distLog V log)
    omega
  simp only [round_all hno, hp, hd] at h1 h2
  refine ⟨h1, ?_⟩
  rintro ⟨e, he, c, hc, hcl⟩
  exact h2 ⟨_, distLog_mem he hc, hcl⟩

/-! ## Nothing is left over -/

theorem sum_one (q : Addr) (n : Nat) : ∀ L : List Addr, L.Nodup →
    (L.map (fun a => if q = a then n else 0)).sum ≤ n := by
  intro L
  induction L with
  | nil => simp
  | cons a L ih =>
    intro hL
    rw [List.nodup_cons] at hL
    simp only [List.map_cons, List.sum_cons]
    by_cases h : q = a
    · have hz : (L.map (fun a => if q = a then n else 0)).sum = 0 := by
        have : L.map (fun a => if q = a then n else 0) = L.map (fun _ => 0) := by
          refine List.map_congr_left fun x hx => ?_
          rw [if_neg]
          intro hqx
          exact hL.1 (by rw [← h, hqx]; exact hx)
        rw [this]
        clear this ih hL
        induction L with
        | nil => rfl
        | cons _ _ ih => simp [ih]
      rw [if_pos h, hz]
      exact Nat.le_refl _
    · rw [if_neg h, Nat.zero_add]
      exact ih hL.2

theorem sum_add (f g : Addr → Nat) (L : List Addr) :
    (L.map (fun a => f a + g a)).sum = (L.map f).sum + (L.map g).sum := by
  induction L with
  | nil => rfl
  | cons a L ih => simp only [List.map_cons, List.sum_cons, ih]; omega

theorem sum_payTo (t : Token) (L : List Addr) (hL : L.Nodup) (ps : List Pay) :
    (L.map (fun a => payTo a t ps)).sum ≤ payOf t ps := by
  induction ps with
  | nil =>
    have h := sum_one 0 0 L hL
    simp only [ite_self] at h
    exact h
  | cons p ps ih =>
    have e : ∀ a, payTo a t (p :: ps) = (if p.to = a then (if p.token = t then p.amount else 0) else 0) + payTo a t ps := by
      intro a
      unfold payTo
      simp only [List.map_cons, List.sum_cons]
      by_cases h1 : p.to = a <;> by_cases h2 : p.token = t <;> simp [h1, h2]
    have e2 : payOf t (p :: ps) = (if p.token = t then p.amount else 0) + payOf t ps := by
      unfold payOf; simp only [List.map_cons, List.sum_cons]
    simp only [e]
    rw [sum_add, e2]
    exact Nat.add_le_add (sum_one _ _ L hL) ih

theorem sum_received (t : Token) (L : List Addr) (hL : L.Nodup) (l : Spec.FundDistributor.Log) :
    (L.map (fun a => Spec.FundDistributor.received a t l)).sum ≤ Spec.FundDistributor.paidOut t l := by
  induction l with
  | nil =>
    have h := sum_one 0 0 L hL
    simp only [ite_self] at h
    exact h
  | cons e l ih =>
    have e1 : ∀ a, Spec.FundDistributor.received a t (e :: l) = payTo a t e.out + Spec.FundDistributor.received a t l := by
      intro a; unfold Spec.FundDistributor.received; simp only [List.map_cons, List.sum_cons]
    have e2 : Spec.FundDistributor.paidOut t (e :: l) = payOf t e.out + Spec.FundDistributor.paidOut t l := by
      unfold Spec.FundDistributor.paidOut; simp only [List.map_cons, List.sum_cons]
    simp only [e1]
    rw [sum_add, e2]
    exact Nat.add_le_add (sum_payTo t L hL _) ih

/-- **C102.** Nothing stays behind: if then everybody with power has claimed the token, what is left of the funds is no
more than the rounding, two tokens and a `10^18`-th of the funds for every member. -/
theorem C102_exhausts (hV : Lawful V) (hi : Init V b0 w0) (hr : (sys V).Run w0 b0 log w b)
    (h0 : w0.dist.c.distHeight = b0.height) (hno : NoneAgain log) {t : Token} {L : List Addr} (hL : L.Nodup)
    (hall : ∀ a, V.power w.vote a b0.height ≠ 0 → a ∈ L) (hcl : ∀ a ∈ L, Claimed a t log) :
    funded V t log ≤ paidOut V t log + L.length * (2 + funded V t log / 10 ^ 18) := by
  have hshare := (C102_at_creation hV hi hr h0 hno).1
  have hT0 : V.total w.vote b0.height ≠ 0 := by
    rw [← total_now hV hi hr, (total_init hi).1]; exact (total_init hi).2
  obtain ⟨l, b1, h1, _⟩ := vote_reach hi hr
  obtain ⟨M, hM, hM0, hsum⟩ := hV.sums h1 b0.height
  have hle : V.total w.vote b0.height ≤ (L.map (fun a => V.power w.vote a b0.height)).sum := by
    rw [hsum]
    have hf : ∀ N : List Addr, (N.map (fun a => V.power w.vote a b0.height)).sum =
        ((N.filter (fun a => decide (V.power w.vote a b0.height ≠ 0))).map (fun a => V.power w.vote a b0.height)).sum := by
      intro N
      induction N with
      | nil => rfl
      | cons a N ih =>
        by_cases hz : V.power w.vote a b0.height = 0
        · simp only [List.map_cons, List.sum_cons, hz, Nat.zero_add, ih]
          rw [List.filter_cons_of_neg (by simp [hz])]
        · rw [List.filter_cons_of_pos (by simp [hz])]
          simp only [List.map_cons, List.sum_cons, ih]
    rw [hf M]
    refine WholeDao.sum_sub _ _ _ (hM.filter _) hL ?_
    intro a ha
    exact hall a (of_decide_eq_true (List.mem_filter.1 ha).2)
  generalize hF : funded V t log = F at *
  have key : ∀ N : List Addr, (∀ a ∈ N, Claimed a t log) →
      F * (N.map (fun a => V.power w.vote a b0.height)).sum ≤
        ((N.map (fun a => received V a t log)).sum + N.length * (2 + F / 10 ^ 18)) * V.total w.vote b0.height := by
    intro N
    induction N with
    | nil => simp
    | cons a N ih =>
      intro hN
      have h2 := ih (fun x hx => hN x (List.mem_cons_of_mem _ hx))
      have h3 := (hshare a t).2 (hN a List.mem_cons_self)
      have h4 := (FundDistributor.C43_fair F (V.power w.vote a b0.height) _ hT0).2
      rw [hF] at h3
      rw [← h3] at h4
      simp only [List.map_cons, List.sum_cons, List.length_cons]
      generalize F / 10 ^ 18 = r at *
      generalize received V a t log = x at *
      generalize (N.map (fun a => received V a t log)).sum = y at *
      generalize (N.map (fun a => V.power w.vote a b0.height)).sum = z at *
      generalize V.power w.vote a b0.height = p at *
      generalize V.total w.vote b0.height = T at *
      calc F * (p + z) = F * p + F * z := Nat.mul_add _ _ _
        _ ≤ (x + 1 + (r + 1)) * T + (y + N.length * (2 + r)) * T := Nat.add_le_add h4 h2
        _ = ((x + 1 + (r + 1)) + (y + N.length * (2 + r))) * T := (Nat.add_mul _ _ _).symm
        _ = (x + y + (N.length + 1) * (2 + r)) * T := by
            congr 1
            rw [Nat.add_mul N.length 1, Nat.one_mul]
            omega
  have h5 := key L hcl
  have h6 : F * V.total w.vote b0.height ≤ F * (L.map (fun a => V.power w.vote a b0.height)).sum :=
    Nat.mul_le_mul_left _ hle
  have h7 := Nat.le_of_mul_le_mul_right (Nat.le_trans h6 h5) (Nat.pos_of_ne_zero hT0)
  have h8 : (L.map (fun a => received V a t log)).sum ≤ paidOut V t log := sum_received t L hL (distLog V log)
  omega

end Verif.FundedDao
