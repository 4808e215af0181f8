import Verif.Proofs.DaoRewardsHistory
/-!
# C45: rewards distributor, funding bounds what is owed and paid
-/

namespace Verif.DaoRewards
open Spec.DaoRewards

variable {w0 w : World} {b0 b b' : Block} {log : List Event}

/-- C45, for histories in which the hook caller announces every change of power of the distribution's voting contract,
the owner never gives the distribution another voting contract, and nothing is handed out at once in a block in which
power has already changed: what was claimed, what was clawed back and what any members, each counted once, could claim
in this or a later block add up to at most what was funded. Missing: the histories of `C45_witness_votes` and
`C45_witness_same_block`, in which the claim is false. -/
theorem C45_bound_partial (h0 : sys.init b0 w0) (hr : sys.Run w0 b0 log w b) (id : Nat) (han : Announced id log)
    (hsv : SameVotes id log) (hca : Calm id log) (hb : b.le b') (hh : b.height < b'.height ∨ b = b')
    (as : List Addr) (has : as.Nodup) :
    claimedTotal id log + clawedTotal id log + (as.map (claimable w b' id)).sum ≤ fundedTotal id log :=
  claimable_bound (di_run h0 hr han hsv hca) (winv_run h0 hr) (ii_run h0 hr) hb hh as has

/-- C45: in such histories the contract can always pay: its balance of a token covers what can be claimed from all the
distributions in it. -/
theorem C45_backed_partial (h0 : sys.init b0 w0) (hr : sys.Run w0 b0 log w b) (t : Token) (ids : List Nat)
    (hids : ids.Nodup) (hall : ∀ id, id ∈ ids ↔ ∃ d, w.c.dists.get id = some d ∧ d.token = t)
    (han : ∀ id ∈ ids, Announced id log) (hsv : ∀ id ∈ ids, SameVotes id log) (hca : ∀ id ∈ ids, Calm id log)
    (hb : b.le b') (hh : b.height < b'.height ∨ b = b') (as : List Addr) (has : as.Nodup) :
    (ids.map (fun id => (as.map (claimable w b' id)).sum)).sum ≤ getD0 w.bal (t, w.me) := by
  have h1 := bal_run h0 hr t ids hids
    (by
      intro id hid d hd
      obtain ⟨d', h1, h2⟩ := (hall id).1 hid
      rw [hd] at h1; cases h1; exact h2)
    (fun id d hd ht => (hall id).2 ⟨d, hd, ht⟩)
  have h2 : (ids.map (fun id => (claimedTotal id log + clawedTotal id log) + (as.map (claimable w b' id)).sum)).sum ≤
      (ids.map (fun id => fundedTotal id log)).sum :=
    mapsum_le (fun id hid => C45_bound_partial h0 hr id (han id hid) (hsv id hid) (hca id hid) hb hh as has)
  rw [mapsum_add] at h2
  omega

/-- C45: in any history at all the balance covers the fundings that were neither claimed nor clawed back. -/
theorem C45_balance (h0 : sys.init b0 w0) (hr : sys.Run w0 b0 log w b) (t : Token) (ids : List Nat)
    (hids : ids.Nodup) (hall : ∀ id, id ∈ ids ↔ ∃ d, w.c.dists.get id = some d ∧ d.token = t) :
    (ids.map (fun id => fundedTotal id log)).sum ≤
      getD0 w.bal (t, w.me) + (ids.map (fun id => claimedTotal id log + clawedTotal id log)).sum :=
  bal_run h0 hr t ids hids
    (by
      intro id hid d hd
      obtain ⟨d', h1, h2⟩ := (hall id).1 hid
      rw [hd] at h1; cases h1; exact h2)
    (fun id d hd ht => (hall id).2 ⟨d, hd, ht⟩)

/-! ### Histories -/

/-- Contract 7 owned by 9; voting contracts 50 (member 1 has one vote) and 51 (member 2 has five votes). -/
def exWorld : World :=
  { c := { ownership := { owner := some 9 }, count := 0, dists := [], pending := []
           accounted := [], hooks := [] }
    me := 7
    bal := [((.native 0, 9), 10000)]
    votes := [(50, { cur := [(1, 1)], start := [], since := 0 }), (51, { cur := [(2, 5)], start := [], since := 0 })]
    now := ⟨10, 0⟩ }

theorem ex_init : sys.init ⟨10, 0⟩ exWorld := by
  refine ⟨rfl, rfl, ?_⟩
  intro a
  have h : ∀ p ∈ exWorld.votes, AMap.WF p.2.cur ∧ AMap.WF p.2.start ∧ p.2.since ≤ 10 := by
    unfold AMap.WF; decide
  unfold World.vote
  rcases hg : exWorld.votes.get a with _ | v
  · exact ⟨List.nodup_nil, List.nodup_nil, Nat.zero_le _⟩
  · exact h (a, v) (AMap.mem_of_get hg)

/-- Ten tokens every ten blocks. -/
def exRate : Rate := .linear 10 (.height 10) true

/-- An example that meets the hypotheses: a distribution is created and funded, power changes and is announced, members
claim, the rate changes, funds are added and clawed back. -/
def exCalls : List (Block × Call) :=
  [(⟨10, 0⟩, .exec 9 [(0, 100)] (.create (.native 0) exRate 50 60 none none)),
   (⟨20, 0⟩, .change 50 [(2, 3)] [60]),
   (⟨40, 0⟩, .exec 1 [] (.claim 1)),
   (⟨45, 0⟩, .exec 9 [(0, 40)] (.fund (some 1))),
   (⟨50, 0⟩, .exec 2 [] (.claim 1)),
   (⟨60, 0⟩, .exec 9 [] (.update 1 (some .immediate) none none none none)),
   (⟨61, 0⟩, .exec 9 [(0, 8)] (.fund none)),
   (⟨62, 0⟩, .exec 9 [] (.update 1 (some (.linear 2 (.height 1) true)) none none none none)),
   (⟨62, 0⟩, .exec 9 [(0, 50)] (.fund none)),
   (⟨64, 0⟩, .exec 9 [] (.withdraw 1))]

def exCheck (id : Nat) (log : List Event) : Bool :=
  log.all (fun e =>
    (match e.call with
      | .change vp _ via =>
        (match e.pre.c.dists.get id with | some d => decide (d.vp = vp → d.hookCaller ∈ via) | none => true)
      | .exec _ _ (.update i _ (some _) _ _ _) => decide (i ≠ id)
      | .exec _ _ (.update i (some .immediate) _ _ _ _) =>
        (match e.pre.c.dists.get id with
          | some d => decide (i = id → (e.pre.vote d.vp).since < e.env.height) | none => true)
      | .exec _ _ (.fund _) =>
        (match e.pre.c.dists.get id with | some d => decide ((e.pre.vote d.vp).since < e.env.height) | none => true)
      | .send .. =>
        (match e.pre.c.dists.get id with | some d => decide ((e.pre.vote d.vp).since < e.env.height) | none => true)
      | .exec _ _ (.create _ _ vp _ _ _) => decide ((e.pre.vote vp).since < e.env.height)
      | _ => true))

theorem exCheck_ok {id : Nat} {log : List Event} (h : exCheck id log = true) :
    Announced id log ∧ SameVotes id log ∧ Calm id log := by
  unfold exCheck at h
  rw [List.all_eq_true] at h
  refine ⟨?_, ?_, ?_⟩
  · intro e he vp diffs via hc d hd hvp
    have := h e he
    simp only [hc, hd, decide_eq_true_eq] at this
    exact this hvp
  · intro e he a coins rate vp hook o dest hc
    have := h e he
    simp [hc] at this
  · intro e he
    have := h e he
    refine ⟨?_, ?_⟩
    · intro d hd ha
      unfold AtOnce at ha
      split at ha
      · rename_i hc
        simp only [hc, hd, decide_eq_true_eq] at this
        exact this
      · rename_i hc
        simp only [hc, hd, decide_eq_true_eq] at this
        exact this
      · rename_i i vp hook o dest hc
        cases vp with
        | none =>
          simp only [hc, hd, decide_eq_true_eq] at this
          exact this ha
        | some x =>
          simp only [hc, decide_eq_true_eq] at this
          exact absurd ha this
      · exact ha.elim
    · intro a coins token vp hook o dest hc _ _
      simp only [hc, decide_eq_true_eq] at this
      exact this

/-- The example meets the hypotheses of `C45_bound_partial`: something was claimed and clawed back and something can
still be claimed. -/
theorem C45_example : ∃ w b log, sys.Run exWorld ⟨10, 0⟩ log w b ∧ Announced 1 log ∧ SameVotes 1 log ∧ Calm 1 log ∧
    fundedTotal 1 log = 198 ∧ claimedTotal 1 log = 37 ∧ clawedTotal 1 log = 46 ∧
    claimable w b 1 1 = 30 ∧ claimable w b 1 2 = 84 ∧ getD0 w.bal (.native 0, 7) = 115 := by
  obtain ⟨w, b, log, hr, hp⟩ := Sys.check_run (M := sys) (s := exWorld) (b := ⟨10, 0⟩) (cs := exCalls)
    (p := fun w b log => exCheck 1 log && decide (fundedTotal 1 log = 198 ∧ claimedTotal 1 log = 37 ∧
      clawedTotal 1 log = 46 ∧ claimable w b 1 1 = 30 ∧ claimable w b 1 2 = 84 ∧ getD0 w.bal (.native 0, 7) = 115))
    (by decide +kernel)
  rw [Bool.and_eq_true, decide_eq_true_eq] at hp
  obtain ⟨h1, h2, h3⟩ := exCheck_ok hp.1
  exact ⟨w, b, log, hr, h1, h2, h3, hp.2⟩

/-- C45 is false when the owner gives a distribution another voting contract: the new members are paid for the whole past.
100 tokens are funded, 500 are claimed, at the expense of another distribution. -/
theorem C45_witness_votes : ∃ w b log, sys.Run exWorld ⟨10, 0⟩ log w b ∧ Announced 1 log ∧ Calm 1 log ∧
    fundedTotal 1 log = 100 ∧ claimedTotal 1 log = 500 ∧
    fundedTotal 2 log = 600 ∧ claimedTotal 2 log = 0 ∧ clawedTotal 2 log = 0 ∧ getD0 w.bal (.native 0, 7) = 200 := by
  obtain ⟨w, b, log, hr, hp⟩ := Sys.check_run (M := sys) (s := exWorld) (b := ⟨10, 0⟩)
    (cs := [(⟨10, 0⟩, .exec 9 [(0, 100)] (.create (.native 0) .immediate 50 60 none none)),
            (⟨10, 0⟩, .exec 9 [(0, 600)] (.create (.native 0) .immediate 50 60 none none)),
            (⟨11, 0⟩, .exec 9 [] (.update 1 none (some 51) none none none)),
            (⟨12, 0⟩, .exec 2 [] (.claim 1))])
    (p := fun w b log => exCheck 1 (log.filter (fun e => !(decide (e.call = .exec 9 [] (.update 1 none (some 51) none none none)))))
      && decide (fundedTotal 1 log = 100 ∧ claimedTotal 1 log = 500 ∧
      fundedTotal 2 log = 600 ∧ claimedTotal 2 log = 0 ∧ clawedTotal 2 log = 0 ∧ getD0 w.bal (.native 0, 7) = 200))
    (by decide +kernel)
  rw [Bool.and_eq_true, decide_eq_true_eq] at hp
  obtain ⟨h1, _, h3⟩ := exCheck_ok hp.1
  refine ⟨w, b, log, hr, ?_, ?_, hp.2⟩
  · intro e he vp diffs via hc
    refine h1 e (List.mem_filter.2 ⟨he, ?_⟩) vp diffs via hc
    rw [hc]; rfl
  · intro e he
    by_cases hu : e.call = .exec 9 [] (.update 1 none (some 51) none none none)
    · refine ⟨?_, ?_⟩
      · intro d _ ha
        unfold AtOnce at ha
        rw [hu] at ha
        exact ha.elim
      · intro a coins token vp hook o dest hc
        rw [hu] at hc
        cases hc
    · exact h3 e (List.mem_filter.2 ⟨he, by simp [hu]⟩)

/-- C45 is false when funds are handed out at once in a block in which power has already changed, although the change
was announced: whoever staked in that block is paid without counting in the total. 100 tokens are funded, 1000 can be
claimed. -/
theorem C45_witness_same_block : ∃ w b log, sys.Run exWorld ⟨10, 0⟩ log w b ∧ Announced 1 log ∧ SameVotes 1 log ∧
    fundedTotal 1 log = 100 ∧ claimable w ⟨13, 0⟩ 1 1 = 100 ∧ claimable w ⟨13, 0⟩ 1 2 = 900 := by
  obtain ⟨w, b, log, hr, hp⟩ := Sys.check_run (M := sys) (s := exWorld) (b := ⟨10, 0⟩)
    (cs := [(⟨10, 0⟩, .exec 9 [] (.create (.native 0) .immediate 50 60 none none)),
            (⟨12, 0⟩, .change 50 [(2, 9)] [60]),
            (⟨12, 0⟩, .exec 9 [(0, 100)] (.fund (some 1)))])
    (p := fun w b log => exCheck 1 (log.filter (fun e => !(decide (e.call = .exec 9 [(0, 100)] (.fund (some 1))))))
      && decide (fundedTotal 1 log = 100 ∧ claimable w ⟨13, 0⟩ 1 1 = 100 ∧ claimable w ⟨13, 0⟩ 1 2 = 900))
    (by decide +kernel)
  rw [Bool.and_eq_true, decide_eq_true_eq] at hp
  obtain ⟨h1, h2, _⟩ := exCheck_ok hp.1
  refine ⟨w, b, log, hr, ?_, ?_, hp.2⟩
  · intro e he vp diffs via hc
    refine h1 e (List.mem_filter.2 ⟨he, ?_⟩) vp diffs via hc
    rw [hc]; rfl
  · intro e he a coins rate vp hook o dest hc
    refine h2 e (List.mem_filter.2 ⟨he, ?_⟩) a coins rate vp hook o dest hc
    rw [hc]; simp

end Verif.DaoRewards
