import Verif.Props.RewardedDaoModules
/-!
# C86: a distributor for the stakers of dao-voting-token-staked
-/

namespace Verif.RewardedDao
open Verif Verif.WholeDao Verif.Spec.WholeDao Verif.Spec.RewardedDao
open Verif.Spec.DaoRewards (Announced SameVotes fundedTotal claimedTotal clawedTotal)

namespace Ex

abbrev TEvent := Event TokenStaked.World Block TokenStaked.Call

/-- A new staking module of the DAO 9, members 1 and 2 with tokens, and a new distributor 7 of the DAO. -/
def world : World TokenStaked.World :=
  { rew := { c := { ownership := { owner := some 9 }, count := 0, dists := [], pending := [], accounted := [], hooks := [] }
             me := 7, bal := [((.native 0, 9), 10000)], votes := [], now := ⟨10, 0⟩ }
    vote := ⟨match TokenStaked.instantiate 9 none none with
      | .ok c => c
      | .error _ => ⟨0, none, Snap.empty, Snap.empty, [], none, none⟩, 50, [(1, 100), (2, 100)]⟩
    vp := 50
    caller := 50 }

theorem world_init : Init tokenStaked ⟨10, 0⟩ world := by
  refine ⟨⟨rfl, rfl, ?_⟩, ⟨⟨10, 0⟩, [], ⟨⟨10, 0⟩, _, ⟨9, none, none, by decide +kernel, .existing (by decide +kernel), by decide +kernel⟩, .refl⟩,
    Block.le_refl _⟩, by decide⟩
  intro a
  exact ⟨List.nodup_nil, List.nodup_nil, Nat.zero_le _⟩

/-- Calls of the distributor that may hand out funds at once. -/
def mayHand : DaoRewards.Call → Bool
  | .exec _ _ (.fund _) => true
  | .exec _ _ (.create ..) => true
  | .exec _ _ (.update ..) => true
  | .send .. => true
  | _ => false

/-- A call that changes the powers in another voting contract, or gives a distribution another one. -/
def outside (vp : Addr) : DaoRewards.Call → Bool
  | .change .. => true
  | .exec _ _ (.update _ _ (some _) ..) => true
  | .exec _ _ (.create _ _ x ..) => decide (x ≠ vp)
  | _ => false

def callOk (b0 : Block) (id : Nat) (e : TEvent) (before : List TEvent) : DaoRewards.Call → Bool
  | c => !outside e.pre.vp c && (!mayHand c || (decide (b0.height < e.env.height) &&
      before.all (fun x => !isVote x.call || decide (x.env.height < e.env.height)) &&
      (match e.pre.rew.c.dists.get id with | some d => decide (d.vp = e.pre.vp) | none => true)))

def voteOk (id : Nat) (e : TEvent) : Bool :=
  match e.pre.rew.c.dists.get id with
  | some d => decide (d.hookCaller = e.pre.caller) && decide (e.pre.rew.me ∈ tokenStaked.listeners e.pre.vote)
  | none => true

/-- The tests of the examples, as a program. -/
def regularB (b0 : Block) (id : Nat) : List TEvent → Bool
  | [] => true
  | e :: before => (match e.call with
      | .rewards c => callOk b0 id e before c
      | .vote _ _ => voteOk id e) && regularB b0 id before

theorem regular_ok {b0 : Block} {id : Nat} {log : List TEvent} (h : regularB b0 id log = true) :
    Regular tokenStaked b0 id log := by
  induction log with
  | nil =>
    exact ⟨fun e he => absurd he List.not_mem_nil, fun e he => absurd he List.not_mem_nil,
      fun e he => absurd he List.not_mem_nil, trivial⟩
  | cons e before ih =>
    simp only [regularB, Bool.and_eq_true] at h
    obtain ⟨h1, h2⟩ := h
    obtain ⟨i1, i2, i3, i4⟩ := ih h2
    cases hc : e.call with
    | rewards c =>
      simp only [hc, callOk, Bool.and_eq_true, Bool.not_eq_true', Bool.or_eq_true] at h1
      obtain ⟨ho, hm⟩ := h1
      have hl : rewardsLog (e :: before) = ⟨e.pre.rew, e.env, c, e.out, e.post.rew⟩ :: rewardsLog before := by
        simp only [rewardsLog, hc]
      refine ⟨?_, ?_, ?_, ?_, i4⟩
      · intro x hx hv
        rcases List.mem_cons.1 hx with rfl | hx
        · rw [hc] at hv; cases hv
        · exact i1 x hx hv
      · rw [hl]
        intro x hx vp diffs via hcall
        rcases List.mem_cons.1 hx with rfl | hx
        · rw [show c = _ from hcall] at ho; cases ho
        · exact i2 x hx vp diffs via hcall
      · rw [hl]
        intro x hx a coins rate vp hook o dest hcall
        rcases List.mem_cons.1 hx with rfl | hx
        · rw [show c = _ from hcall] at ho; cases ho
        · exact i3 x hx a coins rate vp hook o dest hcall
      · intro c' vp hc' hh
        rw [hc] at hc'; cases hc'
        have hmay : mayHand c = true ∧ vp = e.pre.vp := by
          cases hh with
          | funds hd hat =>
            have hmay : mayHand c = true := by
              unfold Spec.DaoRewards.AtOnce at hat
              revert hat
              dsimp only
              cases c with
              | exec a coins m => cases m <;> first | (intro _; rfl) | (intro h; exact h.elim)
              | send => intro _; rfl
              | change => intro h; exact h.elim
              | transfer => intro h; exact h.elim
            refine ⟨hmay, ?_⟩
            rcases hm with hm | hm
            · rw [hmay] at hm; cases hm
            · have := hm.2
              rw [show e.pre.rew.c.dists.get id = _ from hd] at this
              exact of_decide_eq_true this
          | creates hcall hid hcoins =>
            rw [show c = _ from hcall] at ho ⊢
            refine ⟨rfl, ?_⟩
            simpa [outside] using ho
        rcases hm with hm | hm
        · rw [hmay.1] at hm; cases hm
        · refine ⟨fun _ => ⟨of_decide_eq_true hm.1.1, ?_⟩, fun hne => absurd hmay.2 hne⟩
          intro x hx hv
          have := List.all_eq_true.1 hm.1.2 x hx
          rw [hv] at this
          simpa using this
    | vote ev m =>
      simp only [hc] at h1
      have hl : rewardsLog (e :: before) = rewardsLog before := by simp only [rewardsLog, hc]
      refine ⟨?_, by rw [hl]; exact i2, by rw [hl]; exact i3, ?_, i4⟩
      · intro x hx hv
        rcases List.mem_cons.1 hx with rfl | hx
        · intro d hd _
          unfold voteOk at h1
          rw [hd] at h1
          simp only [Bool.and_eq_true, decide_eq_true_eq] at h1
          exact h1
        · exact i1 x hx hv
      · intro c' vp hc'
        rw [hc] at hc'; cases hc'

/-- A call of the staking module in a block. -/
def v (h : Nat) (c : TokenStaked.Call) : Block × Call Block TokenStaked.Call := (⟨h, 0⟩, .vote ⟨h, 0⟩ c)
/-- A call of the distributor in a block. -/
def r (h : Nat) (c : DaoRewards.Call) : Block × Call Block TokenStaked.Call := (⟨h, 0⟩, .rewards c)

/-- Members stake before and after, the DAO creates and funds a distribution, members unstake and claim, the DAO makes it
immediate, funds it again and claws back. -/
def calls : List (Block × Call Block TokenStaked.Call) :=
  [v 11 (.stake 1 10),
   v 11 (.exec 9 (.addHook 7)),
   r 12 (.exec 9 [(0, 1000)] (.create (.native 0) (.linear 100 (.height 10) true) 50 50 none none)),
   v 22 (.stake 2 30),
   v 22 (.stake 1 10),
   v 42 (.exec 2 (.unstake 10)),
   r 52 (.exec 1 [] (.claim 1)),
   r 53 (.exec 9 [] (.update 1 (some .immediate) none none none none)),
   r 54 (.exec 9 [(0, 80)] (.fund none))]

end Ex
open Ex

/-- The example meets the assumptions of `C86_bound_partial` and `C86_backed_partial` for a distribution of which something
was claimed and more can be. -/
theorem C86_example : ∃ w b log, (sys tokenStaked).Run world ⟨10, 0⟩ log w b ∧ Regular tokenStaked ⟨10, 0⟩ 1 log ∧
    (∀ id, id ∈ [1] ↔ ∃ d, w.rew.c.dists.get id = some d ∧ d.token = .native 0) ∧
    fundedTotal 1 (rewardsLog log) = 1080 ∧ claimedTotal 1 (rewardsLog log) = 230 ∧
    claimable tokenStaked w ⟨55, 0⟩ 1 1 = 340 ∧ claimable tokenStaked w ⟨55, 0⟩ 1 2 = 510 := by
  obtain ⟨w, b, log, hr, hp⟩ := Sys.check_run (M := sys tokenStaked) (s := world) (b := ⟨10, 0⟩) (cs := calls)
    (p := fun w b log => regularB ⟨10, 0⟩ 1 log && decide (w.rew.c.dists.map (fun p => (p.1, p.2.token)) = [(1, .native 0)] ∧
      fundedTotal 1 (rewardsLog log) = 1080 ∧ claimedTotal 1 (rewardsLog log) = 230 ∧
      claimable tokenStaked w ⟨55, 0⟩ 1 1 = 340 ∧ claimable tokenStaked w ⟨55, 0⟩ 1 2 = 510)) (by decide +kernel)
  rw [Bool.and_eq_true, decide_eq_true_eq] at hp
  obtain ⟨h1, h2, h3⟩ := hp
  refine ⟨w, b, log, hr, regular_ok h1, ?_, h3⟩
  rcases hd : w.rew.c.dists with _ | ⟨⟨i, d⟩, _ | ⟨x, l⟩⟩
  · rw [hd] at h2; cases h2
  · rw [hd] at h2
    simp only [List.map_cons, List.map_nil, List.cons.injEq, Prod.mk.injEq, and_true] at h2
    obtain ⟨rfl, ht⟩ := h2
    intro id
    rw [List.mem_singleton]
    constructor
    · rintro rfl; exact ⟨d, rfl, ht⟩
    · rintro ⟨d', hg, _⟩
      by_cases h : 1 = id
      · exact h.symm
      · simp [AMap.get, h] at hg
  · rw [hd] at h2; simp at h2

/-- The example also meets the assumptions of `C86_share`, with the linear rate. -/
theorem C86_example_share : ∃ w b log d, (sys tokenStaked).Run world ⟨10, 0⟩ log w b ∧ Regular tokenStaked ⟨10, 0⟩ 1 log ∧
    b.height = 42 ∧ w.rew.c.dists.get 1 = some d ∧ d.epoch.rate = .linear 100 (.height 10) true ∧ d.vp = w.vp ∧
    tokenStaked.weight w.vote 2 = 20 ∧ tokenStaked.totalWeight w.vote = 40 ∧ Shows tokenStaked w ⟨50, 0⟩ 1 2 ∧
    Shows tokenStaked w ⟨80, 0⟩ 1 2 ∧ claimable tokenStaked w ⟨50, 0⟩ 1 2 = 120 ∧ claimable tokenStaked w ⟨80, 0⟩ 1 2 = 270 := by
  obtain ⟨w, b, log, hr, hp⟩ := Sys.check_run (M := sys tokenStaked) (s := world) (b := ⟨10, 0⟩) (cs := calls.take 6)
    (p := fun w b log => regularB ⟨10, 0⟩ 1 log && (match w.rew.c.dists.get 1 with
      | some d => decide (b.height = 42 ∧ d.epoch.rate = .linear 100 (.height 10) true ∧ d.vp = w.vp)
      | none => false) && decide (tokenStaked.weight w.vote 2 = 20 ∧ tokenStaked.totalWeight w.vote = 40 ∧
      DaoRewards.queryPending w.rew.c ⟨50, 0⟩ (answers tokenStaked w ⟨50, 0⟩) 2 1 = .ok 120 ∧
      DaoRewards.queryPending w.rew.c ⟨80, 0⟩ (answers tokenStaked w ⟨80, 0⟩) 2 1 = .ok 270)) (by decide +kernel)
  simp only [Bool.and_eq_true] at hp
  obtain ⟨⟨h1, h2⟩, h3⟩ := hp
  have h3 := of_decide_eq_true h3
  cases hd : w.rew.c.dists.get 1 with
  | none => rw [hd] at h2; cases h2
  | some d =>
    rw [hd] at h2
    have h2 := of_decide_eq_true h2
    refine ⟨w, b, log, d, hr, regular_ok h1, h2.1, hd, h2.2.1, h2.2.2, h3.1, h3.2.1, ⟨_, h3.2.2.1⟩, ⟨_, h3.2.2.2⟩, ?_, ?_⟩
    · unfold claimable; rw [h3.2.2.1]
    · unfold claimable; rw [h3.2.2.2]

/-- The bound is false when funds are handed out at once in a block in which somebody has staked before, although the
distributor listens: 100 tokens are funded, the stakers can claim 1000. Anybody who sees the funding coming can do this. -/
theorem C86_witness_same_block : ∃ w b log, (sys tokenStaked).Run world ⟨10, 0⟩ log w b ∧ Listening tokenStaked 1 log ∧
    Announced 1 (rewardsLog log) ∧ SameVotes 1 (rewardsLog log) ∧ fundedTotal 1 (rewardsLog log) = 100 ∧
    claimable tokenStaked w ⟨16, 0⟩ 1 1 = 100 ∧ claimable tokenStaked w ⟨16, 0⟩ 1 2 = 900 := by
  obtain ⟨w, b, log, hr, hp⟩ := Sys.check_run (M := sys tokenStaked) (s := world) (b := ⟨10, 0⟩)
    (cs := [v 11 (.stake 1 10), v 11 (.exec 9 (.addHook 7)),
      r 12 (.exec 9 [] (.create (.native 0) .immediate 50 50 none none)), v 15 (.stake 2 90), r 15 (.exec 9 [(0, 100)] (.fund none))])
    (p := fun w b log => regularB ⟨10, 0⟩ 1 log.tail && (match log with
        | e :: _ => (match e.call with | .rewards (.exec _ _ (.fund _)) => true | _ => false) | [] => false) &&
      decide (fundedTotal 1 (rewardsLog log) = 100 ∧
      claimable tokenStaked w ⟨16, 0⟩ 1 1 = 100 ∧ claimable tokenStaked w ⟨16, 0⟩ 1 2 = 900)) (by decide +kernel)
  simp only [Bool.and_eq_true] at hp
  obtain ⟨⟨h1, h2⟩, h3⟩ := hp
  have h3 := of_decide_eq_true h3
  cases log with
  | nil => cases h2
  | cons e l =>
    obtain ⟨i1, i2, i3, _⟩ := regular_ok (show regularB ⟨10, 0⟩ 1 l = true from h1)
    have h2 : (match e.call with | .rewards (.exec _ _ (.fund _)) => true | _ => false) = true := h2
    split at h2
    · rename_i a coins i hc
      have hl : rewardsLog (e :: l) = ⟨e.pre.rew, e.env, .exec a coins (.fund i), e.out, e.post.rew⟩ :: rewardsLog l := by
        simp only [rewardsLog, hc]
      refine ⟨w, b, e :: l, hr, ?_, ?_, ?_, h3⟩
      · intro x hx hv
        rcases List.mem_cons.1 hx with rfl | hx
        · rw [hc] at hv; cases hv
        · exact i1 x hx hv
      · rw [hl]
        intro x hx vp diffs via hcall
        rcases List.mem_cons.1 hx with rfl | hx
        · cases hcall
        · exact i2 x hx vp diffs via hcall
      · rw [hl]
        intro x hx a' coins' rate vp hook o dest hcall
        rcases List.mem_cons.1 hx with rfl | hx
        · cases hcall
        · exact i3 x hx a' coins' rate vp hook o dest hcall
    · cases h2

/-- The bound is false when the distributor does not listen: 100 tokens are funded for one staker, another one who stakes
only afterwards can claim 900. The distribution can be created and funded without anything that checks this. -/
theorem C86_witness_deaf : ∃ w b log, (sys tokenStaked).Run world ⟨10, 0⟩ log w b ∧ Announced 1 (rewardsLog log) ∧
    SameVotes 1 (rewardsLog log) ∧ Calm ⟨10, 0⟩ 1 log ∧ fundedTotal 1 (rewardsLog log) = 100 ∧
    claimable tokenStaked w ⟨16, 0⟩ 1 1 = 100 ∧ claimable tokenStaked w ⟨16, 0⟩ 1 2 = 900 := by
  obtain ⟨w, b, log, hr, hp⟩ := Sys.check_run (M := sys tokenStaked) (s := world) (b := ⟨10, 0⟩)
    (cs := [v 11 (.stake 1 10), r 12 (.exec 9 [(0, 100)] (.create (.native 0) .immediate 50 50 none none)), v 15 (.stake 2 90)])
    (p := fun w b log => regularB ⟨10, 0⟩ 1 log.tail && (match log with
        | e :: _ => isVote e.call | [] => false) &&
      decide (fundedTotal 1 (rewardsLog log) = 100 ∧
      claimable tokenStaked w ⟨16, 0⟩ 1 1 = 100 ∧ claimable tokenStaked w ⟨16, 0⟩ 1 2 = 900)) (by decide +kernel)
  simp only [Bool.and_eq_true] at hp
  obtain ⟨⟨h1, h2⟩, h3⟩ := hp
  have h3 := of_decide_eq_true h3
  cases log with
  | nil => cases h2
  | cons e l =>
    obtain ⟨_, i2, i3, i4⟩ := regular_ok (show regularB ⟨10, 0⟩ 1 l = true from h1)
    have h2 : isVote e.call = true := h2
    cases hc : e.call with
    | rewards c => rw [hc] at h2; cases h2
    | vote ev m =>
      have hl : rewardsLog (e :: l) = rewardsLog l := by simp only [rewardsLog, hc]
      rw [hl] at h3
      refine ⟨w, b, e :: l, hr, by rw [hl]; exact i2, by rw [hl]; exact i3, ⟨?_, i4⟩, by rw [hl]; exact h3⟩
      intro c' vp hc'
      rw [hc] at hc'; cases hc'

/-- The DAO gives its only distribution another hook caller and forgets that the distributor still listens to the staking
module: from then on nobody can stake or unstake there, in any block. -/
theorem C86_witness_locked : ∃ w b log, (sys tokenStaked).Run world ⟨10, 0⟩ log w b ∧ tokenStaked.weight w.vote 1 = 10 ∧
    (∃ s' o, TokenStaked.step w.vote ⟨14, 0⟩ (.exec 1 (.unstake 10)) = .ok (s', o)) ∧
    ∀ b' e a n, (¬ ∃ w' out, step tokenStaked w b' (.vote e (.exec a (.unstake n))) = .ok (w', out)) ∧
      ¬ ∃ w' out, step tokenStaked w b' (.vote e (.stake a n)) = .ok (w', out) := by
  obtain ⟨w, b, log, hr, hp⟩ := Sys.check_run (M := sys tokenStaked) (s := world) (b := ⟨10, 0⟩)
    (cs := [v 11 (.stake 1 10), v 11 (.exec 9 (.addHook 7)),
      r 12 (.exec 9 [(0, 100)] (.create (.native 0) .immediate 50 50 none none)),
      r 13 (.exec 9 [] (.update 1 none none (some 60) none none))])
    (p := fun w b log => decide (tokenStaked.weight w.vote 1 = 10 ∧ w.rew.c.hooks.get w.caller = none ∧ w.rew.me = 7 ∧ Hooks.items w.vote.c.hooks = [7]) &&
      (TokenStaked.step w.vote ⟨14, 0⟩ (.exec 1 (.unstake 10))).toBool) (by decide +kernel)
  simp only [Bool.and_eq_true, decide_eq_true_eq] at hp
  obtain ⟨⟨h1, h2, h3, h4⟩, h5⟩ := hp
  refine ⟨w, b, log, hr, h1, ?_, ?_⟩
  · cases hs : TokenStaked.step w.vote ⟨14, 0⟩ (.exec 1 (.unstake 10)) with
    | ok x => exact ⟨x.1, x.2, rfl⟩
    | error x => rw [hs] at h5; cases h5
  · have hlis : w.rew.me ∈ tokenStaked.listeners w.vote := by
      show w.rew.me ∈ Hooks.items w.vote.c.hooks
      rw [h3, h4]; exact List.mem_singleton_self _
    have key : ∀ (e : Block) (c : TokenStaked.Call) (s' : TokenStaked.World) (o : TokenStaked.Out),
        ((∃ a n, c = .exec a (.unstake n)) ∨ ∃ a n, c = .stake a n) → TokenStaked.step w.vote e c = .ok (s', o) →
        ∃ x ∈ tokenStaked.told o, x.1 = w.rew.me := by
      intro e c s' o hc hs
      have hd := TokenStaked.step_effect hs
      have hp := fun i a n => prepared w.vote.c.hooks (fun r => (⟨r, i, a, n⟩ : Cw20Stake.HookMsg)) (fun m => (m.to, [m.staker])) a
        (fun _ => rfl)
      rcases hc with ⟨a, n, rfl⟩ | ⟨a, n, rfl⟩
      · cases hd with
        | payout a n l out ha hn hs ht hd hl hh =>
          show ∃ x ∈ o.hooks.map _, _
          rw [hh]; exact (hp false a n).2 _ hlis
        | unbond a n d out ha hn hs ht hd hlen hh =>
          show ∃ x ∈ o.hooks.map _, _
          rw [hh]; exact (hp false a n).2 _ hlis
        | admin m c hs hm => exact absurd rfl (hm.1 n)
      · cases hd with
        | stake a n l ha hn hl => exact (hp true a n).2 _ hlis
    have main : ∀ (b' e : Block) (c : TokenStaked.Call), ((∃ a n, c = .exec a (.unstake n)) ∨ ∃ a n, c = .stake a n) →
        ¬ ∃ w' out, step tokenStaked w b' (.vote e c) = .ok (w', out) := by
      intro b' e c hc hex
      have hst := hex
      obtain ⟨w', out, hst⟩ := hst
      simp only [step, bind_ok, require_ok, decide_eq_true_eq, Except.ok.injEq, Prod.mk.injEq] at hst
      obtain ⟨_, _, _, _, _, _, ⟨s1, o1⟩, hs, _⟩ := hst
      exact C86_locked h2 hs (key e c s1 o1 hc hs) hex
    intro b' e a n
    exact ⟨main b' e _ (.inl ⟨a, n, rfl⟩), main b' e _ (.inr ⟨a, n, rfl⟩)⟩

end Verif.RewardedDao
