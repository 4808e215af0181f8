import Verif.Proofs.DaoRewardsHistory
import Verif.Props.DaoRewards
/-!
# C66: rewards distributor, who may do what
-/

namespace Verif.DaoRewards
open Spec.DaoRewards

/-- The settings of all distributions stay as they are. -/
def Keeps (s s' : State) : Prop := ∀ id, (s'.dists.get id).map settings = (s.dists.get id).map settings

theorem Keeps.trans {s s' s'' : State} (h : Keeps s s') (h' : Keeps s' s'') : Keeps s s'' :=
  fun id => (h' id).trans (h id)

theorem keeps_set {s : State} {i : Nat} {d d' : Dist} {p q : AMap (Nat × Addr) Nat} (hd : s.dists.get i = some d)
    (h : settings d' = settings d) : Keeps s { s with dists := s.dists.set i d', pending := p, accounted := q } := by
  intro id
  by_cases hi : i = id
  · subst hi
    simp only
    rw [AMap.get_set_self, hd, Option.map_some, Option.map_some, h]
  · simp only
    rw [AMap.get_set_ne _ _ hi]

theorem keeps_update {s s' : State} {b : Block} {ans : Addr → Answer} {a : Addr} {i : Nat}
    (h : updateRewards s b ans a i = .ok s') : Keeps s s' := by
  obtain ⟨d, r, n, hd, _, _, rfl⟩ := updateRewards_ok h
  exact keeps_set hd rfl

theorem keeps_ids {b : Block} {ans : Addr → Answer} {a : Addr} {ids : List Nat} {s s' : State}
    (h : updateIds b ans a ids s = .ok s') : Keeps s s' := by
  induction ids generalizing s with
  | nil => simp only [updateIds, Except.ok.injEq] at h; subst h; exact fun _ => rfl
  | cons i ids ih =>
    unfold updateIds at h
    obtain ⟨s1, h1, h2⟩ := (bind_ok _ _ _).mp h
    exact (keeps_update h1).trans (ih h2)

theorem keeps_members {b : Block} {ans : Addr → Answer} {ids : List Nat} {as : List Addr} {s s' : State}
    (h : updateMembers b ans ids as s = .ok s') : Keeps s s' := by
  induction as generalizing s with
  | nil => simp only [updateMembers, Except.ok.injEq] at h; subst h; exact fun _ => rfl
  | cons a as ih =>
    unfold updateMembers at h
    obtain ⟨s1, h1, h2⟩ := (bind_ok _ _ _).mp h
    exact (keeps_ids h1).trans (ih h2)

theorem keeps_announce {b : Block} {ans : Addr → Answer} {as : List Addr} {hs : List Addr} {s s' : State}
    (h : announce b ans as hs s = .ok s') : Keeps s s' := by
  induction hs generalizing s with
  | nil => simp only [announce, Except.ok.injEq] at h; subst h; exact fun _ => rfl
  | cons a hs ih =>
    unfold announce at h
    obtain ⟨s1, h1, h2⟩ := (bind_ok _ _ _).mp h
    obtain ⟨_, _, h1⟩ := execHook_ok h1
    exact (keeps_members h1).trans (ih h2)

theorem settings_fund {d d' : Dist} {b : Block} {t n : Nat} (h : fundDist d b t n = .ok d') :
    settings d' = settings d := by
  unfold fundDist at h
  split at h
  · obtain ⟨_, _, h1⟩ := (bind_ok _ _ _).mp h
    simp only [Except.ok.injEq] at h1; subst h1; rfl
  · obtain ⟨_, _, h1⟩ := (bind_ok _ _ _).mp h
    obtain ⟨_, _, h2⟩ := (bind_ok _ _ _).mp h1
    simp only [Except.ok.injEq] at h2; subst h2; rfl
  · rename_i amount dur c _
    unfold fundLinear at h
    obtain ⟨d1, h1, h2⟩ := (bind_ok _ _ _).mp h
    obtain ⟨p, _, h3⟩ := (bind_ok _ _ _).mp h2
    obtain ⟨e, _, h4⟩ := (bind_ok _ _ _).mp h3
    have hs : settings d1 = settings d := by
      unfold fundLinearStart at h1
      split at h1
      · simp only [Except.ok.injEq] at h1; subst h1; rfl
      · split at h1
        · obtain ⟨_, _, g1⟩ := (bind_ok _ _ _).mp h1
          obtain ⟨_, _, g2⟩ := (bind_ok _ _ _).mp g1
          simp only [Except.ok.injEq] at g2; subst g2; rfl
        · obtain ⟨_, _, g1⟩ := (bind_ok _ _ _).mp h1
          simp only [Except.ok.injEq] at g1; subst g1; rfl
    split at h4
    · obtain ⟨_, _, g1⟩ := (bind_ok _ _ _).mp h4
      simp only [Except.ok.injEq] at g1; subst g1; exact hs
    · simp only [Except.ok.injEq] at h4; subst h4; exact hs

theorem settings_withdraw {d d' : Dist} {b : Block} {n : Nat} (h : withdrawDist d b = .ok (d', n)) :
    settings d' = settings d := by
  unfold withdrawDist at h
  obtain ⟨_, _, h1⟩ := (bind_ok _ _ _).mp h
  obtain ⟨_, _, h2⟩ := (bind_ok _ _ _).mp h1
  obtain ⟨_, _, h3⟩ := (bind_ok _ _ _).mp h2
  simp only [Except.ok.injEq, Prod.mk.injEq] at h3
  obtain ⟨rfl, _⟩ := h3
  rfl

theorem execFund_auth {s s' : State} {b : Block} {ans : Addr → Answer} {a : Addr} {i n : Nat} {d : Dist}
    (h : execFund s b ans a i d n = .ok s') :
    (d.openFunding = true ∨ s.ownership.owner = some a) ∧
      ∃ d', settings d' = settings d ∧ s' = { s with dists := s.dists.set i d' } := by
  obtain ⟨d', h1, h2⟩ := execFund_ok h
  unfold execFund at h
  obtain ⟨_, h3, _⟩ := (bind_ok _ _ _).mp h
  simp only [require_ok, Bool.or_eq_true, decide_eq_true_eq] at h3
  exact ⟨h3, d', settings_fund h1, h2⟩

/-- What a transaction may do: leave all settings and pay nobody, or one of the four messages below. -/
inductive May (w w' : World) (call : Call) (out : List Pay) : Prop where
  | free (hk : Keeps w.c w'.c) (ho : out = [])
      (hh : ∀ a coins ms, call = .exec a coins (.hook ms) → ∃ ids, w.c.hooks.get a = some ids)
      (hf : ∀ a coins id, call = .exec a coins (.fund id) → ∃ d, w.c.dists.get (target w id) = some d ∧
        (d.openFunding = true ∨ w.c.ownership.owner = some a))
      (hg : ∀ t a n id, call = .send t a n id → ∃ d, w.c.dists.get (target w id) = some d ∧ d.token = .cw20 t ∧
        (d.openFunding = true ∨ w.c.ownership.owner = some a))
  | create (a : Addr) (coins : List (Nat × Nat)) (token : Token) (rate : Rate) (vp hk : Addr) (o : Option Bool)
      (dest : Option Addr) (hc : call = .exec a coins (.create token rate vp hk o dest))
      (ha : w.c.ownership.owner = some a) (hn : w.c.dists.get (w.c.count + 1) = none)
      (hs : ∀ id, (w'.c.dists.get id).map settings = if w.c.count + 1 = id
        then some (token, rate, vp, hk, o.getD true, dest.getD a) else (w.c.dists.get id).map settings)
      (ho : out = [])
  | update (a : Addr) (coins : List (Nat × Nat)) (i : Nat) (rate : Option Rate) (vp hk : Option Addr) (o : Option Bool)
      (dest : Option Addr) (hc : call = .exec a coins (.update i rate vp hk o dest))
      (ha : w.c.ownership.owner = some a) (d : Dist) (hd : w.c.dists.get i = some d)
      (hs : ∀ id, (w'.c.dists.get id).map settings = if i = id
        then some (d.token, rate.getD d.epoch.rate, vp.getD d.vp, hk.getD d.hookCaller, o.getD d.openFunding,
          dest.getD d.dest) else (w.c.dists.get id).map settings)
      (ho : out = [])
  | claim (a : Addr) (coins : List (Nat × Nat)) (i : Nat) (hc : call = .exec a coins (.claim i)) (hk : Keeps w.c w'.c)
      (d : Dist) (hd : w.c.dists.get i = some d) (n : Nat) (hn : 0 < n) (ho : out = [⟨a, d.token, n⟩])
  | withdraw (a : Addr) (coins : List (Nat × Nat)) (i : Nat) (hc : call = .exec a coins (.withdraw i))
      (ha : w.c.ownership.owner = some a) (hk : Keeps w.c w'.c)
      (d : Dist) (hd : w.c.dists.get i = some d) (n : Nat) (ho : out = [⟨d.dest, d.token, n⟩])

theorem rate_update {d d' : Dist} {b : Block} {t : Nat} {r : Option Rate} (h : updateRate d b t r = .ok d') :
    settings d' = (d.token, r.getD d.epoch.rate, d.vp, d.hookCaller, d.openFunding, d.dest) := by
  unfold updateRate at h
  split at h
  · simp only [Except.ok.injEq] at h; subst h; rfl
  · rename_i rate
    obtain ⟨_, _, h1⟩ := (bind_ok _ _ _).mp h
    unfold transition at h1
    split at h1
    · rename_i he
      simp only [Except.ok.injEq] at h1; subst h1; unfold settings; rw [he]; rfl
    · obtain ⟨_, _, h2⟩ := (bind_ok _ _ _).mp h1
      obtain ⟨_, _, h3⟩ := (bind_ok _ _ _).mp h2
      obtain ⟨_, _, h4⟩ := (bind_ok _ _ _).mp h3
      obtain ⟨_, _, h5⟩ := (bind_ok _ _ _).mp h4
      obtain ⟨e, h6, h7⟩ := (bind_ok _ _ _).mp h5
      simp only [Except.ok.injEq] at h7; subst h7
      have : e.rate = rate := by
        unfold newEpoch at h6
        split at h6
        · simp only [Except.ok.injEq] at h6; subst h6; rfl
        · obtain ⟨_, _, h6⟩ := (bind_ok _ _ _).mp h6
          simp only [Except.ok.injEq] at h6; subst h6; rfl
        · obtain ⟨_, _, h6⟩ := (bind_ok _ _ _).mp h6
          simp only [Except.ok.injEq] at h6; subst h6; rfl
      unfold settings
      simp only [this, Option.getD_some]

theorem step_may {w w' : World} {b : Block} {call : Call} {out : List Pay} (h : step w b call = .ok (w', out)) :
    May w w' call out := by
  unfold step at h
  obtain ⟨_, _, h⟩ := (bind_ok _ _ _).mp h
  obtain ⟨_, _, h⟩ := (bind_ok _ _ _).mp h
  cases call with
  | exec a coins m =>
    simp only at h
    obtain ⟨_, _, h⟩ := (bind_ok _ _ _).mp h
    obtain ⟨_, _, h⟩ := (bind_ok _ _ _).mp h
    obtain ⟨⟨c, ps⟩, he, h⟩ := (bind_ok _ _ _).mp h
    obtain ⟨_, _, h⟩ := (bind_ok _ _ _).mp h
    simp only [Except.ok.injEq, Prod.mk.injEq] at h
    obtain ⟨rfl, rfl⟩ := h
    cases m with
    | hook ms =>
      obtain ⟨s, h1, h2⟩ := (bind_ok _ _ _).mp he
      simp only [Except.ok.injEq, Prod.mk.injEq] at h2
      obtain ⟨rfl, rfl⟩ := h2
      obtain ⟨ids, h3, h4⟩ := execHook_ok h1
      refine .free (keeps_members h4) rfl ?_ (by intro _ _ _ hc; cases hc) (by intro _ _ _ _ hc; cases hc)
      intro _ _ _ hc; cases hc; exact ⟨ids, h3⟩
    | updateOwnership x =>
      obtain ⟨_, _, he⟩ := (bind_ok _ _ _).mp he
      obtain ⟨o, h1, h2⟩ := (bind_ok _ _ _).mp he
      simp only [Except.ok.injEq, Prod.mk.injEq] at h2
      obtain ⟨rfl, rfl⟩ := h2
      exact .free (fun _ => rfl) rfl (by intro _ _ _ hc; cases hc) (by intro _ _ _ hc; cases hc)
        (by intro _ _ _ _ hc; cases hc)
    | create token rate vp hk o dest =>
      obtain ⟨s, h1, h2⟩ := (bind_ok _ _ _).mp he
      simp only [Except.ok.injEq, Prod.mk.injEq] at h2
      obtain ⟨rfl, rfl⟩ := h2
      unfold execCreate at h1
      obtain ⟨_, g1, h1⟩ := (bind_ok _ _ _).mp h1
      obtain ⟨i, g2, h1⟩ := (bind_ok _ _ _).mp h1
      obtain ⟨_, g3, h1⟩ := (bind_ok _ _ _).mp h1
      obtain ⟨_, g4, h1⟩ := (bind_ok _ _ _).mp h1
      rw [Ownership.assertOwner_ok] at g1
      obtain ⟨_, rfl⟩ := (add64_ok _ _ _).mp g2
      simp only [require_ok, decide_eq_true_eq] at g4
      refine .create a coins token rate vp hk o dest rfl g1 g4 ?_ rfl
      intro id
      split at h1
      · simp only [Except.ok.injEq] at h1
        subst h1
        simp only
        split
        · rename_i hi; subst hi; rw [AMap.get_set_self]; rfl
        · rename_i hi; rw [AMap.get_set_ne _ _ hi]
      · obtain ⟨n, _, h1⟩ := (bind_ok _ _ _).mp h1
        obtain ⟨_, d', hs', h1⟩ := execFund_auth h1
        subst h1
        simp only
        split
        · rename_i hi; subst hi; rw [AMap.get_set_self, Option.map_some, hs']; rfl
        · rename_i hi; rw [AMap.get_set_ne _ _ hi, AMap.get_set_ne _ _ hi]
    | update i rate vp hk o dest =>
      obtain ⟨_, _, he⟩ := (bind_ok _ _ _).mp he
      obtain ⟨s, h1, h2⟩ := (bind_ok _ _ _).mp he
      simp only [Except.ok.injEq, Prod.mk.injEq] at h2
      obtain ⟨rfl, rfl⟩ := h2
      unfold execUpdate at h1
      obtain ⟨_, g1, h1⟩ := (bind_ok _ _ _).mp h1
      obtain ⟨d, g2, h1⟩ := (bind_ok _ _ _).mp h1
      obtain ⟨d1, g3, h1⟩ := (bind_ok _ _ _).mp h1
      rw [Ownership.assertOwner_ok] at g1
      have g2 := (orErr_ok _ _ _).mp g2
      have g4 := rate_update g3
      simp only [Except.ok.injEq] at h1
      refine .update a coins i rate vp hk o dest rfl g1 d g2 ?_ rfl
      intro id
      subst h1
      unfold settings at g4
      simp only [Prod.mk.injEq] at g4
      obtain ⟨e1, e2, e3, e4, e5, e6⟩ := g4
      have hd' : ∀ s : State, (updateHook s i { d1 with vp := vp.getD d1.vp } hk).1.dists = s.dists := by
        intro s; unfold updateHook; split <;> rfl
      simp only [hd']
      split
      · rename_i hi; subst hi
        rw [AMap.get_set_self, Option.map_some]
        unfold settings updateHook
        cases hk <;> simp only [Option.getD_none, Option.getD_some, e1, e2, e3, e4, e5, e6]
      · rename_i hi; rw [AMap.get_set_ne _ _ hi]
    | fund i =>
      obtain ⟨s, h1, h2⟩ := (bind_ok _ _ _).mp he
      simp only [Except.ok.injEq, Prod.mk.injEq] at h2
      obtain ⟨rfl, rfl⟩ := h2
      unfold execFundNative at h1
      obtain ⟨d, g1, h1⟩ := (bind_ok _ _ _).mp h1
      obtain ⟨n, g2, h1⟩ := (bind_ok _ _ _).mp h1
      have g1 := (orErr_ok _ _ _).mp g1
      obtain ⟨g3, d', g4, rfl⟩ := execFund_auth h1
      refine .free (keeps_set g1 g4) rfl (by intro _ _ _ hc; cases hc) ?_ (by intro _ _ _ _ hc; cases hc)
      intro _ _ _ hc; cases hc; exact ⟨d, g1, g3⟩
    | claim i =>
      obtain ⟨_, _, he⟩ := (bind_ok _ _ _).mp he
      unfold execClaim at he
      obtain ⟨s1, h1, he⟩ := (bind_ok _ _ _).mp he
      obtain ⟨d, h2, he⟩ := (bind_ok _ _ _).mp he
      obtain ⟨_, h3, he⟩ := (bind_ok _ _ _).mp he
      simp only [Except.ok.injEq, Prod.mk.injEq] at he
      obtain ⟨rfl, rfl⟩ := he
      simp only [require_ok, decide_eq_true_eq] at h3
      have h2 := (orErr_ok _ _ _).mp h2
      have hk := keeps_update h1
      have hi := hk i
      rw [h2, Option.map_some] at hi
      obtain ⟨d0, hd0, hs⟩ := Option.map_eq_some_iff.1 hi.symm
      have ht : d0.token = d.token := congrArg Prod.fst hs
      refine .claim a coins i rfl (fun id => ?_) d0 hd0 _ (Nat.pos_of_ne_zero h3) (by rw [ht])
      exact hk id
    | withdraw i =>
      obtain ⟨_, _, he⟩ := (bind_ok _ _ _).mp he
      unfold execWithdraw at he
      obtain ⟨_, h1, he⟩ := (bind_ok _ _ _).mp he
      obtain ⟨d, h2, he⟩ := (bind_ok _ _ _).mp he
      obtain ⟨⟨d', n⟩, h3, he⟩ := (bind_ok _ _ _).mp he
      simp only [Except.ok.injEq, Prod.mk.injEq] at he
      obtain ⟨rfl, rfl⟩ := he
      rw [Ownership.assertOwner_ok] at h1
      have h2 := (orErr_ok _ _ _).mp h2
      exact .withdraw a coins i rfl h1 (keeps_set h2 (settings_withdraw h3)) d h2 n rfl
  | send t a n i =>
    simp only at h
    obtain ⟨_, _, h⟩ := (bind_ok _ _ _).mp h
    obtain ⟨_, _, h⟩ := (bind_ok _ _ _).mp h
    obtain ⟨c, h1, h⟩ := (bind_ok _ _ _).mp h
    simp only [Except.ok.injEq, Prod.mk.injEq] at h
    obtain ⟨rfl, rfl⟩ := h
    unfold execReceive at h1
    obtain ⟨d, g1, h1⟩ := (bind_ok _ _ _).mp h1
    obtain ⟨_, g2, h1⟩ := (bind_ok _ _ _).mp h1
    have g1 := (orErr_ok _ _ _).mp g1
    simp only [require_ok, decide_eq_true_eq] at g2
    obtain ⟨g3, d', g4, rfl⟩ := execFund_auth h1
    refine .free (keeps_set g1 g4) rfl (by intro _ _ _ hc; cases hc) (by intro _ _ _ hc; cases hc) ?_
    intro _ _ _ _ hc; cases hc; exact ⟨d, g1, g2, g3⟩
  | change vp diffs via =>
    simp only at h
    obtain ⟨_, _, h⟩ := (bind_ok _ _ _).mp h
    obtain ⟨c, h1, h⟩ := (bind_ok _ _ _).mp h
    simp only [Except.ok.injEq, Prod.mk.injEq] at h
    obtain ⟨rfl, rfl⟩ := h
    exact .free (keeps_announce h1) rfl (by intro _ _ _ hc; cases hc) (by intro _ _ _ hc; cases hc)
      (by intro _ _ _ _ hc; cases hc)
  | transfer t a dst n =>
    simp only at h
    obtain ⟨_, _, h⟩ := (bind_ok _ _ _).mp h
    obtain ⟨_, _, h⟩ := (bind_ok _ _ _).mp h
    simp only [Except.ok.injEq, Prod.mk.injEq] at h
    obtain ⟨rfl, rfl⟩ := h
    exact .free (fun _ => rfl) rfl (by intro _ _ _ hc; cases hc) (by intro _ _ _ hc; cases hc)
      (by intro _ _ _ _ hc; cases hc)

variable {w0 w : World} {b0 b : Block} {log : List Event}

theorem may_run (hr : sys.Run w0 b0 log w b) (e : Event) (he : e ∈ log) : May e.pre e.post e.call e.out := by
  induction hr with
  | refl => cases he
  | step _ _ hs ih =>
    rcases List.mem_cons.1 he with rfl | he
    · exact step_may hs
    · exact ih he

/-- C66, settings: the settings of a distribution change only in a transaction of the owner: its creation, or an update
that gives exactly the changed settings. No distribution is ever removed. -/
theorem C66_settings (hr : sys.Run w0 b0 log w b) (e : Event) (he : e ∈ log) (id : Nat)
    (h : (e.post.c.dists.get id).map settings ≠ (e.pre.c.dists.get id).map settings) :
    ∃ a coins, e.pre.c.ownership.owner = some a ∧
      ((∃ token rate vp hk o dest, e.call = .exec a coins (.create token rate vp hk o dest) ∧
          e.pre.c.dists.get id = none ∧
          (e.post.c.dists.get id).map settings = some (token, rate, vp, hk, o.getD true, dest.getD a)) ∨
       (∃ rate vp hk o dest d, e.call = .exec a coins (.update id rate vp hk o dest) ∧
          e.pre.c.dists.get id = some d ∧ (e.post.c.dists.get id).map settings =
            some (d.token, rate.getD d.epoch.rate, vp.getD d.vp, hk.getD d.hookCaller, o.getD d.openFunding,
              dest.getD d.dest))) := by
  cases may_run hr e he with
  | free hk => exact absurd (hk id) h
  | claim a coins i hc hk => exact absurd (hk id) h
  | withdraw a coins i hc ha hk => exact absurd (hk id) h
  | create a coins token rate vp hk o dest hc ha hn hs =>
    have := hs id
    split at this
    · rename_i hi; subst hi
      exact ⟨a, coins, ha, .inl ⟨token, rate, vp, hk, o, dest, hc, hn, this⟩⟩
    · exact absurd this h
  | update a coins i rate vp hk o dest hc ha d hd hs =>
    have := hs id
    split at this
    · rename_i hi; subst hi
      exact ⟨a, coins, ha, .inr ⟨rate, vp, hk, o, dest, d, hc, hd, this⟩⟩
    · exact absurd this h

/-- C66, payments: the contract pays only a member who claims, and, when the owner withdraws, the account set for that;
both in the token of the distribution. -/
theorem C66_payments (hr : sys.Run w0 b0 log w b) (e : Event) (he : e ∈ log) (p : Pay) (hp : p ∈ e.out) :
    ∃ coins id d, e.pre.c.dists.get id = some d ∧ p.token = d.token ∧
      ((e.call = .exec p.to coins (.claim id) ∧ 0 < p.amount) ∨
       ∃ a, e.pre.c.ownership.owner = some a ∧ e.call = .exec a coins (.withdraw id) ∧ p.to = d.dest) := by
  cases may_run hr e he with
  | free _ ho => rw [ho] at hp; cases hp
  | create a coins token rate vp hk o dest hc ha hn hs ho => rw [ho] at hp; cases hp
  | update a coins i rate vp hk o dest hc ha d hd hs ho => rw [ho] at hp; cases hp
  | claim a coins i hc hk d hd n hn ho =>
    rw [ho, List.mem_singleton] at hp
    subst hp
    exact ⟨coins, i, d, hd, rfl, .inl ⟨hc, hn⟩⟩
  | withdraw a coins i hc ha hk d hd n ho =>
    rw [ho, List.mem_singleton] at hp
    subst hp
    exact ⟨coins, i, d, hd, rfl, .inr ⟨a, ha, hc, rfl⟩⟩

/-- C66, funding: a distribution not open to funding is funded by the owner only, and cw20 tokens fund only a distribution
of that token. -/
theorem C66_funding (hr : sys.Run w0 b0 log w b) (e : Event) (he : e ∈ log) :
    (∀ a coins id, e.call = .exec a coins (.fund id) → ∃ d, e.pre.c.dists.get (target e.pre id) = some d ∧
      (d.openFunding = true ∨ e.pre.c.ownership.owner = some a)) ∧
    (∀ t a n id, e.call = .send t a n id → ∃ d, e.pre.c.dists.get (target e.pre id) = some d ∧ d.token = .cw20 t ∧
      (d.openFunding = true ∨ e.pre.c.ownership.owner = some a)) := by
  cases may_run hr e he with
  | free _ _ _ hf hg => exact ⟨hf, hg⟩
  | create a coins token rate vp hk o dest hc =>
    exact ⟨fun _ _ _ h => (by rw [h] at hc; cases hc), fun _ _ _ _ h => (by rw [h] at hc; cases hc)⟩
  | update a coins i rate vp hk o dest hc =>
    exact ⟨fun _ _ _ h => (by rw [h] at hc; cases hc), fun _ _ _ _ h => (by rw [h] at hc; cases hc)⟩
  | claim a coins i hc =>
    exact ⟨fun _ _ _ h => (by rw [h] at hc; cases hc), fun _ _ _ _ h => (by rw [h] at hc; cases hc)⟩
  | withdraw a coins i hc =>
    exact ⟨fun _ _ _ h => (by rw [h] at hc; cases hc), fun _ _ _ _ h => (by rw [h] at hc; cases hc)⟩

/-- The history of `C45_example` has all of these: the owner creates and updates, funds come from the owner, member 1
claims 30 and what is withdrawn goes to the owner. -/
theorem C66_example : ∃ w b log, sys.Run exWorld ⟨10, 0⟩ log w b ∧
    (∃ e ∈ log, (e.post.c.dists.get 1).map settings ≠ (e.pre.c.dists.get 1).map settings ∧
      e.pre.c.dists.get 1 ≠ none) ∧ (∃ e ∈ log, e.out = [⟨9, .native 0, 46⟩]) := by
  obtain ⟨w, b, log, hr, hp⟩ := Sys.check_run (M := sys) (s := exWorld) (b := ⟨10, 0⟩) (cs := exCalls)
    (p := fun _ _ log => log.any (fun e => decide ((e.post.c.dists.get 1).map settings ≠ (e.pre.c.dists.get 1).map settings ∧
      e.pre.c.dists.get 1 ≠ none)) && log.any (fun e => decide (e.out = [⟨9, .native 0, 46⟩])))
    (by decide +kernel)
  rw [Bool.and_eq_true, List.any_eq_true, List.any_eq_true] at hp
  simp only [decide_eq_true_eq] at hp
  exact ⟨w, b, log, hr, hp.1, hp.2⟩

end Verif.DaoRewards
