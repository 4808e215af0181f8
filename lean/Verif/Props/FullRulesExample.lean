import Verif.Props.FullRulesLive
import Verif.Props.OwnRulesExample
import Verif.Props.HoldingsExample
/-!
# C128, C129: DAOs with three proposal modules that change their rules and their members

Members 10 and 11 have 60 and 40 votes. DAO 1 has a proposal module of each kind, at 3, 4 and 5. Message 200 is what the DAO is to
say to its modules; it is decided on in each of them.
-/

namespace Verif.FullRules.Example
open Verif Verif.Voting Verif.FullDao Verif.Spec.FullRules
open Verif.WholeDao (VotingModule cw4 roles C80_cw4 C80_roles)
open Verif.WholeCondorcet (Now cw4Now rolesNow)
open Verif.Spec.WholeDao (Lawful)
open Verif.Spec.FullDao (TotalsOfHeight proposes)
open Verif.Spec.OwnRules (cw4Caller rolesCaller)
open Verif.FullDao.Example (decode core0 core_init single multi condorcet env fine fine_steady fine_governed)
open Verif.Holdings.Example (only only_eq one_msg)
open Verif.OwnRules.Example (group0 group0_reach admit roles0 roles0_reach appoint)

variable {S E C O : Type}

/-- A new DAO with the voting module `v`. -/
def world (v : S) : World S := ⟨core0, [], v, 2⟩

theorem world_init {V : VotingModule S E C O} {v : S} {l : List (Ev S E C O)} (hv : V.sys.Reach v ⟨1, 1⟩ l) :
    Init V ⟨1, 1⟩ (world v) :=
  ⟨rfl, ⟨⟨1, 1⟩, [], ⟨⟨1, 1⟩, _, core_init, .refl⟩, Block.le_refl _⟩, ⟨⟨1, 1⟩, l, hv, Block.le_refl _⟩⟩

/-- Message 200 says `x`. -/
def tell (x : Said C) (n : Nat) : Option (Said C) := if n = 200 then some x else none

/-- The members decide on message 200, in each of the modules. -/
def decided : List (Env × Call E C) :=
  [(env 1 99, .core (.deliver ⟨2, []⟩)),
   (env 1 99, .spawn 3 single),
   (env 1 99, .core (.deliver ⟨3, []⟩)),
   (env 1 99, .spawn 4 multi),
   (env 1 99, .core (.deliver ⟨4, []⟩)),
   (env 1 99, .spawn 5 condorcet),
   (env 1 99, .core (.deliver ⟨5, []⟩)),
   (env 5 10, .single 3 (.propose none 0 [200] none true)),
   (env 5 10, .multi 4 (.propose none 0 [(0, [8]), (1, [200])] none true)),
   (env 5 10, .condorcet 5 (.propose [[200], [8]])),
   (env 6 11, .single 3 (.vote 1 .no none)),
   (env 6 11, .multi 4 (.vote 1 0 none)),
   (env 6 11, .condorcet 5 (.vote 1 [1, 2, 0])),
   (env 6 10, .condorcet 5 (.vote 1 [0, 1, 2])),
   (env 6 10, .multi 4 (.vote 1 1 none)),
   (env 6 10, .single 3 (.vote 1 .yes none))]

/-- `TotalsOfHeight`, as a program. -/
def totalsB (V : VotingModule S E C O) (N : Now S) (log : List (Event S E C)) : Bool :=
  log.all (fun e => (match e.call with
    | .multi _ (.propose ..) => decide (N.total e.pre.vote e.env.block = V.total e.pre.vote e.env.block.height)
    | .condorcet _ (.propose _) => decide (N.total e.pre.vote e.env.block = V.total e.pre.vote e.env.block.height)
    | _ => true))

theorem totalsB_ok {V : VotingModule S E C O} {N : Now S} {log : List (Event S E C)} (h : totalsB V N log = true) :
    TotalsOfHeight V N log := by
  intro e he hp
  have h1 := List.all_eq_true.1 h e he
  rcases hp with ⟨a, g, c, m, v, z, hc⟩ | ⟨a, c, hc⟩
  · rw [hc] at h1; exact of_decide_eq_true h1
  · rw [hc] at h1; exact of_decide_eq_true h1

/-- The last delivered message says `x`, as a program. -/
def justSent [DecidableEq C] (toCall : Nat → Option (Said C)) (x : Said C) : List (Event S E C) → Bool
  | [] => false
  | e :: _ => match e.call, e.pre.core.stack with
    | .core (.deliver _), .send (.other n) :: _ => decide (toCall n = some x)
    | _, _ => false

/-- `FromList`, as a program. -/
def fromListB [DecidableEq C] (caller : E → C → Option Addr) (toCall : Nat → Option (Said C)) : List (Event S E C) → Bool
  | [] => true
  | e :: log => fromListB caller toCall log && (match said e.call with
    | none => true
    | some x => !decide (speaker caller e.env e.call = some e.pre.core.core.me) || justSent toCall x log)

theorem fromListB_ok [DecidableEq C] {caller : E → C → Option Addr} {toCall : Nat → Option (Said C)} :
    ∀ {log : List (Event S E C)}, fromListB caller toCall log = true → FromList caller toCall log
  | [], _ => by intro later before e x hl; simp at hl
  | e :: log, h => by
    simp only [fromListB, Bool.and_eq_true] at h
    refine fromList_cons (fromListB_ok h.1) (fun x hx hs => ?_)
    have h2 := h.2
    rw [hx] at h2
    simp only [hs, decide_true, Bool.not_true, Bool.false_or] at h2
    cases log with
    | nil => cases h2
    | cons e' rest =>
      simp only [justSent] at h2
      split at h2
      · rename_i r n tl h3 h4
        exact ⟨e', rest, r, n, tl, rfl, h3, h4, of_decide_eq_true h2⟩
      · cases h2

/-- All that is asked of a history, as a program. -/
def good [DecidableEq C] (V : VotingModule S E C O) (N : Now S) (caller : E → C → Option Addr) (toCall : Nat → Option (Said C))
    (log : List (Event S E C)) : Bool := fine log && totalsB V N log && fromListB caller toCall log

theorem good_history [DecidableEq C] {V : VotingModule S E C O} {N : Now S} {caller : E → C → Option Addr}
    {toCall : Nat → Option (Said C)} {v : S} {l : List (Ev S E C O)} (hv : V.sys.Reach v ⟨1, 1⟩ l) {w : World S} {b : Block}
    {log : List (Event S E C)} (hr : (sys V N decode).Run (world v) ⟨1, 1⟩ log w b) (hg : good V N caller toCall log = true) :
    History V N decode caller toCall (world v) w ⟨1, 1⟩ b log := by
  simp only [good, Bool.and_eq_true] at hg
  exact ⟨world_init hv, hr, fine_steady hg.1.1, fine_governed hg.1.1, totalsB_ok hg.1.2, fromListB_ok hg.2⟩

theorem good_tail [DecidableEq C] {V : VotingModule S E C O} {N : Now S} {caller : E → C → Option Addr}
    {toCall : Nat → Option (Said C)} {e : Event S E C} {log : List (Event S E C)}
    (h : good V N caller toCall (e :: log) = true) : good V N caller toCall log = true := by
  simp only [good, fine, totalsB, fromListB, List.all_cons, Bool.and_eq_true] at h ⊢
  exact ⟨⟨h.1.1.2, h.1.2.2⟩, h.2.1⟩

/-- The module at an address is enabled, as a program. -/
def enabled (w : World S) (a : Addr) : Bool :=
  match w.core.core.modules.get a with | some m => m.enabled | none => false

theorem enabled_ok {w : World S} {a : Addr} (h : enabled w a = true) : Spec.DaoCore.Enabled w.core.core a := by
  unfold enabled at h
  split at h
  · rename_i m hm; exact ⟨m, hm, h⟩
  · cases h

/-- The last event executes proposal 1 of the module at an address, which is enabled; in the world before it `q` holds. -/
def due (V : VotingModule S E C O) (a : Addr) (q : World S → Bool) (log : List (Event S E C)) : Bool :=
  match log with
  | [] => false
  | ev :: _ => decide (DaoCore.isPaused ev.pre.core.core ev.env.block = false) && enabled ev.pre a &&
    ev.pre.core.stack.isEmpty && only 200 ev.post.core.stack &&
    (match ev.call with
      | .single x (.execute 1 false) => decide (x = a)
      | .multi x (.execute 1 false) => decide (x = a)
      | .condorcet x (.execute 1 false) => decide (x = a)
      | _ => false) &&
    (match ev.pre.mods.get a with
      | some (.single s) => decide (s.config.onlyMembersExecute = false) &&
          (match s.proposals.get 1 with
            | some p => decide (p.status = .passed) && decide (p.veto = none) &&
                decide (p.threshold = .absolutePercentage .majority)
            | none => false)
      | some (.multi s) => decide (s.config.onlyMembersExecute = false) &&
          (match s.proposals.get 1 with
            | some p => decide (p.status = .passed) && decide (p.veto = none) && decide (p.quorum = .majority)
            | none => false)
      | some (.condorcet s) =>
          (match s.proposals.get 1, s.tallies.get 1 with
            | some p, some t => decide (p.lastStatus = .opened) && decide (p.quorum = .majority) &&
                decide (V.power ev.pre.vote ev.env.sender t.startHeight ≠ 0)
            | _, _ => false)
      | none => false) && decide (ev.env.sender ≠ ev.pre.core.core.me) && q ev.pre

/-- A history in which the members have decided on message 200 in some module, and all assumptions are met. -/
theorem due_of [DecidableEq C] {V : VotingModule S E C O} (hV : Lawful V) {N : Now S} {caller : E → C → Option Addr}
    {toCall : Nat → Option (Said C)} {v : S} {l : List (Ev S E C O)} (hv : V.sys.Reach v ⟨1, 1⟩ l) {a : Addr}
    {q : World S → Bool} {w : World S} {b : Block} {log : List (Event S E C)}
    (hr : (sys V N decode).Run (world v) ⟨1, 1⟩ log w b) (hp : (good V N caller toCall log && due V a q log) = true) :
    ∃ (w : World S) (b : Block) (log : List (Event S E C)) (e : Env) (n : Nat) (k : Call E C),
      History V N decode caller toCall (world v) w ⟨1, 1⟩ b log ∧ b.le e.block ∧ Passed V w log e n k ∧
      e.sender ≠ w.core.core.me ∧ decode n = .other 200 ∧ q w = true := by
  rw [Bool.and_eq_true] at hp
  obtain ⟨hf, hu⟩ := hp
  have hh := good_history hv hr hf
  cases hr with
  | refl => cases hu
  | @step s1 _ b1 before env call out h1 hb hs =>
    simp only [due, Bool.and_eq_true, decide_eq_true_eq] at hu
    obtain ⟨⟨⟨⟨⟨⟨⟨hpause, hen⟩, hst0⟩, hst1⟩, hcall⟩, hprop⟩, hne⟩, hq⟩ := hu
    have hst0 := List.isEmpty_iff.1 hst0
    have hst1 := only_eq hst1
    have hen := enabled_ok hen
    have hc : call = .single a (.execute 1 false) ∨ call = .multi a (.execute 1 false) ∨
        call = .condorcet a (.execute 1 false) := by
      split at hcall
      · exact Or.inl (by rw [of_decide_eq_true hcall])
      · exact Or.inr (Or.inl (by rw [of_decide_eq_true hcall]))
      · exact Or.inr (Or.inr (by rw [of_decide_eq_true hcall]))
      · cases hcall
    clear hcall
    replace hs : step V N decode s1 env call = .ok (w, out) := hs
    have hhb := good_history hv h1 (good_tail hf)
    have hnow := hh.steady _ List.mem_cons_self
    simp only at hnow
    obtain ⟨msgs, hch⟩ := C95_decided hV (decode := decode) (later := []) (ev := ⟨s1, env, call, out, w⟩)
      (before := before) (a := a) (id := 1) ⟨_, _, hh.init, hh.run⟩ hh.steady hh.totals rfl
      (by rcases hc with rfl | rfl | rfl <;> simp [Spec.FullDao.executes])
    cases hch with
    | @single f s p hc' hg hp hdd _ =>
      simp only at hg hdd hc'
      rw [hg] at hprop
      simp only [hp, Bool.and_eq_true, decide_eq_true_eq] at hprop
      obtain ⟨h2, ⟨h3, h4⟩, h6⟩ := hprop
      have hdec := hdd (by rw [h6]; trivial)
      obtain ⟨y, o, g1, g2, g3⟩ := C95_carried_out_single (decode := decode) (N := N) hV
        ⟨_, _, hhb.init, hhb.run⟩ hhb.steady hg (hnow a _ hg) hp (Or.inr h3) h4 hdec (by simp [h2]) hpause hen
      have hcc : call = .single a (.execute 1 false) := by
        rcases hc with rfl | rfl | rfl
        · rfl
        · cases hc'
        · cases hc'
      subst hcc
      replace g1 : step V N decode s1 env (.single a (.execute 1 false)) = .ok (y, o) := g1
      rw [hs] at g1
      simp only [Except.ok.injEq, Prod.mk.injEq] at g1
      obtain ⟨rfl, rfl⟩ := g1
      rw [hst1, g2, hst0] at g3
      obtain ⟨n, hn1, hn2⟩ := one_msg g3
      exact ⟨s1, b1, before, env, n, _, hhb, hb, .single hg (hnow a _ hg) hp (Or.inr h3) h4 hdec (by simp [h2]) hpause hen hn1,
        hne, hn2, hq⟩
    | @multi o f s p cc hc' hg hp hi hdd _ =>
      simp only at hg hdd hc'
      rw [hg] at hprop
      simp only [hp, Bool.and_eq_true, decide_eq_true_eq] at hprop
      obtain ⟨h2, ⟨h3, h4⟩, h6⟩ := hprop
      have hdec := hdd (by rw [h6]; trivial)
      obtain ⟨c2, y, o', g0, g1, g2, g3⟩ := C95_carried_out_multi (decode := decode) (N := N) hV
        ⟨_, _, hhb.init, hhb.run⟩ hhb.steady hhb.totals hg (hnow a _ hg) hp (Or.inr h3) h4 hdec (by simp [h2]) hpause hen
      have hcc : call = .multi a (.execute 1 false) := by
        rcases hc with rfl | rfl | rfl
        · cases hc'
        · rfl
        · cases hc'
      subst hcc
      replace g1 : step V N decode s1 env (.multi a (.execute 1 false)) = .ok (y, o') := g1
      rw [hs] at g1
      simp only [Except.ok.injEq, Prod.mk.injEq] at g1
      obtain ⟨rfl, rfl⟩ := g1
      rw [hst1, g2, hst0] at g3
      obtain ⟨n, hn1, hn2⟩ := one_msg g3
      exact ⟨s1, b1, before, env, n, _, hhb, hb, .multi hg (hnow a _ hg) hp (Or.inr h3) h4 hdec (by simp [h2]) hpause hen
        (by rw [g0, Option.map_some, hn1]), hne, hn2, hq⟩
    | @condorcet o f s p t _ hc' hg hp ht hi hdd _ =>
      simp only at hg hdd hc'
      rw [hg] at hprop
      simp only [hp, ht, Bool.and_eq_true, decide_eq_true_eq] at hprop
      obtain ⟨⟨h2, h3⟩, h6⟩ := hprop
      have hdec := hdd (by rw [h3]; trivial)
      obtain ⟨ms, y, o', g0, g1, g2, g3⟩ := C95_carried_out_condorcet (decode := decode) (N := N) hV
        ⟨_, _, hhb.init, hhb.run⟩ hhb.steady hhb.totals hg (hnow a _ hg).1 hp ht h2 hdec h6 hpause hen
      have hcc : call = .condorcet a (.execute 1 false) := by
        rcases hc with rfl | rfl | rfl
        · cases hc'
        · cases hc'
        · rfl
      subst hcc
      replace g1 : step V N decode s1 env (.condorcet a (.execute 1 false)) = .ok (y, o') := g1
      rw [hs] at g1
      simp only [Except.ok.injEq, Prod.mk.injEq] at g1
      obtain ⟨rfl, rfl⟩ := g1
      rw [hst1, g2, hst0] at g3
      obtain ⟨n, hn1, hn2⟩ := one_msg g3
      exact ⟨s1, b1, before, env, n, _, hhb, hb, .condorcet hg (hnow a _ hg).1 hp ht h2 hdec h6 hpause hen (by rw [g0, hn1]),
        hne, hn2, hq⟩

/-- New rules of the first module: 67% of all votes, only members may execute. -/
def strict : Single.Config :=
  { threshold := .absolutePercentage (.percent (67 * 10 ^ 16)), maxVotingPeriod := .height 50, minVotingPeriod := none
    onlyMembersExecute := true, allowRevoting := false, dao := 1, closeOnExecutionFailure := true, veto := none }

/-- New rules of the second module: a quorum of 20%, votes may be changed. -/
def lax : Multiple.Config :=
  { quorum := .percent (2 * 10 ^ 17), maxVotingPeriod := .height 50, minVotingPeriod := none
    onlyMembersExecute := false, allowRevoting := true, dao := 1, closeOnExecutionFailure := true, veto := none }

/-- New rules of the third module: a quorum of 20%. -/
def quick : Condorcet.Config :=
  { quorum := .percent (2 * 10 ^ 17), votingPeriod := .height 50, minVotingPeriod := some (.height 10)
    closeOnExecutionFailure := true }

/-- The execution of proposal 1 in the module at 3, 4 or 5. -/
def executes (a : Addr) : Env × Call E C :=
  if a = 3 then (env 7 99, .single 3 (.execute 1 false)) else
  if a = 4 then (env 7 99, .multi 4 (.execute 1 false)) else (env 7 11, .condorcet 5 (.execute 1 false))

/-- The modules at 3, 4 and 5 have these rules. -/
def rules (w : World S) (p : Single.Config → Multiple.Config → Condorcet.Config → Bool) : Bool :=
  match w.mods.get 3, w.mods.get 4, w.mods.get 5 with
  | some (.single s), some (.multi m), some (.condorcet c) => p s.config m.config c.config
  | _, _, _ => false

theorem rules_ok {w : World S} {p : Single.Config → Multiple.Config → Condorcet.Config → Bool} (h : rules w p = true) :
    ∃ s m c, w.mods.get 3 = some (.single s) ∧ w.mods.get 4 = some (.multi m) ∧ w.mods.get 5 = some (.condorcet c) ∧
      p s.config m.config c.config = true := by
  unfold rules at h
  split at h
  · rename_i s m c h3 h4 h5; exact ⟨s, m, c, h3, h4, h5, h⟩
  · cases h

/-- The DAO says `x`, `k` in block 7. -/
def saying (a : Addr) (k : Call E C) : List (Env × Call E C) :=
  decided ++ [executes a, (env 7 99, .core (.deliver ⟨0, []⟩)), (env 7 1, k)]

/-- **C128.** A DAO over a group with three proposal modules. Each module decides in turn about another: the first about the
rules of the second, the second about the rules of the third, the third about the rules of the first; and the second about who is
a member. In each case all assumptions are met, and what was decided comes into force. -/
theorem C128_example : ∀ t ∈ [((3 : Addr), (.multi 4 (.updateConfig lax) : Said Cw4Voting.VCall)),
      (4, .condorcet 5 (.setConfig quick)), (5, .single 3 (.updateConfig strict)), (4, .vote admit)],
    ∃ (w : World Cw4Voting.World) (b : Block) (log : List (Event Cw4Voting.World Block Cw4Voting.VCall)),
      History cw4 cw4Now decode cw4Caller (tell t.2) (world group0) w ⟨1, 1⟩ b log ∧
      (world group0).vote.group.admin = some (world group0).core.core.me ∧
      match t.2 with
      | .multi _ _ => ∃ s, w.mods.get 4 = some (.multi s) ∧ s.config = lax
      | .condorcet _ _ => ∃ s, w.mods.get 5 = some (.condorcet s) ∧ s.config = quick
      | .single _ _ => ∃ s, w.mods.get 3 = some (.single s) ∧ s.config = strict
      | .vote _ => cw4.weight w.vote 11 = 0 ∧ cw4.weight w.vote 12 = 5 := by
  have key : ∀ (x : Said Cw4Voting.VCall) (cs : List (Env × Call Block Cw4Voting.VCall)) (q : World Cw4Voting.World → Bool),
      Sys.check (sys cw4 cw4Now decode) (world group0) ⟨1, 1⟩ cs
        (fun w _ log => good cw4 cw4Now cw4Caller (tell x) log && q w) = true →
      ∃ (w : World Cw4Voting.World) (b : Block) (log : List (Event Cw4Voting.World Block Cw4Voting.VCall)),
        History cw4 cw4Now decode cw4Caller (tell x) (world group0) w ⟨1, 1⟩ b log ∧ q w = true := by
    intro x cs q h
    obtain ⟨w, b, log, hr, hp⟩ := Sys.check_run h
    rw [Bool.and_eq_true] at hp
    exact ⟨w, b, log, good_history group0_reach hr hp.1, hp.2⟩
  intro t ht
  simp only [List.mem_cons, List.not_mem_nil, or_false] at ht
  rcases ht with rfl | rfl | rfl | rfl
  · obtain ⟨w, b, log, h1, h2⟩ := key (.multi 4 (.updateConfig lax)) (saying 3 (.multi 4 (.updateConfig lax)))
      (fun w => rules w (fun _ m _ => decide (m = lax))) (by decide +kernel)
    obtain ⟨_, m, _, _, h3, _, h4⟩ := rules_ok h2
    exact ⟨w, b, log, h1, by decide +kernel, m, h3, of_decide_eq_true h4⟩
  · obtain ⟨w, b, log, h1, h2⟩ := key (.condorcet 5 (.setConfig quick)) (saying 4 (.condorcet 5 (.setConfig quick)))
      (fun w => rules w (fun _ _ c => decide (c = quick))) (by decide +kernel)
    obtain ⟨_, _, c, _, _, h3, h4⟩ := rules_ok h2
    exact ⟨w, b, log, h1, by decide +kernel, c, h3, of_decide_eq_true h4⟩
  · obtain ⟨w, b, log, h1, h2⟩ := key (.single 3 (.updateConfig strict)) (saying 5 (.single 3 (.updateConfig strict)))
      (fun w => rules w (fun s _ _ => decide (s = strict))) (by decide +kernel)
    obtain ⟨s, _, _, h3, _, _, h4⟩ := rules_ok h2
    exact ⟨w, b, log, h1, by decide +kernel, s, h3, of_decide_eq_true h4⟩
  · obtain ⟨w, b, log, h1, h2⟩ := key (.vote admit) (saying 4 (.vote ⟨7, 7⟩ admit))
      (fun w => decide (cw4.weight w.vote 11 = 0) && decide (cw4.weight w.vote 12 = 5)) (by decide +kernel)
    rw [Bool.and_eq_true, decide_eq_true_eq, decide_eq_true_eq] at h2
    exact ⟨w, b, log, h1, by decide +kernel, h2⟩

theorem strict_sound : Single.Sound strict := Single.sound_ok (u := ()).1 (by decide +kernel)
theorem lax_sound : Multiple.Sound lax := Multiple.sound_ok (u := ()).1 (by decide +kernel)
theorem quick_sound : Condorcet.Sound quick := (Condorcet.sound_ok (c' := quick).1 (by decide +kernel)).1

/-- The DAO over the group when the members have decided on message 200 in the module at `a`. -/
theorem ready (a : Addr) (x : Said Cw4Voting.VCall) (q : World Cw4Voting.World → Bool)
    (h : Sys.check (sys cw4 cw4Now decode) (world group0) ⟨1, 1⟩ (decided ++ [executes a])
      (fun _ _ log => good cw4 cw4Now cw4Caller (tell x) log && due cw4 a q log) = true) :
    ∃ (w : World Cw4Voting.World) (b : Block) (log : List (Event Cw4Voting.World Block Cw4Voting.VCall)) (e : Env) (n : Nat)
      (k : Call Block Cw4Voting.VCall), History cw4 cw4Now decode cw4Caller (tell x) (world group0) w ⟨1, 1⟩ b log ∧
      b.le e.block ∧ Passed cw4 w log e n k ∧ e.sender ≠ w.core.core.me ∧ decode n = .other 200 ∧ q w = true := by
  obtain ⟨w, b, log, hr, hp⟩ := Sys.check_run h
  exact due_of C80_cw4 group0_reach hr hp

/-- **C129.** The rules of each kind of module are changed by a decision in another one, and the members of the group by a
decision in the third: the assumptions of the theorems are met. -/
theorem C129_example_single : ∃ (w w' : World Cw4Voting.World) (b b' : Block)
    (log : List (Event Cw4Voting.World Block Cw4Voting.VCall)) (s : Single.State),
    (sys cw4 cw4Now decode).Run w b log w' b' ∧ log.length = 3 ∧ rules w (fun c _ _ => decide (c ≠ strict)) = true ∧
    w'.mods.get 3 = some (.single s) ∧ s.config = strict := by
  obtain ⟨w, b, log, e, n, k, h1, h2, h3, h4, h5, h6⟩ := ready 5 (.single 3 (.updateConfig strict))
    (fun w => rules w (fun c _ _ => decide (c ≠ strict) && decide (c.dao = w.core.core.me))) (by decide +kernel)
  obtain ⟨s, m, c, g1, g2, g3, g4⟩ := rules_ok h6
  rw [Bool.and_eq_true, decide_eq_true_eq, decide_eq_true_eq] at g4
  obtain ⟨w', log', s', i1, _, i2, i3, i4, _⟩ := C129_single C80_cw4 h1 h2 h3 h4 h5 g1 g4.2 (c := strict) rfl strict_sound
  refine ⟨w, w', b, _, log', s', i1, ?_, ?_, i3, i4⟩
  · rw [← List.length_map (fun ev : Event Cw4Voting.World Block Cw4Voting.VCall => (ev.env, ev.call)), i2]; rfl
  · simp only [rules, g1, g2, g3, decide_eq_true_eq]; exact g4.1

/-- **C129.** The second module's, by a decision in the first. -/
theorem C129_example_multi : ∃ (w w' : World Cw4Voting.World) (b b' : Block)
    (log : List (Event Cw4Voting.World Block Cw4Voting.VCall)) (s : Multiple.State),
    (sys cw4 cw4Now decode).Run w b log w' b' ∧ log.length = 3 ∧ rules w (fun _ c _ => decide (c ≠ lax)) = true ∧
    w'.mods.get 4 = some (.multi s) ∧ s.config = lax := by
  obtain ⟨w, b, log, e, n, k, h1, h2, h3, h4, h5, h6⟩ := ready 3 (.multi 4 (.updateConfig lax))
    (fun w => rules w (fun _ c _ => decide (c ≠ lax) && decide (c.dao = w.core.core.me))) (by decide +kernel)
  obtain ⟨s, m, c, g1, g2, g3, g4⟩ := rules_ok h6
  rw [Bool.and_eq_true, decide_eq_true_eq, decide_eq_true_eq] at g4
  obtain ⟨w', log', s', i1, _, i2, i3, i4, _⟩ := C129_multi C80_cw4 h1 h2 h3 h4 h5 g2 g4.2 (c := lax) rfl lax_sound
  refine ⟨w, w', b, _, log', s', i1, ?_, ?_, i3, i4⟩
  · rw [← List.length_map (fun ev : Event Cw4Voting.World Block Cw4Voting.VCall => (ev.env, ev.call)), i2]; rfl
  · simp only [rules, g1, g2, g3, decide_eq_true_eq]; exact g4.1

/-- **C129.** The third module's, by a decision in the second. -/
theorem C129_example_condorcet : ∃ (w w' : World Cw4Voting.World) (b b' : Block)
    (log : List (Event Cw4Voting.World Block Cw4Voting.VCall)) (s : Condorcet.State),
    (sys cw4 cw4Now decode).Run w b log w' b' ∧ log.length = 3 ∧ rules w (fun _ _ c => decide (c ≠ quick)) = true ∧
    w'.mods.get 5 = some (.condorcet s) ∧ s.config = quick := by
  obtain ⟨w, b, log, e, n, k, h1, h2, h3, h4, h5, h6⟩ := ready 4 (.condorcet 5 (.setConfig quick))
    (fun w => rules w (fun _ _ c => decide (c ≠ quick))) (by decide +kernel)
  obtain ⟨s, m, c, g1, g2, g3, g4⟩ := rules_ok h6
  obtain ⟨w', log', s', i1, _, i2, i3, i4, _⟩ := C129_condorcet C80_cw4 h1 h2 h3 h4 h5 g3 (c := quick) rfl quick_sound
  refine ⟨w, w', b, _, log', s', i1, ?_, ?_, i3, i4⟩
  · rw [← List.length_map (fun ev : Event Cw4Voting.World Block Cw4Voting.VCall => (ev.env, ev.call)), i2]; rfl
  · simp only [rules, g1, g2, g3]; exact g4

/-- **C129.** The members of the group, by a decision in the third module: 11 is expelled, 12 is admitted, 10 keeps the weight. -/
theorem C129_example_cw4 : ∃ (w w' : World Cw4Voting.World) (b b' : Block)
    (log : List (Event Cw4Voting.World Block Cw4Voting.VCall)),
    (sys cw4 cw4Now decode).Run w b log w' b' ∧ log.length = 3 ∧ cw4.weight w.vote 11 = 40 ∧
    cw4.weight w'.vote 11 = 0 ∧ cw4.weight w'.vote 12 = 5 ∧ cw4.weight w'.vote 10 = 60 := by
  obtain ⟨w, b, log, e, n, k, h1, h2, h3, h4, h5, h6⟩ := ready 5 (.vote admit)
    (fun w => decide (w.core.core.me = 1) && decide (w.vote = group0)) (by decide +kernel)
  rw [Bool.and_eq_true, decide_eq_true_eq, decide_eq_true_eq] at h6
  obtain ⟨hme, hv⟩ := h6
  obtain ⟨w', log', i1, _, i2, i3, i4, i5⟩ := C129_members_cw4 h1 h2 h3 h4 h5 (by rw [hme, hv]; decide +kernel)
    (remove := [11]) (add := [(12, 5)]) (by rw [hme]; rfl) (by decide) (by rw [hv]; decide +kernel)
  refine ⟨w, w', b, _, log', i1, ?_, by rw [hv]; decide +kernel, i3 11 (by decide), i4 12 5 (by decide) (by decide), ?_⟩
  · rw [← List.length_map (fun ev : Event Cw4Voting.World Block Cw4Voting.VCall => (ev.env, ev.call)), i2]; rfl
  · rw [i5 10 (by decide) (by decide), hv]; decide +kernel

/-- **C129.** A role, by a decision in the second module of a DAO of roles. -/
theorem C129_example_roles : ∃ (w w' : World Roles.Voting.World) (b b' : Block)
    (log : List (Event Roles.Voting.World Roles.Env Roles.Voting.Call)),
    (sys roles rolesNow decode).Run w b log w' b' ∧ log.length = 3 ∧
    roles.weight w'.vote 12 = 5 ∧ roles.weight w'.vote 10 = 60 := by
  obtain ⟨w, b, log, hr, hp⟩ := Sys.check_run (M := sys roles rolesNow decode) (s := world roles0) (b := ⟨1, 1⟩)
    (cs := decided ++ [executes 4])
    (p := fun _ _ log => good roles rolesNow rolesCaller (tell (.vote appoint)) log &&
      due roles 4 (fun w => decide (w.core.core.me = 1) && decide (w.vote = roles0)) log) (by decide +kernel)
  obtain ⟨w, b, log, e, n, k, h1, h2, h3, h4, h5, h6⟩ := due_of C80_roles roles0_reach hr hp
  rw [Bool.and_eq_true, decide_eq_true_eq, decide_eq_true_eq] at h6
  obtain ⟨hme, hv⟩ := h6
  obtain ⟨w', log', i1, _, i2, i3, i4⟩ := C129_members_roles h1 h2 h3 h4 h5 (by rw [hme, hv]; decide +kernel)
    (by rw [hme, hv]; decide +kernel) (t := 3) (a := 12) (k := 5) (u := none) (r := none) rfl (by rw [hv]; decide +kernel)
    (by rw [hv]; decide +kernel) (by rw [hv]; decide +kernel)
  refine ⟨w, w', b, _, log', i1, ?_, ?_, ?_⟩
  · rw [← List.length_map (fun ev : Event Roles.Voting.World Roles.Env Roles.Voting.Call => (ev.env, ev.call)), i2]; rfl
  · rw [i3, hv]; decide +kernel
  · rw [i4 10 (by decide), hv]; decide +kernel

end Verif.FullRules.Example
