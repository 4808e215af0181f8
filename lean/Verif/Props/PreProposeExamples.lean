import Verif.Props.PreProposeOnce
import Verif.Props.SingleExamples
/-!
# Concrete histories of a pre-propose module with dao-proposal-single

They show that the hypotheses of C52 and C53 are met by histories in which something happens, and what happens when
the DAO replaces the module or withdraws deposits.
-/

namespace Verif.PrePropose
open Verif Verif.Voting Verif.Spec.PrePropose
open Verif.Single (at_ cfg)

/-- A transaction at height `h`. -/
def tx (h : Nat) (a : Addr) (funds : List (Nat × Nat) := []) : Env single :=
  { mod := at_ h a, funds := funds, power := Verif.Single.members }

/-- 5 of the native denomination 9, given back to the proposer if the proposal is executed. -/
def depA : Deposit := ⟨.native 9, 5, .onlyPassed⟩
/-- 8 of the cw20 token 33, always given back. -/
def depB : Deposit := ⟨.cw20 33, 8, .always⟩

/-- The proposal module (address 40) of the DAO 100, just instantiated. -/
def freshModule : Single.State :=
  { config := { cfg false with dao := 100 }, count := 0, proposals := [], ballots := []
    proposalHooks := none, voteHooks := none, policy := .anyone }

/-- The pre-propose module at address 60, just instantiated. -/
def start : World single :=
  { here := 60, pre := ⟨40, 100, ⟨some depA, .anyone [6]⟩, [], none⟩, mod := freshModule
    bal := [((.native 9, 7), 20), ((.cw20 33, 8), 30)], queue := [], takes := [] }

theorem start_init : (sys single).init ⟨0, 0⟩ start := by
  refine ⟨.init ⟨at_ 0 100, cfg false, .moduleMayPropose, ?_⟩, rfl, rfl, by decide, by decide,
    ⟨some depA, .anyone [6]⟩, ?_⟩
  · refine ⟨_, rfl, (?_ : Single.instantiate (at_ 0 100) (cfg false) .moduleMayPropose =
      .ok (freshModule, { msgs := (Single.initialPolicy .moduleMayPropose).2 }))⟩
    decide +kernel
  · have : GoodDeposit (some depA) := ⟨by decide, by unfold depA; unfold U128; decide⟩
    unfold instantiate
    have h1 : checkDeposit (some depA) = .ok () := checkDeposit_ok.2 this
    simp only [start, h1, ok_bind, Policy.validate]

/-- Two proposals are submitted, with deposits under different rules; the first is executed, the second vetoed. -/
def calls : List (Env single × Call single) :=
  [(tx 0 40, .module (.replyPreProposeInstantiated 60)),
   (tx 1 7 [(9, 5)], .propose ⟨11, [70], none, true⟩),
   (tx 2 100, .pre (.updateConfig (some depB) none)),
   (tx 2 100, .pre (.updatePolicy (some [5]) (some [6]) none none none)),
   (tx 3 8, .propose ⟨12, [80], none, true⟩),
   (tx 3 8, .take 0),
   (tx 4 1, .module (.vote 1 .yes none)),
   (tx 5 2, .module (.vote 1 .yes none)),
   (tx 6 1, .module (.vote 2 .yes none)),
   (tx 7 2, .module (.vote 2 .yes none)),
   (tx 15 50, .module (.veto 2)),
   (tx 15 50, .deliver 0),
   (tx 16 3, .module (.execute 1 false)),
   (tx 16 3, .deliver 0)]

/-- All calls succeed; both proposals are final and both deposits went back to who had paid them, each under the rules
of its submission. -/
theorem example_history : ∃ w b log, (sys single).Reach w b log ∧
    log.length = 14 ∧ w.queue.length = 0 ∧ w.takes.length = 0 ∧
    single.statusOf w.mod 1 = some .executed ∧ single.statusOf w.mod 2 = some .vetoed ∧
    (submissions log) = [(2, some depB, 8), (1, some depA, 7)] ∧
    log.filterMap (fun e => settled e) = [(1, .executed), (2, .vetoed)] ∧
    (log.map (fun e => e.out.pays)).flatten = [⟨7, .native 9, 5⟩, ⟨8, .cw20 33, 8⟩] ∧
    w.holds (.native 9) = 0 ∧ w.holds (.cw20 33) = 0 ∧ single.policy w.mod = .module 60 := by
  obtain ⟨w, b, log, hr, hp⟩ := Sys.check_run (M := sys single) (s := start) (b := ⟨0, 0⟩) (cs := calls)
    (p := fun w b log => decide (log.length = 14 ∧ w.queue.length = 0 ∧ w.takes.length = 0 ∧
      single.statusOf w.mod 1 = some .executed ∧ single.statusOf w.mod 2 = some .vetoed ∧
      (submissions log) = [(2, some depB, 8), (1, some depA, 7)] ∧
      log.filterMap (fun e => settled e) = [(1, .executed), (2, .vetoed)] ∧
      (log.map (fun e => e.out.pays)).flatten = [⟨7, .native 9, 5⟩, ⟨8, .cw20 33, 8⟩] ∧
      w.holds (.native 9) = 0 ∧ w.holds (.cw20 33) = 0 ∧ single.policy w.mod = .module 60)) (by decide +kernel)
  exact ⟨w, b, log, ⟨_, _, start_init, hr⟩, of_decide_eq_true hp⟩

/-- The DAO replaces the pre-propose module (by one at address 61) while a proposal with a deposit is open. -/
def replaced : List (Env single × Call single) :=
  [(tx 0 40, .module (.replyPreProposeInstantiated 60)),
   (tx 1 7 [(9, 5)], .propose ⟨11, [70], none, true⟩),
   (tx 2 100, .module (.replyPreProposeInstantiated 61)),
   (tx 4 1, .module (.vote 1 .yes none)),
   (tx 5 2, .module (.vote 1 .yes none)),
   (tx 16 3, .module (.execute 1 false))]

/-- C52 needs that the module stays attached: if the DAO replaces it, the completion of an open proposal is never told
and its deposit stays where it is. -/
theorem C52_replaced_strands : ∃ w b log, (sys single).Reach w b log ∧
    single.statusOf w.mod 1 = some .executed ∧ submissions log = [(1, some depA, 7)] ∧ w.queue.length = 0 ∧
    log.filterMap (fun e => delivered e) = [] ∧ w.holds (.native 9) = 5 := by
  obtain ⟨w, b, log, hr, hp⟩ := Sys.check_run (M := sys single) (s := start) (b := ⟨0, 0⟩) (cs := replaced)
    (p := fun w b log => decide (single.statusOf w.mod 1 = some .executed ∧ submissions log = [(1, some depA, 7)] ∧
      w.queue.length = 0 ∧ log.filterMap (fun e => delivered e) = [] ∧ w.holds (.native 9) = 5)) (by decide +kernel)
  exact ⟨w, b, log, ⟨_, _, start_init, hr⟩, of_decide_eq_true hp⟩

/-- The DAO withdraws the deposits while a proposal is open. -/
def withdrawn : List (Env single × Call single) :=
  [(tx 0 40, .module (.replyPreProposeInstantiated 60)),
   (tx 1 7 [(9, 5)], .propose ⟨11, [70], none, true⟩),
   (tx 2 100, .pre (.withdraw none)),
   (tx 4 1, .module (.vote 1 .yes none)),
   (tx 5 2, .module (.vote 1 .yes none)),
   (tx 16 3, .module (.execute 1 false)),
   (tx 16 3, .deliver 0)]

/-- And that the DAO does not withdraw: if it does, the completion of an open proposal fails, its deposit is not paid,
and the proposal module drops the pre-propose module, so that anyone may propose. -/
theorem C52_withdrawn_detaches : ∃ w b log, (sys single).Reach w b log ∧
    single.statusOf w.mod 1 = some .executed ∧ submissions log = [(1, some depA, 7)] ∧ w.queue.length = 0 ∧
    log.filterMap (fun e => delivered e) = [(1, .executed)] ∧ log.filterMap (fun e => settled e) = [] ∧
    getD0 w.bal (.native 9, 7) = 15 ∧ single.policy w.mod = .anyone := by
  obtain ⟨w, b, log, hr, hp⟩ := Sys.check_run (M := sys single) (s := start) (b := ⟨0, 0⟩) (cs := withdrawn)
    (p := fun w b log => decide (single.statusOf w.mod 1 = some .executed ∧ submissions log = [(1, some depA, 7)] ∧
      w.queue.length = 0 ∧ log.filterMap (fun e => delivered e) = [(1, .executed)] ∧
      log.filterMap (fun e => settled e) = [] ∧ getD0 w.bal (.native 9, 7) = 15 ∧ single.policy w.mod = .anyone))
    (by decide +kernel)
  exact ⟨w, b, log, ⟨_, _, start_init, hr⟩, of_decide_eq_true hp⟩

end Verif.PrePropose
