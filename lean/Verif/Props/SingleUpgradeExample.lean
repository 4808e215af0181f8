import Verif.Props.SingleUpgrade
import Verif.Props.SingleExamples
/-!
# Examples for C82: a module of version 1 with two proposals is upgraded
-/

namespace Verif.SingleUpgrade.Example
open Verif Verif.Voting Verif.Spec.SingleUpgrade
open Verif.Single (at_ play play_run)

/-- The rules of the module. -/
def rules : Single.Config :=
  { threshold := .thresholdQuorum .majority (.percent (5 * 10 ^ 17)), maxVotingPeriod := .height 10
    minVotingPeriod := none, onlyMembersExecute := true, allowRevoting := false, dao := 100
    closeOnExecutionFailure := false, veto := none }

/-- What happened under version 1: proposal 1 passes, proposal 2 has a vote against it. -/
def before : List (Single.Env × Single.Call) :=
  [(at_ 1 7, .propose none 11 [70, 71] none true),
   (at_ 2 1, .vote 1 .yes none),
   (at_ 2 2, .vote 1 .yes none),
   (at_ 3 8, .propose none 12 [80] none true),
   (at_ 4 1, .vote 2 .no none)]

/-- The state of the module then. -/
def s0 : Single.State :=
  { config := rules, count := 2
    proposals :=
      [(1, { content := 11, proposer := 7, startHeight := 1, minVotingPeriod := none, expiration := .atHeight 11
             threshold := rules.threshold, totalPower := 9, msgs := [70, 71], status := .passed, votes := ⟨7, 0, 0⟩
             allowRevoting := false, veto := none }),
       (2, { content := 12, proposer := 8, startHeight := 3, minVotingPeriod := none, expiration := .atHeight 13
             threshold := rules.threshold, totalPower := 9, msgs := [80], status := .opened, votes := ⟨0, 4, 0⟩
             allowRevoting := false, veto := none })]
    ballots := [((1, 1), ⟨4, .yes, none⟩), ((1, 2), ⟨3, .yes, none⟩), ((2, 1), ⟨4, .no, none⟩)]
    proposalHooks := none, voteHooks := none, policy := .anyone }

/-- How version 1 has stored it. -/
def st0 : Storage :=
  { version := 1
    v1Config := some { threshold := .thresholdQuorum .majority (.percent (5 * 10 ^ 17)), maxVotingPeriod := .height 10
                       minVotingPeriod := none, onlyMembersExecute := true, allowRevoting := false, dao := 100 }
    v1Proposals :=
      [(1, { content := 11, proposer := 7, startHeight := 1, minVotingPeriod := none, expiration := .atHeight 11
             threshold := .thresholdQuorum .majority (.percent (5 * 10 ^ 17)), totalPower := 9, msgs := [70, 71]
             status := .passed, votes := ⟨7, 0, 0⟩, allowRevoting := false, deposit := some 0 }),
       (2, { content := 12, proposer := 8, startHeight := 3, minVotingPeriod := none, expiration := .atHeight 13
             threshold := .thresholdQuorum .majority (.percent (5 * 10 ^ 17)), totalPower := 9, msgs := [80]
             status := .opened, votes := ⟨0, 4, 0⟩, allowRevoting := false, deposit := none })]
    config := none, proposals := [], policy := none, count := 2, ballots := s0.ballots
    proposalHooks := none, voteHooks := none }

/-- The stored state is the state. -/
theorem represents : Represents st0 s0 where
  old := ⟨rfl, rfl, rfl⟩
  config := ⟨_, rfl, rfl, rfl, rfl, rfl, rfl, rfl⟩
  keys := by unfold AMap.WF; decide
  proposals := .cons ⟨rfl, rfl, rfl, rfl, rfl, rfl, rfl, rfl, rfl, .passed, ⟨rfl, rfl, rfl⟩, rfl, rfl⟩
    (.cons ⟨rfl, rfl, rfl, rfl, rfl, rfl, rfl, rfl, rfl, .opened, ⟨rfl, rfl, rfl⟩, rfl, rfl⟩ .nil)
  count := rfl
  ballots := rfl
  hooks := ⟨rfl, rfl⟩

/-- What `before` leads to. -/
def end_ : Option (Single.State × Block × List Single.Event) :=
  match Single.instantiate (at_ 0 100) rules .anyoneMayPropose with
  | .ok (s, _) => play s (at_ 0 100).block before
  | .error _ => none

/-- And it is one proposals lead to. -/
theorem reached : ∃ log0, Single.Reach s0 ⟨4, 4⟩ log0 ∧ log0.length = 5 := by
  have h : (end_.map fun r => (r.1, r.2.1, r.2.2.length)) = some (s0, ⟨4, 4⟩, 5) := by decide +kernel
  unfold end_ at h
  split at h
  · rename_i s out h0
    cases hp : play s (at_ 0 100).block before with
    | none => rw [hp] at h; cases h
    | some r =>
      obtain ⟨s', b, log⟩ := r
      rw [hp] at h
      simp only [Option.map_some, Option.some.injEq, Prod.mk.injEq] at h
      obtain ⟨rfl, rfl, h⟩ := h
      exact ⟨log, ⟨_, _, _, _, _, h0, play_run hp⟩, h⟩
  · cases h

/-- A veto for the new version. -/
def veto : VetoConfig := { timelockDuration := .height 5, vetoer := 50, earlyExecute := false, vetoBeforePassed := false }

/-- The upgrade, with a pre-propose module; proposal 1 is executed, proposal 2 gets another vote; a later upgrade. -/
def after : List (Single.Env × Call) :=
  [(at_ 5 100, .migrate 2 (.fromV1 true .moduleMayPropose (some veto))),
   (at_ 5 100, .exec (.replyPreProposeInstantiated 60)),
   (at_ 6 1, .exec (.execute 1 false)),
   (at_ 7 2, .exec (.vote 2 .yes none)),
   (at_ 8 100, .migrate 3 .fromCompatible)]

/-- The same, and then the upgrade from version 1 once more. -/
def again : List (Single.Env × Call) :=
  after ++ [(at_ 9 100, .migrate 4 (.fromV1 true .anyoneMayPropose none)), (at_ 10 1, .exec (.execute 1 false))]

/-- `FirstOnly` as a check. -/
def firstOnly (log : List Event) : Bool :=
  log.all fun e => match e.call with
    | .migrate _ (.fromV1 _ _ _) => e.pre.config.isNone
    | _ => true

theorem firstOnly_ok {log : List Event} (h : firstOnly log = true) : FirstOnly log := by
  intro e he hv
  obtain ⟨_, _, _, _, hc⟩ := hv
  have := List.all_eq_true.1 h e he
  rw [hc] at this
  simpa using this

/-- **C82, example.** The upgrade is accepted, the passed proposal is executed once, the other one goes on with the vote
it had; all hypotheses of the theorems are met. -/
theorem C82_example : ∃ st' b' log log0, Represents st0 s0 ∧ Single.Reach s0 ⟨4, 4⟩ log0 ∧
    sys.Run st0 ⟨4, 4⟩ log st' b' ∧ FirstOnly log ∧ log.length = 5 ∧ (log.filter (executesId 1)).length = 1 ∧
    (st'.view.map fun s => (s.policy, s.proposals.map fun e => (e.1, e.2.status, e.2.votes))) =
      some (.module 60, [(1, .executed, ⟨7, 0, 0⟩), (2, .opened, ⟨3, 4, 0⟩)]) := by
  obtain ⟨log0, h0, _⟩ := reached
  obtain ⟨st', b', log, hr, hp⟩ := Sys.check_run (M := sys) (s := st0) (b := ⟨4, 4⟩) (cs := after)
    (p := fun st _ log => firstOnly log && decide (log.length = 5 ∧ (log.filter (executesId 1)).length = 1 ∧
      (st.view.map fun s => (s.policy, s.proposals.map fun e => (e.1, e.2.status, e.2.votes))) =
        some (.module 60, [(1, .executed, ⟨7, 0, 0⟩), (2, .opened, ⟨3, 4, 0⟩)]))) (by decide +kernel)
  rw [Bool.and_eq_true, decide_eq_true_eq] at hp
  exact ⟨st', b', log, log0, represents, h0, hr, firstOnly_ok hp.1, hp.2⟩

/-- **C82 is false without that hypothesis.** When the upgrade from version 1 is made again, an executed proposal is
passed again and its messages are sent a second time, and the tally of another proposal forgets a ballot. -/
theorem C82_again_witness : ∃ st' b' log log0, Represents st0 s0 ∧ Single.Reach s0 ⟨4, 4⟩ log0 ∧
    sys.Run st0 ⟨4, 4⟩ log st' b' ∧ (log.filter (executesId 1)).length = 2 ∧
    ((log.filter (executesId 1)).map fun e => (e.out.msgs.map (·.msg)).filter Spec.isExecuteOnDao) =
      [[.executeOnDao 100 [70, 71]], [.executeOnDao 100 [70, 71]]] ∧
    (st'.view.map fun s => (Spec.ballotSum s 2 .yes, s.proposals.map fun e => (e.1, e.2.status, e.2.votes))) =
      some (3, [(1, .executed, ⟨7, 0, 0⟩), (2, .opened, ⟨0, 4, 0⟩)]) := by
  obtain ⟨log0, h0, _⟩ := reached
  obtain ⟨st', b', log, hr, hp⟩ := Sys.check_run (M := sys) (s := st0) (b := ⟨4, 4⟩) (cs := again)
    (p := fun st _ log => decide ((log.filter (executesId 1)).length = 2 ∧
      ((log.filter (executesId 1)).map fun e => (e.out.msgs.map (·.msg)).filter Spec.isExecuteOnDao) =
        [[.executeOnDao 100 [70, 71]], [.executeOnDao 100 [70, 71]]] ∧
      (st.view.map fun s => (Spec.ballotSum s 2 .yes, s.proposals.map fun e => (e.1, e.2.status, e.2.votes))) =
        some (3, [(1, .executed, ⟨7, 0, 0⟩), (2, .opened, ⟨0, 4, 0⟩)]))) (by decide +kernel)
  rw [decide_eq_true_eq] at hp
  exact ⟨st', b', log, log0, represents, h0, hr, hp⟩

/-- A module with a deposit out is not upgraded. -/
theorem C82_example_refused : ¬ ∃ r, migrate 2 { st0 with v1Proposals := st0.v1Proposals.map fun e => (e.1, { e.2 with deposit := some 5 }) } (.fromV1 true .anyoneMayPropose none) = .ok r := by
  rw [C82_accepted]
  rintro ⟨_, h, _⟩
  exact h _ (List.mem_cons_self ..) ⟨⟨5, rfl, by decide⟩, by decide, by decide⟩

end Verif.SingleUpgrade.Example
