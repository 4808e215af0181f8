import Verif.Props.Condorcet
/-!
# A concrete history of dao-proposal-condorcet

It meets the hypotheses of the theorems about histories: two proposals with three choices, five ballots,
an execution and a closing.
-/

namespace Verif.Condorcet
open Verif Verif.Voting Verif.Spec.Condorcet

/-- Play a list of calls; fails when one of them fails or a block goes back. -/
def play (s : State) (b : Block) : List (Env × Call) → Option (State × Block × List Event)
  | [] => some (s, b, [])
  | (env, call) :: rest =>
    if b.height ≤ env.block.height ∧ b.time ≤ env.block.time then
      match step s env call with
      | .ok (s', out) =>
        match play s' env.block rest with
        | some (s'', b'', log) => some (s'', b'', log ++ [⟨s, env, call, out, s'⟩])
        | none => none
      | .error _ => none
    else none

theorem run_append {s s1 s2 : State} {b b1 b2 : Block} {l1 l2 : List Event}
    (h1 : Run s b l1 s1 b1) (h2 : Run s1 b1 l2 s2 b2) : Run s b (l2 ++ l1) s2 b2 := by
  induction h2 with
  | refl => exact h1
  | step _ hb h ih => exact .step ih hb h

theorem play_run {s s' : State} {b b' : Block} {cs : List (Env × Call)} {log : List Event}
    (h : play s b cs = some (s', b', log)) : Run s b log s' b' := by
  induction cs generalizing s b s' b' log with
  | nil => simp [play] at h; obtain ⟨rfl, rfl, rfl⟩ := h; exact .refl
  | cons c cs ih =>
    obtain ⟨env, call⟩ := c
    simp only [play] at h
    split at h
    · rename_i hb
      split at h
      · rename_i s1 out hs
        split at h
        · rename_i s2 b2 l hp
          simp only [Option.some.injEq, Prod.mk.injEq] at h
          obtain ⟨rfl, rfl, rfl⟩ := h
          exact run_append (.step .refl hb hs) (ih hp)
        · cases h
      · cases h
    · cases h

/-- Three voters. -/
def members (a : Addr) : Nat := if a = 1 then 4 else if a = 2 then 3 else if a = 3 then 2 else 0

/-- An environment at height `h`. -/
def at_ (h : Nat) (sender : Addr) : Env :=
  { block := ⟨h, h⟩, sender := sender, power := fun _ a _ => members a, powerNow := fun _ => members,
    totalNow := fun _ => 9 }

/-- Majority quorum, ten blocks. -/
def cfg : Config :=
  { quorum := .majority, votingPeriod := .height 10, minVotingPeriod := some (.height 2),
    closeOnExecutionFailure := true }

/-- The first proposal is won by choice 1 and executed, the second is a cycle and closed. -/
def history : List (Env × Call) :=
  [(at_ 1 1, .propose [[70], [80, 81]]),
   (at_ 2 1, .vote 1 [1, 0, 2]),
   (at_ 2 2, .propose [[90], []]),
   (at_ 3 2, .vote 1 [0, 1, 2]),
   (at_ 3 1, .vote 2 [0, 1, 2]),
   (at_ 4 3, .vote 1 [1, 2, 0]),
   (at_ 5 1, .execute 1 false),
   (at_ 5 2, .vote 2 [1, 2, 0]),
   (at_ 6 3, .vote 2 [2, 0, 1]),
   (at_ 7 8, .close 2)]

/-- The state in which the contract starts. -/
def start : State :=
  match instantiate (at_ 1 0) cfg with
  | .ok s => s
  | .error _ => ⟨0, cfg, [], [], []⟩

/-- The history plays to its end. -/
theorem history_plays : (play start ⟨1, 1⟩ history).isSome = true := by decide +kernel

/-- What the history leads to: statuses, winners and outstanding powers. -/
theorem history_result :
    (match play start ⟨1, 1⟩ history with
     | some (s, _, log) =>
       (s.proposals.get 1).map Proposal.lastStatus == some .executed &&
       (s.proposals.get 2).map Proposal.lastStatus == some .closed &&
       (s.tallies.get 1).map Tally.winner == some (.undisputed 1) &&
       (s.tallies.get 2).map Tally.winner == some .never &&
       (s.tallies.get 1).map Tally.outstanding == some 0 &&
       log.length == 10
     | none => false) = true := by decide +kernel

/-- Halfway, after the fourth call, the first proposal has the power of member 3 outstanding and choice 1
beats the others by one, which is disputed. -/
theorem history_halfway :
    (match play start ⟨1, 1⟩ (history.take 4) with
     | some (s, _, _) =>
       (s.tallies.get 1).map Tally.winner == some (.some 1) &&
       (s.tallies.get 1).map Tally.outstanding == some 2
     | none => false) = true := by decide +kernel

theorem start_eq : instantiate (at_ 1 0) cfg = .ok start := by decide +kernel

/-- So there is a reachable state after these ten calls. -/
theorem history_reach : ∃ s b log, Reach s b log ∧ log.length = 10 := by
  have h1 := history_plays
  have h2 := history_result
  cases hp : play start ⟨1, 1⟩ history with
  | none => rw [hp] at h1; cases h1
  | some r =>
    obtain ⟨s, b, log⟩ := r
    rw [hp] at h2
    simp only [Bool.and_eq_true, beq_iff_eq] at h2
    exact ⟨s, b, log, ⟨at_ 1 0, cfg, start, start_eq, play_run hp⟩, h2.2⟩

end Verif.Condorcet
