import Verif.Props.Hooks
/-!
# Concrete histories of dao-proposal-single

They show that the hypotheses of the theorems about histories are met by histories in which something
happens: proposals, votes, revotes, vetoes, executions, failing executions, configuration changes.
-/

namespace Verif.Single
open Verif Verif.Voting Verif.Spec

/-- Play a list of calls; fails when one of them fails or a block goes back. -/
def play (s : State) (b : Block) : List (Env × Call) → Option (State × Block × List Event)
  | [] => some (s, b, [])
  | (env, call) :: rest =>
    if b.height ≤ env.block.height ∧ b.time ≤ env.block.time then
      match step s env call with
      | .ok (s', out) =>
        match play s' env.block rest with
        | some (s'', b'', log) => some (s'', b'', log ++ [⟨s, env, call, out, s'⟩])
        | none => none
      | .error _ => none
    else none

theorem run_append {s s1 s2 : State} {b b1 b2 : Block} {l1 l2 : List Event}
    (h1 : Run s b l1 s1 b1) (h2 : Run s1 b1 l2 s2 b2) : Run s b (l2 ++ l1) s2 b2 := by
  induction h2 with
  | refl => exact h1
  | step _ hb h ih => exact .step ih hb h

theorem play_run {s s' : State} {b b' : Block} {cs : List (Env × Call)} {log : List Event}
    (h : play s b cs = some (s', b', log)) : Run s b log s' b' := by
  induction cs generalizing s b s' b' log with
  | nil => simp [play] at h; obtain ⟨rfl, rfl, rfl⟩ := h; exact .refl
  | cons c cs ih =>
    obtain ⟨env, call⟩ := c
    simp only [play] at h
    split at h
    · rename_i hb
      split at h
      · rename_i s1 out hs
        split at h
        · rename_i s2 b2 l hp
          simp only [Option.some.injEq, Prod.mk.injEq] at h
          obtain ⟨rfl, rfl, rfl⟩ := h
          exact run_append (.step .refl hb hs) (ih hp)
        · cases h
      · cases h
    · cases h

/-- Members 1, 2, 3 have power 4, 3, 2; everybody else none; DAO is address 100. -/
def members (a : Addr) : Nat := if a = 1 then 4 else if a = 2 then 3 else if a = 3 then 2 else 0

/-- An environment at height `h`. -/
def at_ (h : Nat) (sender : Addr) : Env :=
  { block := ⟨h, h⟩, sender := sender, power := fun _ a _ => members a, total := fun _ _ => 9,
    active := true }

/-- A configuration with veto: majority of half of the power voting, 10 blocks, 5 blocks timelock. -/
def cfg (revote : Bool) : Config :=
  { threshold := .thresholdQuorum .majority (.percent (5 * 10 ^ 17)), maxVotingPeriod := .height 10,
    minVotingPeriod := some (.height 2), onlyMembersExecute := true, allowRevoting := revote,
    dao := 0, closeOnExecutionFailure := true,
    veto := some { timelockDuration := .height 5, vetoer := 50, earlyExecute := true,
                   vetoBeforePassed := false } }

/-- Two proposals: the first passes and is executed after the timelock, the DAO's message fails; the
second is vetoed. In between the DAO changes the configuration. -/
def history : List (Env × Call) :=
  [(at_ 1 7, .propose none 11 [70, 71] none true),
   (at_ 2 1, .vote 1 .yes none),
   (at_ 3 3, .vote 1 .no (some 5)),
   (at_ 4 100, .updateConfig { cfg true with threshold := .absoluteCount 1, dao := 100 }),
   (at_ 5 2, .vote 1 .yes none),
   (at_ 5 8, .propose none 12 [80] none true),
   (at_ 6 1, .vote 2 .no none),
   (at_ 7 1, .vote 2 .yes none),
   (at_ 15 50, .veto 2),
   (at_ 16 3, .execute 1 true)]

/-- The state after `history`. -/
def historyEnd : Option (State × Block × List Event) :=
  match instantiate (at_ 0 100) (cfg false) .anyoneMayPropose with
  | .ok (s, _) => play s (at_ 0 100).block history
  | .error _ => none

/-- The history is a real one: all calls succeed, two proposals exist, the first one failed in
execution, the second was vetoed after a revote. -/
theorem history_plays :
    (historyEnd.map fun r => (r.1.count, r.1.proposals.map fun e => (e.1, e.2.status, e.2.votes)))
      = some (2, [(1, .executionFailed, ⟨7, 2, 0⟩), (2, .vetoed, ⟨4, 0, 0⟩)]) := by
  decide +kernel

/-- So the hypotheses of C06-C15 are met by it. -/
theorem history_reach : ∃ s b log, Reach s b log ∧ log.length = 10 ∧
    (log.any fun e => isExecuteOf 1 e.call) = true ∧ (log.any fun e => isVetoOf 2 e.call) = true := by
  have hlen : (historyEnd.map fun r => (r.2.2.length, r.2.2.any fun e => isExecuteOf 1 e.call,
      r.2.2.any fun e => isVetoOf 2 e.call)) = some (10, true, true) := by decide +kernel
  unfold historyEnd at hlen
  split at hlen
  · rename_i s0 out h0
    cases hp : play s0 (at_ 0 100).block history with
    | none => rw [hp] at hlen; cases hlen
    | some r =>
      obtain ⟨s, b, log⟩ := r
      rw [hp] at hlen
      simp only [Option.map_some, Option.some.injEq, Prod.mk.injEq] at hlen
      exact ⟨s, b, log, ⟨_, _, _, _, _, h0, play_run hp⟩, hlen⟩
  · cases hlen

theorem members_bounded (l : List Addr) (h : l.Nodup) : (l.map members).sum ≤ 9 := by
  have key : ∀ l : List Addr, l.Nodup → (l.map members).sum ≤
      (if 1 ∈ l then 4 else 0) + (if 2 ∈ l then 3 else 0) + (if 3 ∈ l then 2 else 0) := by
    intro l hn
    induction l with
    | nil => simp
    | cons a l ih =>
      have hn' := List.nodup_cons.1 hn
      have ih := ih hn'.2
      have ha := hn'.1
      simp only [List.map_cons, List.sum_cons, List.mem_cons]
      unfold members at *
      by_cases h1 : a = 1
      · subst h1; simp [ha] at ih ⊢; omega
      · by_cases h2 : a = 2
        · subst h2; simp [ha] at ih ⊢; omega
        · by_cases h3 : a = 3
          · subst h3; simp [ha] at ih ⊢; omega
          · have e1 : ¬ 1 = a := fun h => h1 h.symm
            have e2 : ¬ 2 = a := fun h => h2 h.symm
            have e3 : ¬ 3 = a := fun h => h3 h.symm
            simp [h1, h2, h3, e1, e2, e3]; omega
  have := key l h
  split at this <;> split at this <;> split at this <;> omega

theorem play_env {s s' : State} {b b' : Block} {cs : List (Env × Call)} {log : List Event}
    (h : play s b cs = some (s', b', log)) {e : Event} (he : e ∈ log) : ∃ c ∈ cs, e.env = c.1 := by
  induction cs generalizing s b s' b' log with
  | nil => simp [play] at h; obtain ⟨rfl, rfl, rfl⟩ := h; simp at he
  | cons c cs ih =>
    obtain ⟨env, call⟩ := c
    simp only [play] at h
    split at h
    · split at h
      · split at h
        · rename_i s2 b2 l hp
          simp only [Option.some.injEq, Prod.mk.injEq] at h
          obtain ⟨rfl, rfl, rfl⟩ := h
          rcases List.mem_append.1 he with he | he
          · obtain ⟨c, hc, h⟩ := ih hp he
            exact ⟨c, List.mem_cons_of_mem _ hc, h⟩
          · simp at he; subst he; exact ⟨_, List.mem_cons_self, rfl⟩
        · cases h
      · cases h
    · cases h

/-- The voting module of the history is consistent, so C08 and C10 apply to it. -/
theorem history_stable : ∃ s b log, Reach s b log ∧ log.length = 10 ∧
    StablePowers log (fun a _ => members a) (fun _ => 9) := by
  have hlen : (historyEnd.map fun r => r.2.2.length) = some 10 := by decide +kernel
  unfold historyEnd at hlen
  split at hlen
  · rename_i s0 out h0
    cases hp : play s0 (at_ 0 100).block history with
    | none => rw [hp] at hlen; cases hlen
    | some r =>
      obtain ⟨s, b, log⟩ := r
      rw [hp] at hlen
      simp only [Option.map_some, Option.some.injEq] at hlen
      have hat : ∀ c ∈ history, ∃ h x, c.1 = at_ h x := by
        intro c hc
        simp only [history, List.mem_cons, List.not_mem_nil, or_false] at hc
        rcases hc with h | h | h | h | h | h | h | h | h | h <;> subst h <;> exact ⟨_, _, rfl⟩
      refine ⟨s, b, log, ⟨_, _, _, _, _, h0, play_run hp⟩, hlen, ?_, ?_, ?_⟩
      · intro e he a h
        obtain ⟨c, hc, hce⟩ := play_env hp he
        obtain ⟨x, y, hxy⟩ := hat c hc
        rw [hce, hxy]; rfl
      · intro e he h
        obtain ⟨c, hc, hce⟩ := play_env hp he
        obtain ⟨x, y, hxy⟩ := hat c hc
        rw [hce, hxy]; rfl
      · intro h l hl; exact members_bounded l hl
  · cases hlen

end Verif.Single
