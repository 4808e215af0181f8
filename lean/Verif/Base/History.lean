import Verif.Base.Core
/-!
# Histories of a contract

A contract together with what surrounds it is a deterministic transition system whose steps are
successful transactions. A failing transaction changes nothing on chain, so it is no step.
-/

namespace Verif

/-- A transition system: `S` states, `E` what a transaction sees of the chain, `C` calls, `O` what a call
sends or returns. `init b s`: the contract may be instantiated in block `b` with state `s`. -/
structure Sys (S E C O : Type) where
  init : Block → S → Prop
  block : E → Block
  step : S → E → C → Res (S × O)

/-- One successful transaction of a history, with the states before and after it. -/
structure Ev (S E C O : Type) where
  pre : S
  env : E
  call : C
  out : O
  post : S

namespace Sys
variable {S E C O : Type}

/-- `Run s b log s' b'`: from state `s` in block `b` the successful calls `log` (newest first), in blocks
that never go back, lead to state `s'` in block `b'`. -/
inductive Run (M : Sys S E C O) (s : S) (b : Block) : List (Ev S E C O) → S → Block → Prop where
  | refl : Run M s b [] s b
  | step {s1 s2 : S} {b1 : Block} {log : List (Ev S E C O)} {env : E} {call : C} {out : O}
      (hr : Run M s b log s1 b1) (hb : b1.le (M.block env)) (h : M.step s1 env call = .ok (s2, out)) :
      Run M s b (⟨s1, env, call, out, s2⟩ :: log) s2 (M.block env)

/-- `s` is reached from some instantiation by the calls `log`. -/
def Reach (M : Sys S E C O) (s : S) (b : Block) (log : List (Ev S E C O)) : Prop :=
  ∃ b0 s0, M.init b0 s0 ∧ M.Run s0 b0 log s b

variable {M : Sys S E C O}

theorem Run.append {s s1 s2 : S} {b b1 b2 : Block} {l1 l2 : List (Ev S E C O)}
    (h1 : M.Run s b l1 s1 b1) (h2 : M.Run s1 b1 l2 s2 b2) : M.Run s b (l2 ++ l1) s2 b2 := by
  induction h2 with
  | refl => exact h1
  | step _ hb h ih => exact .step ih hb h

theorem Reach.run {s s' : S} {b b' : Block} {l l' : List (Ev S E C O)} (h : M.Reach s b l)
    (hr : M.Run s b l' s' b') : M.Reach s' b' (l' ++ l) := by
  obtain ⟨b0, s0, h0, h1⟩ := h
  exact ⟨b0, s0, h0, h1.append hr⟩

theorem Reach.step {s s' : S} {b : Block} {l : List (Ev S E C O)} {env : E} {call : C} {out : O}
    (h : M.Reach s b l) (hb : b.le (M.block env)) (hs : M.step s env call = .ok (s', out)) :
    M.Reach s' (M.block env) (⟨s, env, call, out, s'⟩ :: l) :=
  h.run (.step .refl hb hs)

theorem Run.block_le {s s' : S} {b b' : Block} {l : List (Ev S E C O)} (h : M.Run s b l s' b') :
    b.le b' := by
  induction h with
  | refl => exact Block.le_refl _
  | step _ hb _ ih => exact Block.le_trans ih hb

/-- Every event of a run is a step of the system from a state of the run. -/
theorem Run.event {s s' : S} {b b' : Block} {l : List (Ev S E C O)} (h : M.Run s b l s' b') :
    ∀ e ∈ l, ∃ l1 l2 b1, l = l2 ++ e :: l1 ∧ M.Run s b l1 e.pre b1 ∧ b1.le (M.block e.env) ∧
      M.step e.pre e.env e.call = .ok (e.post, e.out) ∧ M.Run e.post (M.block e.env) l2 s' b' := by
  induction h with
  | refl => intro e he; simp at he
  | step hr hb hs ih =>
    intro e he
    rcases List.mem_cons.1 he with rfl | he
    · exact ⟨_, [], _, rfl, hr, hb, hs, .refl⟩
    · obtain ⟨l1, l2, b1, rfl, h1, h2, h3, h4⟩ := ih e he
      exact ⟨l1, _ :: l2, b1, rfl, h1, h2, h3, .step h4 hb hs⟩

/-- A run comes in two parts wherever its log is cut. -/
theorem Run.split {s s' : S} {b b' : Block} {l2 l1 : List (Ev S E C O)} (h : M.Run s b (l2 ++ l1) s' b') :
    ∃ s1 b1, M.Run s b l1 s1 b1 ∧ M.Run s1 b1 l2 s' b' := by
  induction l2 generalizing s' b' with
  | nil => exact ⟨_, _, h, .refl⟩
  | cons e l2 ih =>
    cases h with
    | step hr hb hs =>
      obtain ⟨s1, b1, h1, h2⟩ := ih hr
      exact ⟨s1, b1, h1, .step h2 hb hs⟩

/-- Start a run later. -/
theorem Run.weaken {s s' : S} {b b0 b' : Block} {l : List (Ev S E C O)} (h : M.Run s b l s' b')
    (hb : b0.le b) (hne : l ≠ []) : M.Run s b0 l s' b' := by
  have key : ∀ {s1 : S} {b1 : Block} {l1 : List (Ev S E C O)}, M.Run s b l1 s1 b1 →
      ∃ b2, b2.le b1 ∧ M.Run s b0 l1 s1 b2 ∧ (l1 ≠ [] → b2 = b1) := by
    intro s1 b1 l1 h1
    induction h1 with
    | refl => exact ⟨b0, hb, .refl, fun h => absurd rfl h⟩
    | step _ hb1 hs ih =>
      obtain ⟨b2, h2, h3, _⟩ := ih
      exact ⟨_, Block.le_refl _, .step h3 (Block.le_trans h2 hb1) hs, fun _ => rfl⟩
  obtain ⟨b2, _, h3, h4⟩ := key h
  rw [← h4 hne]; exact h3

/-- A property of state and log that holds initially and is kept by every step from a reachable state
holds in every reachable state. -/
theorem Reach.induct {P : S → Block → List (Ev S E C O) → Prop}
    (h0 : ∀ b s, M.init b s → P s b [])
    (hs : ∀ s b l env call out s', M.Reach s b l → P s b l → b.le (M.block env) →
      M.step s env call = .ok (s', out) → P s' (M.block env) (⟨s, env, call, out, s'⟩ :: l))
    {s : S} {b : Block} {l : List (Ev S E C O)} (h : M.Reach s b l) : P s b l := by
  obtain ⟨b0, s0, hi, hr⟩ := h
  induction hr with
  | refl => exact h0 _ _ hi
  | step hr hb h ih => exact hs _ _ _ _ _ _ _ ⟨b0, s0, hi, hr⟩ ih hb h

/-- Play a list of calls; fails when one of them fails or a block goes back. -/
def play (M : Sys S E C O) (s : S) (b : Block) : List (E × C) → Option (S × Block × List (Ev S E C O))
  | [] => some (s, b, [])
  | (env, call) :: rest =>
    if b.height ≤ (M.block env).height ∧ b.time ≤ (M.block env).time then
      match M.step s env call with
      | .ok (s', out) =>
        match play M s' (M.block env) rest with
        | some (s'', b'', log) => some (s'', b'', log ++ [⟨s, env, call, out, s'⟩])
        | none => none
      | .error _ => none
    else none

theorem play_run {s s' : S} {b b' : Block} {cs : List (E × C)} {log : List (Ev S E C O)}
    (h : M.play s b cs = some (s', b', log)) : M.Run s b log s' b' := by
  induction cs generalizing s b s' b' log with
  | nil => simp [play] at h; obtain ⟨rfl, rfl, rfl⟩ := h; exact .refl
  | cons c cs ih =>
    obtain ⟨env, call⟩ := c
    simp only [play] at h
    split at h
    · rename_i hb
      split at h
      · rename_i s1 out hs
        split at h
        · rename_i s2 b2 l hp
          simp only [Option.some.injEq, Prod.mk.injEq] at h
          obtain ⟨rfl, rfl, rfl⟩ := h
          exact Run.append (.step .refl hb hs) (ih hp)
        · cases h
      · cases h
    · cases h

end Sys
end Verif

namespace Verif.Sys
variable {S E C O : Type} {M : Sys S E C O}

/-- Play a history and test what comes out. -/
def check (M : Sys S E C O) (s : S) (b : Block) (cs : List (E × C))
    (p : S → Block → List (Ev S E C O) → Bool) : Bool :=
  match M.play s b cs with
  | some (s', b', log) => p s' b' log
  | none => false

theorem check_run {s : S} {b : Block} {cs : List (E × C)} {p : S → Block → List (Ev S E C O) → Bool}
    (h : M.check s b cs p = true) : ∃ s' b' log, M.Run s b log s' b' ∧ p s' b' log = true := by
  unfold check at h
  split at h
  · rename_i hp
    exact ⟨_, _, _, play_run hp, h⟩
  · cases h

/-- Cut a history at a height: the calls below it, then the calls at or above it. -/
theorem Reach.split {s : S} {b : Block} {l : List (Ev S E C O)} (hr : M.Reach s b l) (h : Nat) :
    ∃ s1 b1 l1 l2, l = l2 ++ l1 ∧ M.Reach s1 b1 l1 ∧ M.Run s1 b1 l2 s b ∧
      (∀ e ∈ l2, h ≤ (M.block e.env).height) ∧ (b1.height < h ∨ (l1 = [] ∧ M.init b1 s1)) := by
  obtain ⟨b0, s0, hi, hr⟩ := hr
  induction hr with
  | refl => exact ⟨s0, b0, [], [], rfl, ⟨b0, s0, hi, .refl⟩, .refl, by simp, Or.inr ⟨rfl, hi⟩⟩
  | step hr hb hs ih =>
    rename_i s1 s2 b1 log env call out
    by_cases hlt : (M.block env).height < h
    · exact ⟨s2, M.block env, _, [], rfl, ⟨b0, s0, hi, .step hr hb hs⟩, .refl, by simp, Or.inl hlt⟩
    · obtain ⟨s3, b3, l3, l4, rfl, h1, h2, h3, h4⟩ := ih
      refine ⟨s3, b3, l3, _ :: l4, rfl, h1, .step h2 hb hs, ?_, h4⟩
      intro e he
      rcases List.mem_cons.1 he with rfl | he
      · exact Nat.not_lt.1 hlt
      · exact h3 e he

end Verif.Sys
