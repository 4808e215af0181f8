import Verif.Base.Core
/-!
# Model of `packages/cw-hooks`

A hook list is the vector stored in `Hooks`. `load` on a list that was never saved fails in Rust
(`Item::load`); the model keeps an `Option` to tell "never saved" from "empty".
-/

namespace Verif.Hooks
open Verif

/-- `Hooks`, packages/cw-hooks/src/lib.rs:27: `none` until first saved. -/
abbrev HookList := Option (List Addr)

/-- `may_load(..).unwrap_or_default()`. -/
def items (h : HookList) : List Addr := h.getD []

/-- `Hooks::add_hook`, packages/cw-hooks/src/lib.rs:34-42. -/
def addHook (h : HookList) (a : Addr) : Res HookList :=
  if (items h).any (· == a) then .error .invalid else .ok (some (items h ++ [a]))

/-- `Vec::remove` at the first position of `a`; `none` when `a` does not occur. -/
def removeFirst (a : Addr) : List Addr → Option (List Addr)
  | [] => none
  | x :: xs => if x == a then some xs else (removeFirst a xs).map (x :: ·)

/-- `Hooks::remove_hook`, packages/cw-hooks/src/lib.rs:44-52. -/
def removeHook (h : HookList) (a : Addr) : Res HookList := do
  let l ← orErr h .notFound
  let l' ← orErr (removeFirst a l) .invalid
  pure (some l')

/-- `Hooks::remove_hook_by_index`, packages/cw-hooks/src/lib.rs:54-63: `Vec::remove` panics when the
index is out of range. (`index as usize` truncates on wasm32 for indices above 2^32; list indices are
below.) Returns the removed address too. -/
def removeHookByIndex (h : HookList) (i : Nat) : Res (HookList × Addr) := do
  let l ← orErr h .notFound
  match l[i]? with
  | none => .error .panic
  | some a => pure (some (l.eraseIdx i), a)

/-- `Hooks::prepare_hooks`, packages/cw-hooks/src/lib.rs:65-76, with the running index that all
callers in the workspace pass along (packages/dao-hooks/src/proposal.rs:43-55, vote.rs:32-43): the
`i`-th hook gets `prep i`. -/
def prepareHooks {α : Type} (h : HookList) (prep : Nat → Addr → α) : List α :=
  (items h).zipIdx.map (fun p => prep p.2 p.1)

end Verif.Hooks
