import Verif.Base.Core
/-!
# The versions contracts record when they are upgraded

Strings are lists of bytes. `D` is everything else a contract has stored.
-/

namespace Verif.Versions

/-- `ContractVersion` of cw2, with names as numbers: what `set_contract_version` stores and the query `Info` shows. -/
structure Info where
  name : Nat
  version : List Nat
  deriving DecidableEq, Repr

/-- The comparison `<` of strings in Rust's standard library: byte by byte, a string before its continuations. -/
def strLt : List Nat → List Nat → Bool
  | _, [] => false
  | [], _ :: _ => true
  | a :: as, b :: bs => decide (a < b) || (decide (a = b) && strLt as bs)

/-- `migrate` of contracts/voting/dao-voting-cw4/src/contract.rs:172-182,
contracts/voting/dao-voting-cw20-staked/src/contract.rs:374-384,
contracts/voting/dao-voting-token-staked/src/contract.rs:560-570,
contracts/voting/dao-voting-cw721-staked/src/contract.rs:646-656,
contracts/voting/dao-voting-onft-staked/src/contract.rs:692-702 and
contracts/external/cw-tokenfactory-issuer/src/contract.rs:166-176, which are the same: the version is compared as a
string. `code` is the name and the version of the new code. -/
def migrateIfOlder {D : Type} (code : Info) (s : Info × D) : Res (Info × D) :=
  if strLt s.1.version code.version then .ok (code, s.2) else .ok s

/-- `migrate` of contracts/external/cw-token-swap/src/contract.rs:250-254,
contracts/external/cw-admin-factory/src/contract.rs:176-180, contracts/external/btsg-ft-factory/src/contract.rs:177-181 and
contracts/proposal/dao-proposal-multiple/src/contract.rs:1054-1057. -/
def migrateAlways {D : Type} (code : Info) (s : Info × D) : Res (Info × D) := .ok (code, s.2)

/-! ## `Version::parse` of semver 1.0 -/

/-- A number without sign; more than one digit must not begin with zero. Pre-release versions, build numbers and the limit
of 64 bits are left out. -/
def parseNat (l : List Nat) : Option Nat :=
  if l = [] ∨ (l.length > 1 ∧ l.head? = some 48) then none
  else l.foldl (fun acc c => acc.bind fun n => if 48 ≤ c ∧ c ≤ 57 then some (10 * n + (c - 48)) else none) (some 0)

/-- What stands before the first point, and what comes after it. -/
def splitPoint : List Nat → Option (List Nat × List Nat)
  | [] => none
  | c :: l => if c = 46 then some ([], l) else (splitPoint l).map fun x => (c :: x.1, x.2)

/-- The three numbers of a version. -/
def parse (l : List Nat) : Option (Nat × Nat × Nat) := do
  let x ← splitPoint l
  let y ← splitPoint x.2
  let a ← parseNat x.1
  let b ← parseNat y.1
  let c ← parseNat y.2
  some (a, b, c)

/-- The order of semver's `Version`. -/
def laterThan (new old : Nat × Nat × Nat) : Bool :=
  decide (old.1 < new.1) ||
    (decide (old.1 = new.1) && (decide (old.2.1 < new.2.1) || (decide (old.2.1 = new.2.1) && decide (old.2.2 < new.2.2))))

/-- `migrate`, contracts/distribution/dao-rewards-distributor/src/contract.rs:724-749. -/
def migrateForward {D : Type} (code : Info) (s : Info × D) : Res (Info × D) := do
  require (decide (s.1.name = code.name)) (.custom 1)
  let new ← orErr (parse code.version) .invalid
  let current ← orErr (parse s.1.version) .invalid
  require (laterThan new current) (.custom 2)
  .ok (code, s.2)

/-- One upgrade after the other, each with `WasmMsg::Migrate` to some code; the chain keeps nothing of a migration that
fails. -/
def upgrades {D : Type} (migrate : Info → Info × D → Res (Info × D)) (s : Info × D) : List Info → Info × D
  | [] => s
  | c :: rest => match migrate c s with
    | .ok s' => upgrades migrate s' rest
    | .error _ => upgrades migrate s rest

end Verif.Versions
