import Verif.Model.PreProposeApproval
/-!
# Upgrades of pre-propose modules

`migrate` of dao-pre-propose-base with `FromUnderV250`, which the four pre-propose contracts wrap. Up to version 2.4
a flag said whether only members may propose; version 2.5 has a submission policy. Both keep their settings under the
same key, so settings of one version cannot be read by the other.

Simplifications: the chain decides who may migrate a contract. A version is three numbers; versions with a suffix
(2.4.5-beta) match no requirement and are left out, as are strings that are no version, on which the code panics. Until the
upgrade the new code is not there; what the old code did is not modelled. The storage of the approval contract beside the
base is taken to have the same form in both versions, `migrate` does not touch it.
-/

namespace Verif.PreProposeUpgrade
open Verif Verif.PrePropose

/-- `semver::Version`. -/
structure Version where
  major : Nat
  minor : Nat
  patch : Nat
  deriving DecidableEq, Repr

/-- The order of versions: major, minor, patch. -/
def Version.lt (a b : Version) : Bool :=
  decide (a.major < b.major) || decide (a.major = b.major) &&
    (decide (a.minor < b.minor) || decide (a.minor = b.minor) && decide (a.patch < b.patch))

/-- The requirement `>=2.4.1, <2.5.0`, packages/dao-pre-propose-base/src/execute.rs:551. -/
def required (v : Version) : Bool := !v.lt ⟨2, 4, 1⟩ && v.lt ⟨2, 5, 0⟩

/-- `CONTRACT_VERSION` of the new code, Cargo.toml:21. -/
def codeVersion : Version := ⟨2, 5, 0⟩

/-- `CheckedDenomV241`. -/
inductive OldDenom where
  | cw20 (address : Addr)
  | native (denom : Nat)
  deriving DecidableEq, Repr

/-- `DepositRefundPolicyV241`. -/
inductive OldRefund where
  | always
  | never
  | onlyPassed
  deriving DecidableEq, Repr

/-- `CheckedDepositInfo` of version 2.4.1. -/
structure OldDeposit where
  denom : OldDenom
  amount : Nat
  refund : OldRefund
  deriving DecidableEq, Repr

/-- `Config` of version 2.4.1, as it is read in packages/dao-pre-propose-base/src/execute.rs:565-595. -/
structure OldConfig where
  deposit : Option OldDeposit
  openSubmission : Bool
  deriving DecidableEq, Repr

/-- packages/dao-pre-propose-base/src/execute.rs:585-588. -/
def denomToNew : OldDenom → Token
  | .cw20 a => .cw20 a
  | .native d => .native d

/-- packages/dao-pre-propose-base/src/execute.rs:590-594. -/
def refundToNew : OldRefund → Refund
  | .always => .always
  | .never => .never
  | .onlyPassed => .onlyPassed

/-- packages/dao-pre-propose-base/src/execute.rs:583-595. -/
def depositToNew (d : OldDeposit) : Deposit := ⟨denomToNew d.denom, d.amount, refundToNew d.refund⟩

/-- The policy, packages/dao-pre-propose-base/src/execute.rs:568-580. -/
def choosePolicy (policy : Option Policy) (isOpen : Bool) : Policy :=
  match policy with
  | some p => p
  | none => if isOpen then .anyone [] else .specific true [] []

/-- The settings of a contract, under one key: those of the old version, or those of the new one, which are part of its
state. -/
inductive Settings where
  | old (c : OldConfig)
  | new
  deriving DecidableEq, Repr

/-- The storage of a contract, with all that surrounds it. While the settings are old those in `rest` are not read. -/
structure Storage (W : Type) where
  version : Version
  settings : Settings
  rest : W

variable {W E C Out : Type}

/-- What the new code sees. -/
def Storage.view (st : Storage W) : Option W :=
  match st.settings with
  | .old _ => none
  | .new => some st.rest

/-- The settings of version 2.4, if they are there. -/
def Storage.oldConfig (st : Storage W) : Option OldConfig :=
  match st.settings with
  | .old c => some c
  | .new => none

/-- `migrate` with `FromUnderV250`, packages/dao-pre-propose-base/src/execute.rs:543-611, and in the four contracts
contracts/pre-propose/dao-pre-propose-single/src/contract.rs:140-144,
contracts/pre-propose/dao-pre-propose-multiple/src/contract.rs:136-140,
contracts/pre-propose/dao-pre-propose-approval-single/src/contract.rs:408-412,
contracts/pre-propose/dao-pre-propose-approver/src/contract.rs:261-265. `put` writes the settings. -/
def migrate (put : W → Config → W) (st : Storage W) (policy : Option Policy) : Res (Storage W) := do
  require (required st.version) (.custom 1)
  let c ← orErr st.oldConfig .notFound
  let p := choosePolicy policy c.openSubmission
  p.validate
  .ok ⟨codeVersion, .new, put st.rest ⟨c.deposit.map depositToNew, p⟩⟩

/-- Calls: what there is in version 2.5, and the messages of `migrate`. -/
inductive UCall (C : Type) where
  | run (c : C)
  | fromUnderV250 (policy : Option Policy)
  | extension

/-- A call of the new code. -/
def call (M : Sys W E C Out) (st : Storage W) (e : E) (c : C) : Res (Storage W × Option Out) := do
  let w ← orErr st.view .notFound
  let r ← M.step w e c
  .ok ({ st with rest := r.1 }, some r.2)

/-- The contract with its upgrades. -/
def usys (put : W → Config → W) (M : Sys W E C Out) : Sys (Storage W) E (UCall C) (Option Out) where
  init _ _ := True
  block := M.block
  step st e
    | .run c => call M st e c
    | .fromUnderV250 p => do
      let st' ← migrate put st p
      .ok (st', none)
    | .extension => .error .invalid

/-- The settings in dao-pre-propose-single and dao-pre-propose-multiple. -/
def putBase {M : PropModule} (w : World M) (c : Config) : World M := { w with pre := { w.pre with config := c } }

/-- The settings in dao-pre-propose-approval-single. -/
def putApproval {M : PropModule} (w : AWorld M) (c : Config) : AWorld M := { w with base := putBase w.base c }

end Verif.PreProposeUpgrade
