import Verif.Base.Core
/-!
# Model of the tagged reply ids, `packages/dao-voting/src/reply.rs`

`u64` values are natural numbers; a left shift drops the bits above 64.
-/

namespace Verif.Reply
open Verif

/-- `TaggedReplyId`, packages/dao-voting/src/reply.rs:22-35. -/
inductive Tag where
  | failedProposalExecution (id : Nat)
  | failedProposalHook (idx : Nat)
  | failedVoteHook (idx : Nat)
  | failedPreProposeModuleHook
  | preProposeModuleInstantiation
  deriving DecidableEq, Repr

/-- `x << k` on `u64`. -/
def shl64 (x k : Nat) : Nat := (x <<< k) % 2 ^ 64

/-- `BITS_RESERVED_FOR_REPLY_TYPE`, packages/dao-voting/src/reply.rs:13. -/
def RESERVED : Nat := 3
/-- `REPLY_TYPE_MASK`, packages/dao-voting/src/reply.rs:14. -/
def TYPE_MASK : Nat := (1 <<< RESERVED) - 1

/-- `mask_proposal_execution_proposal_id`, packages/dao-voting/src/reply.rs:59-61. -/
def maskExecution (id : Nat) : Nat := 0b000 ||| shl64 id RESERVED
/-- `mask_proposal_hook_index`, packages/dao-voting/src/reply.rs:63-65. -/
def maskProposalHook (idx : Nat) : Nat := 0b001 ||| shl64 idx RESERVED
/-- `mask_vote_hook_index`, packages/dao-voting/src/reply.rs:67-69. -/
def maskVoteHook (idx : Nat) : Nat := 0b010 ||| shl64 idx RESERVED
/-- `pre_propose_module_instantiation_id`, packages/dao-voting/src/reply.rs:71-73. -/
def preProposeInstantiationId : Nat := 0b011
/-- `failed_pre_propose_module_hook_id`, packages/dao-voting/src/reply.rs:75-77. -/
def failedPreProposeHookId : Nat := 0b100

/-- `TaggedReplyId::new`, packages/dao-voting/src/reply.rs:42-55. -/
def decode (id : Nat) : Res Tag :=
  let ty := id &&& TYPE_MASK
  let rest := id >>> RESERVED
  match ty with
  | 0 => .ok (.failedProposalExecution rest)
  | 1 => .ok (.failedProposalHook rest)
  | 2 => .ok (.failedVoteHook rest)
  | 3 => .ok .preProposeModuleInstantiation
  | 4 => .ok .failedPreProposeModuleHook
  | _ => .error .invalid

/-- The id a contract attaches to the submessage of each kind: the five encoders as one function,
packages/dao-voting/src/reply.rs:59-77. -/
def encode : Tag → Nat
  | .failedProposalExecution i => maskExecution i
  | .failedProposalHook i => maskProposalHook i
  | .failedVoteHook i => maskVoteHook i
  | .failedPreProposeModuleHook => failedPreProposeHookId
  | .preProposeModuleInstantiation => preProposeInstantiationId

end Verif.Reply
