import Verif.Model.PrePropose
import Verif.Model.Single
import Verif.Model.Multiple
/-! dao-proposal-single and dao-proposal-multiple as the proposal module of a pre-propose module. -/

namespace Verif.PrePropose
open Verif Verif.Voting

/-- The contents of a single choice proposal: title and description, messages, the proposer's vote; whether it is
small enough. `ProposeMessage`, contracts/pre-propose/dao-pre-propose-single/src/contract.rs:24-36. -/
structure SinglePayload where
  content : Nat
  msgs : List Nat
  vote : Option (Vote × Option Nat)
  sizeOk : Bool

/-- The completion hooks among the messages of dao-proposal-single. -/
def singleCompleted (l : List Single.SubMsg) : List (Addr × Nat × Status) :=
  l.filterMap (fun m => match m.msg with
    | .completedHook a id st => some (a, id, st)
    | _ => none)

/-- dao-proposal-single, as modelled in `Verif.Model.Single`. Its `Propose` gets the proposer from the pre-propose
module (contracts/pre-propose/dao-pre-propose-single/src/contract.rs:78-95). -/
def single : PropModule where
  St := Single.State
  Env := Single.Env
  Call := Single.Call
  Payload := SinglePayload
  init b s := ∃ env c i out, env.block = b ∧ Single.instantiate env c i = .ok (s, out)
  block e := e.block
  sender e := e.sender
  calledBy e a := { e with sender := a }
  step s e c := do
    let (s', o) ← Single.step s e c
    .ok (s', ⟨o.newId, singleCompleted o.msgs⟩)
  propose a p := .propose (some a) p.content p.msgs p.vote p.sizeOk
  outside c := decide (c ≠ .replyFailedPreProposeHook)
  hookFailed s := do
    let (s', _) ← Single.replyPreProposeFailed s
    .ok s'
  count s := s.count
  policy s := s.policy
  statusOf s id := (s.proposals.get id).map (·.status)

/-- The contents of a multiple choice proposal.
`ProposeMessage`, contracts/pre-propose/dao-pre-propose-multiple/src/contract.rs:23-35. -/
structure MultiplePayload where
  content : Nat
  options : List (Nat × List Nat)
  vote : Option (Nat × Option Nat)
  sizeOk : Bool

/-- The completion hooks among the messages of dao-proposal-multiple. -/
def multipleCompleted (l : List Multiple.SubMsg) : List (Addr × Nat × Status) :=
  l.filterMap (fun m => match m.msg with
    | .completedHook a id st => some (a, id, st)
    | _ => none)

/-- dao-proposal-multiple, as modelled in `Verif.Model.Multiple`. Its `Propose` gets the proposer from the pre-propose
module (contracts/pre-propose/dao-pre-propose-multiple/src/contract.rs:76-93). -/
def multiple : PropModule where
  St := Multiple.State
  Env := Multiple.Env
  Call := Multiple.Call
  Payload := MultiplePayload
  init b s := ∃ env c i out, env.block = b ∧ Multiple.instantiate env c i = .ok (s, out)
  block e := e.block
  sender e := e.sender
  calledBy e a := { e with sender := a }
  step s e c := do
    let (s', o) ← Multiple.step s e c
    .ok (s', ⟨o.newId, multipleCompleted o.msgs⟩)
  propose a p := .propose (some a) p.content p.options p.vote p.sizeOk
  outside c := decide (c ≠ .replyFailedPreProposeHook)
  hookFailed s := do
    let (s', _) ← Multiple.replyPreProposeFailed s
    .ok s'
  count s := s.count
  policy s := s.policy
  statusOf s id := (s.proposals.get id).map (·.status)

end Verif.PrePropose
