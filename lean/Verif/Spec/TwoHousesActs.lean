import Verif.Spec.TwoHouses
import Verif.Spec.DepositDao
/-!
# What the members of a DAO and of the DAO that approves its proposals do to act

Every list has the latest call first.
-/

namespace Verif.Spec.TwoHouses
open Verif Verif.Voting
open Verif.DepositDao (whole)
open Verif.PrePropose (TEnv TCall SinglePayload Deposit)
open Verif.WholeDao (VotingModule)
open Verif.Spec.DepositDao (fundsFor)

variable {S1 E1 C1 O1 S2 E2 C2 O2 : Type} (V1 : VotingModule S1 E1 C1 O1) (V2 : VotingModule S2 E2 C2 O2)
  (d1 d2 : Nat → DaoCore.CosmosMsg)

/-- A call with what it is made in. -/
abbrev Made := TEnv (whole V1 d1) (whole V2 d2) × TCall (whole V1 d1) (whole V2 d2)

/-- A transaction with which these coins come; `pw` is the voting power the approval contract is told of. -/
def at' (e : WholeDao.Env) (funds : List (Nat × Nat)) (pw : Addr → Nat) : TEnv (whole V1 d1) (whole V2 d2) :=
  ⟨⟨e, funds, pw⟩, e⟩

/-- The deposit in cw20 tokens is taken by a further message. -/
def takeCalls : Option Deposit → List (TCall (whole V1 d1) (whole V2 d2))
  | some ⟨.cw20 _, _, _⟩ => [.one (.base (.take 0))]
  | _ => []

/-- A submission is made, with the deposit. -/
def submitCalls (e : WholeDao.Env) (pw : Addr → Nat) (d : Option Deposit) (p : SinglePayload) : List (Made V1 V2 d1 d2) :=
  (takeCalls V1 V2 d1 d2 d).map (fun c => (at' V1 V2 d1 d2 e [] pw, c)) ++
    [(at' V1 V2 d1 d2 e (fundsFor d) pw, .one (.submit p))]

/-- The approver contract is told of the submission, the members `zs` of the approving DAO vote yes in the same block
and in a later one proposal `n` of that DAO is executed. -/
def approveCalls (e f : WholeDao.Env) (pw : Addr → Nat) (n : Nat) (zs : List Addr) : List (Made V1 V2 d1 d2) :=
  (at' V1 V2 d1 d2 f [] pw, .two (.prop (.execute n false))) ::
    (zs.reverse.map (fun a => (at' V1 V2 d1 d2 { e with sender := a } [] pw,
      TCall.two (WholeDao.Call.prop (.vote n .yes none)))) ++
    [(at' V1 V2 d1 d2 e [] pw, .mirror 0)])

/-- The approver contract is told of the execution, which makes proposal `n` of the DAO, the members `ys` of the DAO
vote yes in the same block and in a later one it is executed, of which the approval contract is told. -/
def actCalls (f g : WholeDao.Env) (pw : Addr → Nat) (n : Nat) (ys : List Addr) : List (Made V1 V2 d1 d2) :=
  (at' V1 V2 d1 d2 g [] pw, .one (.base (.deliver 0))) ::
    (at' V1 V2 d1 d2 g [] pw, .one (.base (.module (.prop (.execute n false))))) ::
    (ys.reverse.map (fun a => (at' V1 V2 d1 d2 { f with sender := a } [] pw,
      TCall.one (.base (.module (WholeDao.Call.prop (.vote n .yes none)))))) ++
    [(at' V1 V2 d1 d2 f [] pw, .deliver 0)])

end Verif.Spec.TwoHouses
