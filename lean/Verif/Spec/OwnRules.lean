import Verif.Model.WholeDaoModules
import Verif.Spec.WholeDao
/-!
# Specification vocabulary for a DAO that changes its own rules and its own membership
-/

namespace Verif.Spec.OwnRules
open Verif Verif.WholeDao
open Verif.Spec.WholeDao (Authorised Steady Sole)

variable {S E C O : Type}

/-- What is said to a part of the DAO. -/
inductive Said (C : Type) where
  | prop (c : Single.Call)
  | vote (c : C)
  deriving DecidableEq

/-- What a call says to the proposal module or to the voting module. Answers of the chain to what the proposal module sent are
nobody's messages. -/
def said : Call E C → Option (Said C)
  | .core _ => none
  | .prop c => if isReply c then none else some (.prop c)
  | .vote _ c => some (.vote c)

/-- Who says it; `caller` tells this for the voting module and the contracts behind it. -/
def speaker (caller : E → C → Option Addr) (e : Env) : Call E C → Option Addr
  | .core _ => none
  | .prop c => if isReply c then none else some e.sender
  | .vote g c => caller g c

/-- What the DAO says to its modules comes off its list of messages to send: when the DAO is the caller, the step before is
the delivery of the message that says so. `toCall n` is what `other n` says, if it is for the modules. -/
def FromList (caller : E → C → Option Addr) (toCall : Nat → Option (Said C)) (log : List (Event S E C)) : Prop :=
  ∀ later before e x, log = later ++ e :: before → said e.call = some x →
    speaker caller e.env e.call = some e.pre.core.core.me →
    ∃ e' rest r n tl, before = e' :: rest ∧ e'.call = .core (.deliver r) ∧
      e'.pre.core.stack = .send (.other n) :: tl ∧ toCall n = some x

/-- The members of the DAO decided that this be said. -/
def Decreed (V : VotingModule S E C O) (decode : Nat → DaoCore.CosmosMsg) (toCall : Nat → Option (Said C))
    (log : List (Event S E C)) (x : Said C) : Prop :=
  ∃ n, toCall n = some x ∧ Authorised V decode log (.send (.other n))

/-- A history of a DAO that begins with nothing to send, keeps its modules and is governed by its members alone. -/
structure History (V : VotingModule S E C O) (decode : Nat → DaoCore.CosmosMsg) (caller : E → C → Option Addr)
    (toCall : Nat → Option (Said C)) (w0 w : World S) (b0 b : Block) (log : List (Event S E C)) : Prop where
  init : Init V b0 w0
  empty : w0.core.stack = []
  run : (sys V decode).Run w0 b0 log w b
  steady : Steady log
  sole : Sole log
  fromList : FromList caller toCall log

/-- An event is a call of the voting module, or of a contract behind it, that the members decided on. -/
def VotingDecreed (V : VotingModule S E C O) (decode : Nat → DaoCore.CosmosMsg) (toCall : Nat → Option (Said C))
    (log : List (Event S E C)) (e : Event S E C) : Prop :=
  ∃ g c, e.call = .vote g c ∧ Decreed V decode toCall log (.vote c)

/-- What the members do, newest first: propose the message `n`, vote yes, execute. -/
def script (count : Nat) (ys : List Addr) (e f : Env) (n content : Nat) : List (Env × Call E C) :=
  (f, .prop (.execute (count + 1) false)) ::
    (ys.reverse.map (fun a => ({ e with sender := a }, Call.prop (.vote (count + 1) .yes none))) ++
    [(e, .prop (.propose none content [n] none true))])

/-! ## Who calls the voting modules -/

/-- Callers of dao-voting-token-staked, or of the bank; minting is not counted as a call of an account. -/
def tokenCaller (_ : Block) : TokenStaked.Call → Option Addr
  | .exec a _ => some a
  | .stake a _ => some a
  | .transfer a _ _ => some a
  | .mint _ _ => none
  | .burn a _ => some a

/-- Callers of dao-voting-cw721-staked, or of the NFT contract. -/
def nftCaller (_ : Block) : NftStaked.Call → Option Addr
  | .exec a _ => some a
  | .send a _ => some a
  | .transfer a _ _ => some a
  | .mint _ _ => none
  | .burn a _ => some a

/-- Callers of dao-voting-onft-staked, or of the NFT module of the chain. -/
def onftCaller (_ : Block) : OnftStaked.Call → Option Addr
  | .exec a _ => some a
  | .transfer a _ _ => some a
  | .mint _ _ => none
  | .burn a _ => some a

/-- Callers of dao-voting-cw20-staked, of cw20-stake, or of the cw20. -/
def cw20Caller (_ : Block) : Cw20Voting.Call → Option Addr
  | .update a _ => some a
  | .stake (.exec a _) => some a
  | .stake (.send a _ _) => some a
  | .stake (.transfer a _ _) => some a
  | .stake (.mint _ _) => none
  | .stake (.burn a _) => some a

/-- Callers of the group, or of dao-voting-cw4. -/
def cw4Caller (_ : Block) : Cw4Voting.VCall → Option Addr
  | .group c => some c.sender
  | .module a => some a

/-- Callers of the role contract, or of dao-voting-cw721-roles. -/
def rolesCaller (g : Roles.Env) (_ : Roles.Voting.Call) : Option Addr := some g.sender

end Verif.Spec.OwnRules
