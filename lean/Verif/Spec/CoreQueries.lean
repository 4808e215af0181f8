import Verif.Model.CoreQueries
import Verif.Spec.DaoCore
import Verif.Spec.Listings
/-!
# Specification: what the queries of a DAO should show
-/

namespace Verif.Spec.DaoCore
open Verif.DaoCore

/-- The end of the pause after a history (newest event first): the last thing said about it. -/
def pauseAfter (s0 : State) : List Event → Option Expiration
  | [] => s0.paused
  | e :: rest =>
    match handled e with
    | some (_, .pause d) => some (d.after e.env.block)
    | some (_, .unpause) => none
    | _ => pauseAfter s0 rest

/-- The voting module after a history: the last one made. -/
def votingAfter (s0 : State) : List Event → Option Addr
  | [] => s0.voting
  | e :: rest =>
    match created e with
    | some (.votingModule, c) => some c.address
    | some (.votingModuleUpdate, c) => some c.address
    | _ => votingAfter s0 rest

/-- Nobody but the DAO itself and its admin can do anything: every call fails. -/
def Closed (s : State) (b : Block) : Prop :=
  ∀ (e : Env) (sender : Addr) (m : Msg), e.block = b → sender ≠ s.me → sender ≠ s.admin →
    ∀ r, execute s e sender m ≠ .ok r

/-- The DAO carries out the messages of a proposal module: whatever they are, in any block in which the DAO is not
paused. -/
def Obeys (s : State) (a : Addr) : Prop :=
  ∀ (e : Env) (msgs : List CosmosMsg), ¬ Paused s e.block →
    execute s e a (.executeProposalHook msgs) = .ok (s, msgs.map .send)

end Verif.Spec.DaoCore
