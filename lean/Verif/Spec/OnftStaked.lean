import Verif.Model.OnftStaked
/-!
# Specification vocabulary for dao-voting-onft-staked

In terms of what can be observed: the owners of the NFTs, the lists of staked and waiting NFTs, and the log of
calls.
-/

namespace Verif.Spec.OnftStaked
open Verif Verif.OnftStaked

/-- What is logged. -/
abbrev Event := Ev World Block Call Out

/-- The owner of a token. -/
def owner (w : World) (t : Tok) : Option Addr := w.n.owners.get t

/-- The tokens `a` waits for. -/
def waiting (w : World) (a : Addr) : List Tok := (w.n.c.claims.of a).map NftClaim.token

/-- The contract keeps `t` for `a`: staked, or waiting. -/
def KeptFor (w : World) (a : Addr) (t : Tok) : Prop := t ∈ stakedNfts w a ∨ t ∈ waiting w a

/-- Who prepared `t` last, if it was neither confirmed nor cancelled since. -/
def preparedBy (t : Tok) : List Event → Option Addr
  | [] => none
  | e :: log =>
    match e.call with
    | .exec a (.prepareStake ts) => if t ∈ ts then some a else preparedBy t log
    | .exec _ (.confirmStake ts) => if t ∈ ts then none else preparedBy t log
    | .exec _ (.cancelStake ts _) => if t ∈ ts then none else preparedBy t log
    | _ => preparedBy t log

/-- The DAO did not, in this call, cancel the stake of an NFT that the contract keeps for somebody. -/
def Spares (e : Event) : Prop :=
  ∀ ts r, e.call = .exec e.pre.n.c.dao (.cancelStake ts r) → ∀ t ∈ ts, ∀ a, ¬ KeptFor e.pre a t

end Verif.Spec.OnftStaked
