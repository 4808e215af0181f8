import Verif.Model.NftStaked
/-!
# Specification vocabulary for dao-voting-cw721-staked

In terms of what can be observed: the owners of the NFTs and the log of calls.
-/

namespace Verif.Spec.NftStaked
open Verif Verif.NftStaked

/-- The owner of a token. -/
def owner (w : World) (t : Tok) : Option Addr := w.owners.get t

/-- Who staked token `t`, if the contract took it and has not returned it since: the sender of the last
`SendNft`, unless the contract lost the token after that. -/
def staker (t : Tok) : List (Ev World Block Call Out) → Option Addr
  | [] => none
  | e :: log =>
    match e.call with
    | .send a t' => if t' = t then some a else staker t log
    | _ =>
      if owner e.pre t = some e.pre.self ∧ owner e.post t ≠ some e.post.self then none
      else staker t log

/-- The tokens `a` waits for. -/
def waiting (w : World) (a : Addr) : List Tok := (w.c.claims.of a).map NftClaim.token

end Verif.Spec.NftStaked
