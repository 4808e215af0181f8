import Verif.Base.Core
import Verif.Base.Map
/-!
# NFT claims

Model of `packages/cw721-controllers`, the claims queue of the two NFT staking modules.
-/

namespace Verif

/-- Token ids. Only equality is used. -/
abbrev Tok := Nat

/-- `NftClaim`, packages/cw721-controllers/src/nft_claim.rs:12-15. -/
structure NftClaim where
  token : Tok
  releaseAt : Expiration
  deriving DecidableEq, Repr

/-- `NftClaims`, packages/cw721-controllers/src/nft_claim.rs:26: a list of claims per address. -/
abbrev NftClaims := AMap Addr (List NftClaim)

namespace NftClaims

/-- `query_claims`, packages/cw721-controllers/src/nft_claim.rs:88-95. -/
def of (c : NftClaims) (a : Addr) : List NftClaim := (AMap.get c a).getD []

/-- `create_nft_claims`, packages/cw721-controllers/src/nft_claim.rs:42-60. -/
def create (c : NftClaims) (a : Addr) (toks : List Tok) (e : Expiration) : NftClaims :=
  AMap.set c a (of c a ++ toks.map (fun t => ⟨t, e⟩))

/-- `claim_nfts`, packages/cw721-controllers/src/nft_claim.rs:64-86: what remains, and the tokens to
send. -/
def claim (c : NftClaims) (a : Addr) (b : Block) : NftClaims × List Tok :=
  (AMap.set c a ((of c a).filter (fun x => !x.releaseAt.isExpired b)),
   ((of c a).filter (fun x => x.releaseAt.isExpired b)).map NftClaim.token)

end NftClaims
end Verif
