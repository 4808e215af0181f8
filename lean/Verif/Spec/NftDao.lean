import Verif.Model.NftDao
import Verif.Spec.NftStaked
import Verif.Spec.TokenDao
/-!
# Specification: a DAO with an NFT collection of its own

In terms of what can be observed: who owns which NFT, how many there are, and who sent what.
-/

namespace Verif.Spec.NftDao
open Verif Verif.NftDao

/-- One step of a history, latest first in a list. -/
abbrev Event := Ev World Env Call NftStaked.Out

/-- The owner of an NFT. -/
def owner (w : World) (t : Tok) : Option Addr := w.coll.tokens.get t

/-- How many NFTs there are. -/
def supply (w : World) : Nat := w.coll.tokens.length

/-- Who may mint. -/
def minter (w : World) : Option Addr := w.coll.owner.owner

/-- The messages that mint the NFTs of a list, each for the account named with it. -/
def mintAll (l : List (Tok × Addr)) : List CollMsg := l.map (fun x => .mint x.1 x.2)

/-- A message that, sent by the voting module at `self`, gives nobody a permission and does not stake. -/
def Harmless (self : Addr) : CollMsg → Prop
  | .approve _ _ _ => False
  | .approveAll _ _ => False
  | .send dst _ => dst ≠ self
  | _ => True

/-- Histories of a collection that was made by harmless messages. -/
def plain : Sys World Env Call NftStaked.Out := sysOf (fun self l => ∀ m ∈ l, Harmless self m)

/-- `a` is allowed to move `t` in block `b`: as its owner, as somebody approved for it, or as an operator of its owner. -/
def MayMove (w : World) (b : Block) (a : Addr) (t : Tok) : Prop :=
  ∃ o, owner w t = some o ∧
    (o = a ∨ (∃ l e, w.coll.approvals.get t = some l ∧ (a, e) ∈ l ∧ e.isExpired b = false) ∨
      ∃ e, w.coll.operators.get (o, a) = some e ∧ e.isExpired b = false)

/-- Who staked token `t`, if the module took it and has not lost it since: the sender of the last `SendNft` of it to the
module. -/
def staker (t : Tok) : List Event → Option Addr
  | [] => none
  | e :: log =>
    if e.call = .coll (.send e.pre.self t) then some e.env.sender
    else if owner e.pre t = some e.pre.self ∧ owner e.post t ≠ some e.post.self then none
    else staker t log

/-- The tokens `a` waits for. -/
def waiting (w : World) (a : Addr) : List Tok := (w.vm.claims.of a).map NftClaim.token

/-- `dao` mints nothing and does nothing about the ownership of the collection. -/
def Silent (dao : Addr) (log : List Event) : Prop :=
  ∀ e ∈ log, e.env.sender = dao → (∀ t a, e.call ≠ .coll (.mint t a)) ∧ ∀ x, e.call ≠ .coll (.updateOwnership x)

/-- `dao` sends nothing at all. -/
def Idle (dao : Addr) (log : List Event) : Prop := ∀ e ∈ log, e.env.sender ≠ dao

/-- `staked` of `all` NFTs reach a threshold: a percentage up to a billionth of an NFT, as `C32_nft_active` shows. -/
def Met (th : Option Active.ActiveThreshold) (staked all : Nat) : Prop :=
  match th with
  | none => True
  | some (.absolute n) => n ≤ staked
  | some (.percentage p) => 0 < staked ∧ p * all < staked * 10 ^ 18 + 10 ^ 9

/-- How many NFTs of a list are for accounts that are not in `who`. -/
def notFor (who : List Addr) (l : List (Tok × Addr)) : Nat := (l.filter (fun x => x.2 ∉ who)).length

/-- How many NFTs of a list are for accounts in `who`. -/
def forThem (who : List Addr) (l : List (Tok × Addr)) : Nat := (l.filter (fun x => x.2 ∈ who)).length

/-- The NFTs of `l` were minted when the module was made, for a new DAO or for one that replaced its voting module, and that is
all that was done. -/
def Minted (l : List (Tok × Addr)) (b : Block) (w : World) : Prop :=
  ∃ dao self addr d t, dao ≠ self ∧ dao ≠ addr ∧ self ≠ addr ∧
    (create b dao self addr d t (mintAll l) = .ok w ∨ replace b dao self addr d t (mintAll l) = .ok w)

/-- The accounts that cannot or do not stake: the DAO, the module and the collection. -/
def idlers (w : World) : List Addr := [w.vm.dao, w.self, w.coll.addr]

/-- Nobody burns an NFT. -/
def NoBurns (log : List Event) : Prop := ∀ e ∈ log, ∀ t, e.call ≠ .coll (.burn t)

end Verif.Spec.NftDao
