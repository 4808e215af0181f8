import Verif.Model.Roles
/-!
# Specification: weights of members and of tokens

Histories are listed with the latest event first.
-/

namespace Verif.Spec.Roles
open Verif Verif.Roles

/-- One step of a history. -/
abbrev Event := Ev State Env Msg Out

/-- The weights of the tokens that `a` owns, summed up. -/
def owned (s : State) (a : Addr) : Nat :=
  (s.tokens.map (fun e => if e.2.owner = a then e.2.weight else 0)).sum

/-- The weights of all tokens, summed up. -/
def allTokens (s : State) : Nat := (s.tokens.map (fun e => e.2.weight)).sum

/-- The weights of all members, summed up. -/
def allMembers (s : State) : Nat := (s.members.cur.map (fun e => e.2)).sum

/-- The weight of a member; nothing for everybody else. -/
def weight (s : State) (a : Addr) : Nat := (memberNow s a).getD 0

/-- The token that a step moves, and to whom. -/
def moves (e : Event) : Option (Nat × Addr) :=
  match e.call with
  | .transferNft to t => some (t, to)
  | .sendNft to t => some (t, to)
  | _ => none

/-- The weight that a step takes out of the hands of `a`: of the token moved, if `a` owned it. -/
def givenAway (a : Addr) (e : Event) : Nat :=
  match moves e with
  | some (t, _) => match e.pre.tokens.get t with
    | some tok => if tok.owner = a then tok.weight else 0
    | none => 0
  | none => 0

/-- The weight that a step puts into the hands of `a`: of the token moved, if it is moved to `a`. -/
def received (a : Addr) (e : Event) : Nat :=
  match moves e with
  | some (t, to) => match e.pre.tokens.get t with
    | some tok => if to = a then tok.weight else 0
    | none => 0
  | none => 0

/-- A step that moves no token into other hands. -/
def Stays (e : Event) : Prop :=
  ∀ t to, moves e = some (t, to) → ∀ tok, e.pre.tokens.get t = some tok → tok.owner = to

/-- The member whose weight a step may change. -/
def concerns (e : Event) : Option Addr :=
  match e.call with
  | .mint _ o _ _ _ => some o
  | .burn t => (e.pre.tokens.get t).map (·.owner)
  | .updateTokenWeight t _ => (e.pre.tokens.get t).map (·.owner)
  | _ => none

/-- A step that lowers the weight of a token. -/
def Lowers (e : Event) : Prop :=
  ∃ t w tok, e.call = .updateTokenWeight t w ∧ e.pre.tokens.get t = some tok ∧ w < tok.weight

/-- What becomes of token `t` in a step: as the message says if it is about `t`, else nothing. -/
def tokenAfter (e : Event) (t : Nat) : Option Token :=
  match e.call with
  | .mint x o u r w => if x = t then some ⟨o, u, r, w⟩ else e.pre.tokens.get t
  | .burn x => if x = t then none else e.pre.tokens.get t
  | .transferNft to x => (e.pre.tokens.get t).map (fun k => if x = t then { k with owner := to } else k)
  | .sendNft to x => (e.pre.tokens.get t).map (fun k => if x = t then { k with owner := to } else k)
  | .updateTokenWeight x w => (e.pre.tokens.get t).map (fun k => if x = t then { k with weight := w } else k)
  | .updateTokenRole x r => (e.pre.tokens.get t).map (fun k => if x = t then { k with role := r } else k)
  | .updateTokenUri x u => (e.pre.tokens.get t).map (fun k => if x = t then { k with uri := u } else k)
  | _ => e.pre.tokens.get t

end Verif.Spec.Roles
