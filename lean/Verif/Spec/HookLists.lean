import Verif.Model.TokenStaked
import Verif.Model.NftStaked
import Verif.Model.OnftStaked
import Verif.Model.Cw20Stake
import Verif.Model.Roles

/-! What C60 says of the listeners a contract has, in terms of its messages: who was added and removed so far, in order,
and what is told to whom. -/

namespace Verif.HookLists

/-- A listener is added or removed. -/
inductive Op where
  | add (a : Addr)
  | remove (a : Addr)
  deriving DecidableEq, Repr

/-- The listeners after these changes (newest first): who was added and not removed since, in order of addition. -/
def listed : List Op → List Addr
  | [] => []
  | .add a :: l => listed l ++ [a]
  | .remove a :: l => (listed l).filter (fun x => decide (x ≠ a))

/-- The changes in a history, by the messages that make them. -/
def changes {S E C O : Type} (op : C → Option Op) (log : List (Ev S E C O)) : List Op :=
  log.filterMap (fun e => op e.call)

end Verif.HookLists

namespace Verif.TokenStaked
open Verif.HookLists

/-- The messages of dao-voting-token-staked about listeners. -/
def listenerOp : Call → Option Op
  | .exec _ (.addHook a) => some (.add a)
  | .exec _ (.removeHook a) => some (.remove a)
  | _ => none

/-- What the listeners are to be told. -/
def news (l : List Addr) : Call → List Cw20Stake.HookMsg
  | .stake a n => l.map (fun r => ⟨r, true, a, n⟩)
  | .exec a (.unstake n) => l.map (fun r => ⟨r, false, a, n⟩)
  | _ => []

end Verif.TokenStaked

namespace Verif.Cw20Stake
open Verif.HookLists

/-- The messages of cw20-stake about listeners. -/
def listenerOp : Call → Option Op
  | .exec _ (.addHook a) => some (.add a)
  | .exec _ (.removeHook a) => some (.remove a)
  | _ => none

/-- What the listeners are to be told: by how much the stake of whom changes. -/
def news (l : List Addr) (e : Ev World Block Call Out) : List HookMsg :=
  match e.call with
  | .send a _ .stake => l.map (fun r => ⟨r, true, a, e.post.c.stakedOf a - e.pre.c.stakedOf a⟩)
  | .exec a (.unstake _) => l.map (fun r => ⟨r, false, a, e.pre.c.stakedOf a - e.post.c.stakedOf a⟩)
  | _ => []

end Verif.Cw20Stake

namespace Verif.NftStaked
open Verif.HookLists

/-- The messages of dao-voting-cw721-staked about listeners. -/
def listenerOp : Call → Option Op
  | .exec _ (.addHook a) => some (.add a)
  | .exec _ (.removeHook a) => some (.remove a)
  | _ => none

/-- What the listeners are to be told. -/
def news (l : List Addr) : Call → List HookMsg
  | .send a t => l.map (fun r => ⟨r, true, a, [t]⟩)
  | .exec a (.unstake ts) => l.map (fun r => ⟨r, false, a, ts⟩)
  | _ => []

end Verif.NftStaked

namespace Verif.OnftStaked
open Verif.HookLists

/-- The messages of dao-voting-onft-staked about listeners. -/
def listenerOp : Call → Option Op
  | .exec _ (.addHook a) => some (.add a)
  | .exec _ (.removeHook a) => some (.remove a)
  | _ => none

/-- What one listener is to be told of a call, in this order: of each NFT staked in a message of its own. -/
def newsFor (r : Addr) : Call → List NftStaked.HookMsg
  | .exec a (.confirmStake ts) => (sortDedup ts).map (fun t => ⟨r, true, a, [t]⟩)
  | .exec a (.unstake ts) => [⟨r, false, a, ts⟩]
  | _ => []

end Verif.OnftStaked

namespace Verif.Roles
open Verif.HookLists

/-- The messages of cw721-roles about listeners. -/
def listenerOp : Msg → Option Op
  | .addHook a => some (.add a)
  | .removeHook a => some (.remove a)
  | _ => none

/-- The messages that can change a weight. -/
def reweighs : Msg → Bool
  | .mint .. => true
  | .burn _ => true
  | .updateTokenWeight .. => true
  | _ => false

end Verif.Roles
