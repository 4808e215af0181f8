import Verif.Model.FanToken
/-!
# Specification vocabulary for btsg-ft-factory
-/

namespace Verif.Spec.FanToken
open Verif.FanToken

/-- A transaction of a history. -/
abbrev Event := Ev World Env Call Unit

/-- What a list of balances gives to an address. -/
def listed (l : List (Addr × Nat)) (q : Addr) : Nat := (l.map (fun b => if b.1 = q then b.2 else 0)).sum

/-- What a new token gives to an address, when `dao` is the DAO. -/
def share (t : NewToken) (dao q : Addr) : Nat := listed t.initial q + if dao = q then t.daoBalance.getD 0 else 0

/-- All that is minted of a new token. -/
def minted (t : NewToken) : Nat := (t.initial.map Prod.snd).sum + t.daoBalance.getD 0

end Verif.Spec.FanToken
