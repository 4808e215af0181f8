import Verif.Model.DaoCore
import Verif.Model.Paginate
/-!
# The queries of dao-dao-core

On the state of the DAO. Validating the address where a page starts is not modelled; the names of the contract and its
version are left out of `DumpState`.
-/

namespace Verif.DaoCore
open Verif Verif.Paginate

/-- `PauseInfoResponse`, packages/dao-interface/src/query.rs:33-36. -/
inductive PauseInfo where
  | paused (expiration : Expiration)
  | unpaused
  deriving DecidableEq, Repr

/-- `get_pause_info`, contracts/dao-dao-core/src/contract.rs:678-689, and `query_paused` (691-693). -/
def pauseInfo (s : State) (b : Block) : PauseInfo :=
  match s.paused with
  | some x => if x.isExpired b then .unpaused else .paused x
  | none => .unpaused

/-- `query_proposal_modules`, contracts/dao-dao-core/src/contract.rs:621-648. Every module is shown with its address,
which is a part of it. -/
def modulesPage (s : State) (start limit : Option Nat) : Res (List (Addr × Module)) :=
  .ok ((paginateValues s.modules start limit .asc).map (fun m => (m.address, m)))

/-- `query_active_proposal_modules`, contracts/dao-dao-core/src/contract.rs:650-676. -/
def activePage (s : State) (start limit : Option Nat) : Res (List (Addr × Module)) :=
  .ok ((((paginateValues s.modules start none .asc).filter (fun m => m.enabled)).take
    (limit.getD ((paginateValues s.modules start none .asc).length % U32))).map (fun m => (m.address, m)))

/-- `query_proposal_module_count`, contracts/dao-dao-core/src/contract.rs:864-869: active, then all. -/
def moduleCount (s : State) : Nat × Nat := (s.active, s.total)

/-- `query_voting_module`, contracts/dao-dao-core/src/contract.rs:616-619. -/
def votingModule (s : State) : Res Addr := orErr s.voting .notFound

/-- `DumpStateResponse`, packages/dao-interface/src/query.rs:9-29. -/
structure Dump where
  admin : Addr
  config : Config
  pauseInfo : PauseInfo
  modules : List Module
  voting : Addr
  active : Nat
  total : Nat
  deriving DecidableEq, Repr

/-- `query_dump_state`, contracts/dao-dao-core/src/contract.rs:695-717. -/
def dumpState (s : State) (b : Block) : Res Dump := do
  let v ← orErr s.voting .notFound
  .ok { admin := s.admin, config := s.config, pauseInfo := pauseInfo s b
        modules := (range s.modules none .asc).map Prod.snd, voting := v, active := s.active, total := s.total }

/-- `query_list_items`, contracts/dao-dao-core/src/contract.rs:750-762. -/
def itemsPage (s : State) (start limit : Option Nat) : Res (List (Nat × Nat)) :=
  .ok (paginateMap s.items start limit .desc)

/-- `query_list_sub_daos`, contracts/dao-dao-core/src/contract.rs:829-855. -/
def subDaosPage (s : State) (start limit : Option Nat) : Res (List (Addr × Option Nat)) :=
  .ok (paginateMap s.subDaos start limit .asc)

/-- One entry of the answer to `Cw20Balances`: what the token answers to `Balance` for the DAO; the query fails if it
does not answer. -/
def cw20Balance (balance : Addr → Option Nat) (a : Addr) : Res (Addr × Nat) := do
  let n ← orErr (balance a) .invalid
  .ok (a, n)

/-- `query_cw20_balances`, contracts/dao-dao-core/src/contract.rs:796-827. The listed tokens alone are what
`query_cw20_list` (764-778) shows. -/
def balancesPage (s : State) (balance : Addr → Option Nat) (start limit : Option Nat) : Res (List (Addr × Nat)) :=
  (paginateKeys s.cw20s start limit .desc).mapM (cw20Balance balance)

end Verif.DaoCore
