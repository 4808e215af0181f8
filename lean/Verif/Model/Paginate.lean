import Verif.Base.Map
/-!
# cw-paginate-storage

Listing the entries of a storage map page by page. Keys are natural numbers here: the storage orders keys by their
bytes, and all that matters of that order is that it is total.
-/

namespace Verif.Paginate

variable {V : Type}

/-- `cosmwasm_std::Order`. -/
inductive Order where
  | asc
  | desc
  deriving DecidableEq, Repr

/-- An entry put at its place among entries in ascending order of keys. -/
def insert (p : Nat × V) : List (Nat × V) → List (Nat × V)
  | [] => [p]
  | q :: l => if p.1 ≤ q.1 then p :: q :: l else q :: insert p l

/-- All entries in ascending order of keys, which is how the storage iterates. -/
def sorted (m : AMap Nat V) : List (Nat × V) := m.foldr insert []

/-- A key is within a bound that excludes the key it names: above it or, in descending order, below it. -/
def within (o : Order) (start : Option Nat) (k : Nat) : Bool :=
  match start, o with
  | none, _ => true
  | some s, .asc => decide (s < k)
  | some s, .desc => decide (k < s)

/-- `Map::range` with an exclusive bound where iteration begins and none where it ends (cw-storage-plus). -/
def range (m : AMap Nat V) (start : Option Nat) (o : Order) : List (Nat × V) :=
  match o with
  | .asc => (sorted m).filter (fun p => within o start p.1)
  | .desc => (sorted m).reverse.filter (fun p => within o start p.1)

/-- `paginate_map`, packages/cw-paginate-storage/src/lib.rs:10-33, and `paginate_snapshot_map` (62-85), which reads the
current values of a snapshot map. -/
def paginateMap (m : AMap Nat V) (start : Option Nat) (limit : Option Nat) (o : Order) : List (Nat × V) :=
  match limit with
  | some l => (range m start o).take l
  | none => range m start o

/-- `paginate_map_keys`, packages/cw-paginate-storage/src/lib.rs:36-59, and `paginate_snapshot_map_keys` (119-142). -/
def paginateKeys (m : AMap Nat V) (start : Option Nat) (limit : Option Nat) (o : Order) : List Nat :=
  match limit with
  | some l => ((range m start o).map Prod.fst).take l
  | none => (range m start o).map Prod.fst

/-- `paginate_map_values`, packages/cw-paginate-storage/src/lib.rs:88-114. -/
def paginateValues (m : AMap Nat V) (start : Option Nat) (limit : Option Nat) (o : Order) : List V :=
  match limit with
  | some l => ((range m start o).map Prod.snd).take l
  | none => (range m start o).map Prod.snd

/-- The listings written out in contracts: a default limit, sometimes a largest limit, an exclusive bound. Among others
`query_list_proposals` and `query_reverse_proposals`, contracts/proposal/dao-proposal-single/src/contract.rs:871-907,
`query_list_votes` (930-958) for the ballots of one proposal, `query_list_stakers`,
contracts/voting/dao-voting-token-staked/src/contract.rs:462-483, `query_allowances` and `query_status_map`,
contracts/external/cw-tokenfactory-issuer/src/queries.rs:51-155, `query_distributions`,
contracts/distribution/dao-rewards-distributor/src/contract.rs:707-722, and the listings of
contracts/external/cw-payroll-factory/src/contract.rs:175-292. -/
def listing (m : AMap Nat V) (start : Option Nat) (limit : Option Nat) (default : Nat) (max : Option Nat) (o : Order) :
    List (Nat × V) :=
  (range m start o).take (match max with | some x => min (limit.getD default) x | none => limit.getD default)

/-- `query_active_proposal_modules`, contracts/dao-dao-core/src/contract.rs:650-676: all entries after the start, of
which those that qualify are kept, up to the limit. A client passes the address of the last module it was shown. -/
def qualifying (m : AMap Nat V) (q : V → Bool) (start : Option Nat) (limit : Option Nat) : List (Nat × V) :=
  ((range m start .asc).filter (fun p => q p.2)).take (limit.getD (range m start .asc).length)

end Verif.Paginate
