import Verif.Model.FundDistributor
import Verif.Model.WholeDaoModules
/-!
# A fund distributor with the voting module whose members it pays

The model of cw-fund-distributor takes the answers of the voting contract from its environment. Here the voting contract
is the model of a voting module of this repository, with its own calls by anybody between those of the distributor. (The
distributor never changes the voting contract it was created with.)

Simplification: the two have ledgers of their own. If the funds are paid in the token that is staked, a transaction that
moves it without the distributor is a transfer in the ledger of the distributor besides.
-/

namespace Verif.FundedDao
open Verif
open Verif.WholeDao (VotingModule)

/-- The distributor and the voting module. -/
structure World (S : Type) where
  dist : FundDistributor.World
  vote : S

/-- Transactions: of the distributor, or of the voting module with what that sees. -/
inductive Call (E C : Type) where
  | dist (c : FundDistributor.Call)
  | vote (e : E) (c : C)

variable {S E C O : Type}

/-- What the distributor sees: it asks its voting contract for `TotalPowerAtHeight` in `instantiate`
(contracts/distribution/cw-fund-distributor/src/contract.rs:47-52) and for `VotingPowerAtHeight` in
`get_relative_share` (170-185). -/
def distEnv (V : VotingModule S E C O) (s : S) (b : Block) : FundDistributor.Env := ⟨b, V.power s, V.total s⟩

/-- One transaction. -/
def step (V : VotingModule S E C O) (w : World S) (b : Block) : Call E C → Res (World S × List Pay)
  | .dist c => do
    let r ← FundDistributor.step w.dist (distEnv V w.vote b) c
    .ok ({ w with dist := r.1 }, r.2)
  | .vote e c => do
    require (decide (V.sys.block e = b)) .invalid
    let r ← V.sys.step w.vote e c
    .ok ({ w with vote := r.1 }, [])

/-- A new distributor, contracts/distribution/cw-fund-distributor/src/contract.rs:28-63, beside a voting module in any
state it can be in by then. -/
def Init (V : VotingModule S E C O) (b : Block) (w : World S) : Prop :=
  (∃ h d, FundDistributor.instantiate (distEnv V w.vote b) h d = .ok w.dist.c) ∧
  ∃ b1 l, V.sys.Reach w.vote b1 l ∧ b1.le b

/-- The system. -/
def sys (V : VotingModule S E C O) : Sys (World S) Block (Call E C) (List Pay) where
  init := Init V
  block := id
  step := step V

/-- An event of a history. -/
abbrev Event (S E C : Type) := Ev (World S) Block (Call E C) (List Pay)

end Verif.FundedDao
