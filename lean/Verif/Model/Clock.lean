import Verif.Model.WholeDao
import Verif.Model.Multiple
import Verif.Model.Condorcet
import Verif.Model.Cw20Stake
import Verif.Model.TokenStaked
import Verif.Model.NftStaked
import Verif.Model.OnftStaked
/-!
# The clock has 64 bits

Block heights and times are 64 bit numbers, and adding a duration to them panics on overflow. The models of the contracts add
durations without a bound (`Verif/Base/Core.lean`); here the additions are checked, as the code makes them. A transaction
that panics changes nothing, so the additions of a call may be checked before it.
-/

namespace Verif.Clock
open Verif Verif.Voting

/-- `u64 * u64` with overflow checks, as in `Timestamp::plus_seconds`. -/
def mul64 (a b : Nat) : Res Nat := if a * b < U64 then .ok (a * b) else .error .overflow

/-- `cw_utils::Duration::after` (cw-utils 1.0.3), with `Timestamp::plus_seconds` (cosmwasm-std 1.5.5): the numbers are `u64`, and
Cargo.toml:34 turns overflow checks on. -/
def after64 (d : Duration) (b : Block) : Res Expiration :=
  match d with
  | .height n => do
    let h ← add64 b.height n
    .ok (.atHeight h)
  | .time s => do
    let n ← mul64 s NANOS
    let t ← add64 b.time n
    .ok (.atTime t)

/-- `impl Add<Duration> for cw_utils::Expiration`, likewise. -/
def plus64 (e : Expiration) (d : Duration) : Res Expiration :=
  match e, d with
  | .atHeight h, .height n => do
    let h' ← add64 h n
    .ok (.atHeight h')
  | .atTime t, .time s => do
    let n ← mul64 s NANOS
    let t' ← add64 t n
    .ok (.atTime t')
  | .never, _ => .ok .never
  | _, _ => .error .invalid

/-- The additions of a call, one after the other. -/
def addAll (b : Block) : List Duration → Res Unit
  | [] => .ok ()
  | d :: ds => do
    let _ ← after64 d b
    addAll b ds

/-- A call that makes these additions. -/
def timed {α : Type} (b : Block) (ds : List Duration) (r : Res α) : Res α := do
  addAll b ds
  r

/-- The durations `execute_propose` of dao-proposal-single adds to the clock,
contracts/proposal/dao-proposal-single/src/contract.rs:201-212. No other call adds any. -/
def singleAdds (s : Single.State) : Single.Call → List Duration
  | .propose .. => s.config.maxVotingPeriod :: s.config.minVotingPeriod.toList
  | _ => []

/-- `execute` of dao-proposal-single, contracts/proposal/dao-proposal-single/src/contract.rs:94-150. -/
def singleStep (s : Single.State) (env : Single.Env) (c : Single.Call) : Res (Single.State × Single.Out) :=
  timed env.block (singleAdds s c) (Single.step s env c)

/-- The durations `execute_propose` of dao-proposal-multiple adds to the clock,
contracts/proposal/dao-proposal-multiple/src/contract.rs:201-211. -/
def multipleAdds (s : Multiple.State) : Multiple.Call → List Duration
  | .propose .. => s.config.maxVotingPeriod :: s.config.minVotingPeriod.toList
  | _ => []

/-- `execute` of dao-proposal-multiple, contracts/proposal/dao-proposal-multiple/src/contract.rs:92-147. -/
def multipleStep (s : Multiple.State) (env : Multiple.Env) (c : Multiple.Call) : Res (Multiple.State × Multiple.Out) :=
  timed env.block (multipleAdds s c) (Multiple.step s env c)

/-- The durations `execute_propose` of dao-proposal-condorcet adds to the clock,
contracts/proposal/dao-proposal-condorcet/src/contract.rs:129, contracts/proposal/dao-proposal-condorcet/src/proposal.rs:122. -/
def condorcetAdds (s : Condorcet.State) : Condorcet.Call → List Duration
  | .propose _ => s.config.votingPeriod :: s.config.minVotingPeriod.toList
  | _ => []

/-- `execute` of dao-proposal-condorcet, contracts/proposal/dao-proposal-condorcet/src/contract.rs:83-98. -/
def condorcetStep (s : Condorcet.State) (env : Condorcet.Env) (c : Condorcet.Call) : Res (Condorcet.State × Condorcet.Out) :=
  timed env.block (condorcetAdds s c) (Condorcet.step s env c)

/-- A system whose calls make additions. -/
def clocked {S E C O : Type} (M : Sys S E C O) (adds : S → C → List Duration) : Sys S E C O where
  init := M.init
  block := M.block
  step := fun s e c => timed (M.block e) (adds s c) (M.step s e c)

/-- The duration `execute_unstake` of cw20-stake adds to the clock, contracts/staking/cw20-stake/src/contract.rs:245. -/
def cw20StakeAdds (w : Cw20Stake.World) : Cw20Stake.Call → List Duration
  | .exec _ (.unstake _) => w.c.config.unstakingDuration.toList
  | _ => []

/-- The duration `execute_unstake` of dao-voting-token-staked adds to the clock,
contracts/voting/dao-voting-token-staked/src/contract.rs:272. -/
def tokenStakedAdds (w : TokenStaked.World) : TokenStaked.Call → List Duration
  | .exec _ (.unstake _) => w.c.unstakingDuration.toList
  | _ => []

/-- The duration `execute_unstake` of dao-voting-cw721-staked adds to the clock,
contracts/voting/dao-voting-cw721-staked/src/contract.rs:330. -/
def nftStakedAdds (w : NftStaked.World) : NftStaked.Call → List Duration
  | .exec _ (.unstake _) => w.c.unstakingDuration.toList
  | _ => []

/-- The duration `execute_unstake` of dao-voting-onft-staked adds to the clock,
contracts/voting/dao-voting-onft-staked/src/contract.rs:387. -/
def onftStakedAdds (w : OnftStaked.World) : OnftStaked.Call → List Duration
  | .exec _ (.unstake _) => w.n.c.unstakingDuration.toList
  | _ => []

/-- The durations a call of a whole DAO adds to the clock through its proposal module. -/
def daoAdds {S E C : Type} (w : WholeDao.World S) : WholeDao.Call E C → List Duration
  | .prop c => singleAdds w.prop c
  | _ => []

/-- `current_status`, contracts/proposal/dao-proposal-single/src/proposal.rs:75-106, with the addition of the timelock
checked. -/
def singleStatus (p : Single.Proposal) (b : Block) : Res Status :=
  match p.status with
  | .opened => do
    let passed ← p.isPassed b
    if passed then
      match p.veto with
      | some v => do
        let e ← plus64 p.expiration v.timelockDuration
        if e.isExpired b then .ok .passed else .ok (.vetoTimelock e)
      | none => .ok .passed
    else if p.expiration.isExpired b then .ok .rejected
    else do
      let rejected ← p.isRejected b
      if rejected then .ok .rejected else .ok .opened
  | .vetoTimelock e => if e.isExpired b then .ok .passed else .ok (.vetoTimelock e)
  | s => .ok s

/-- `current_status`, contracts/proposal/dao-proposal-multiple/src/proposal.rs:75-106, likewise. -/
def multipleStatus (p : Multiple.Proposal) (b : Block) : Res Status :=
  match p.status with
  | .opened => do
    let passed ← p.isPassed b
    if passed then
      match p.veto with
      | some v => do
        let e ← plus64 p.expiration v.timelockDuration
        if e.isExpired b then .ok .passed else .ok (.vetoTimelock e)
      | none => .ok .passed
    else if p.expiration.isExpired b then .ok .rejected
    else do
      let rejected ← p.isRejected b
      if rejected then .ok .rejected else .ok .opened
  | .vetoTimelock e => if e.isExpired b then .ok .passed else .ok (.vetoTimelock e)
  | s => .ok s

end Verif.Clock
