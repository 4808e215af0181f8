import Verif.Model.DaoRewards
import Verif.Model.WholeDaoModules
/-!
# A rewards distributor with the voting module it rewards the members of

The model of dao-rewards-distributor has voting contracts whose powers change at will. Here one of them is the model of
a voting module of this repository, with its own calls by anybody: the distributor asks it for powers, and the messages
it (or the contract it takes the powers from) sends to its listeners reach the distributor in the same transaction.
These are plain submessages (`SubMsg::new`): if the distributor refuses one, the whole transaction fails.

Simplifications: what other listeners do on a message are later steps of the history. Other voting contracts change at
will as before. The voting module and the distributor have ledgers of their own: if rewards are paid in the token that is
staked, a transaction that moves it without the distributor is a transfer in the ledger of the distributor besides.
-/

namespace Verif.RewardedDao
open Verif Verif.WholeDao

/-- A voting module, who listens to changes (`HOOKS`), and the messages a call sends to listeners: to whom, and the
members they name. -/
structure Telling (S E C O : Type) extends VotingModule S E C O where
  listeners : S → List Addr
  told : O → List (Addr × List Addr)

/-- The distributor, the voting module and its address, and the address of the contract that sends the hook messages. -/
structure World (S : Type) where
  rew : DaoRewards.World
  vote : S
  vp : Addr
  caller : Addr

/-- Transactions: of the distributor, or of the voting module with what that sees. -/
inductive Call (E C : Type) where
  | rewards (c : DaoRewards.Call)
  | vote (e : E) (c : C)

variable {S E C O : Type}

/-- What voting contracts answer to the distributor in a block: `get_total_voting_power_at_block` and
`get_voting_power_at_block`, contracts/distribution/dao-rewards-distributor/src/helpers.rs:13-37. -/
def answers (V : Telling S E C O) (w : World S) (b : Block) (a : Addr) : DaoRewards.Answer :=
  if a = w.vp then { total := V.total w.vote b.height, of := fun x => V.power w.vote x b.height }
  else w.rew.answers b a

/-- A transaction of the distributor as in `DaoRewards.step`, with these answers; other voting contracts change. -/
def rewardsStep (V : Telling S E C O) (w : World S) (b : Block) : DaoRewards.Call → Res (DaoRewards.World × List Pay)
  | .exec a coins m => do
    require (decide (a ≠ w.rew.me)) .unauthorized
    let l ← pullCoins w.rew.me a coins w.rew.bal
    let r ← DaoRewards.exec w.rew.c b (answers V w b) a coins m
    let l ← payAll w.rew.me r.2 l
    .ok ({ w.rew with c := r.1, bal := l, now := b }, r.2)
  | .send t a n id => do
    require (decide (a ≠ w.rew.me)) .unauthorized
    let l ← w.rew.bal.move (.cw20 t, a) (.cw20 t, w.rew.me) n
    let c ← DaoRewards.execReceive w.rew.c b (answers V w b) t a n id
    .ok ({ w.rew with c := c, bal := l, now := b }, [])
  | .change vp diffs via => do
    require (decide (vp ≠ w.vp)) .invalid
    require (decide (diffs ≠ [])) .invalid
    let r : DaoRewards.World := { w.rew with votes := w.rew.votes.set vp ((w.rew.vote vp).change b.height diffs), now := b }
    let c ← DaoRewards.announce b (answers V { w with rew := r } b) (diffs.map Prod.fst) via w.rew.c
    .ok ({ r with c := c }, [])
  | .transfer t a dst n => do
    require (decide (a ≠ w.rew.me)) .unauthorized
    let l ← w.rew.bal.move (t, a) (t, dst) n
    .ok ({ w.rew with bal := l, now := b }, [])

/-- The messages to listeners of which the distributor `me` gets its own, packages/dao-hooks/src/stake.rs:14-52. -/
def deliver (b : Block) (v : Addr → DaoRewards.Answer) (me caller : Addr) :
    List (Addr × List Addr) → DaoRewards.State → Res DaoRewards.State
  | [], c => .ok c
  | (r, members) :: rest, c =>
    if r = me then do
      let c1 ← DaoRewards.execHook c b v caller members
      deliver b v me caller rest c1
    else deliver b v me caller rest c

/-- One transaction. As in `DaoRewards.step`, transactions at one height are in one block and heights have 64 bits. -/
def step (V : Telling S E C O) (w : World S) (b : Block) (call : Call E C) : Res (World S × List Pay) := do
  require (decide (w.rew.now.height < b.height ∨ w.rew.now = b)) .invalid
  require (decide (b.height < U64)) .invalid
  match call with
  | .rewards c => do
    let r ← rewardsStep V w b c
    .ok ({ w with rew := r.1 }, r.2)
  | .vote e m => do
    require (decide (V.sys.block e = b)) .invalid
    let r ← V.sys.step w.vote e m
    let w1 : World S := { w with vote := r.1, rew := { w.rew with now := b } }
    let c ← deliver b (answers V w1 b) w.rew.me w.caller (V.told r.2) w.rew.c
    .ok ({ w1 with rew := { w1.rew with c := c } }, [])

/-- A new distributor, contracts/distribution/dao-rewards-distributor/src/contract.rs:35-57, beside a voting module in
any state it can be in by then. The contracts have different addresses. -/
def Init (V : Telling S E C O) (b : Block) (w : World S) : Prop :=
  DaoRewards.sys.init b w.rew ∧ (∃ b1 l, V.sys.Reach w.vote b1 l ∧ b1.le b) ∧ w.caller ≠ w.rew.me

/-- The system. -/
def sys (V : Telling S E C O) : Sys (World S) Block (Call E C) (List Pay) where
  init := Init V
  block := id
  step := step V

/-- An event of a history. -/
abbrev Event (S E C : Type) := Ev (World S) Block (Call E C) (List Pay)

/-! ## The voting modules that tell -/

/-- dao-voting-token-staked: one staker in every message, contracts/voting/dao-voting-token-staked/src/contract.rs:201-205
and 243-275. -/
def tokenStaked : Telling TokenStaked.World Block TokenStaked.Call TokenStaked.Out where
  toVotingModule := WholeDao.tokenStaked
  listeners w := Hooks.items w.c.hooks
  told o := o.hooks.map (fun m => (m.to, [m.staker]))

/-- dao-voting-cw721-staked, contracts/voting/dao-voting-cw721-staked/src/contract.rs:232-239 and 288-335. -/
def nftStaked : Telling NftStaked.World Block NftStaked.Call NftStaked.Out where
  toVotingModule := WholeDao.nftStaked
  listeners w := Hooks.items w.c.hooks
  told o := o.hooks.map (fun m => (m.to, [m.staker]))

/-- dao-voting-onft-staked, contracts/voting/dao-voting-onft-staked/src/contract.rs:181-192 and 347-392. -/
def onftStaked : Telling OnftStaked.World Block OnftStaked.Call OnftStaked.Out where
  toVotingModule := WholeDao.onftStaked
  listeners w := Hooks.items w.n.c.hooks
  told o := o.hooks.map (fun m => (m.to, [m.staker]))

/-- dao-voting-cw20-staked: the messages come from cw20-stake, contracts/staking/cw20-stake/src/contract.rs:167-169 and
215-249. -/
def cw20Staked : Telling Cw20Voting.World Block Cw20Voting.Call Cw20Voting.Out where
  toVotingModule := WholeDao.cw20Staked
  listeners w := Hooks.items w.s.c.hooks
  told o := o.hooks.map (fun m => (m.to, [m.staker]))

/-- dao-voting-cw721-roles: the messages come from cw721-roles, contracts/external/cw721-roles/src/contract.rs:127-132,
208-215 and 418-423, and name one member. -/
def roles : Telling Roles.Voting.World Roles.Env Roles.Voting.Call Roles.Out where
  toVotingModule := WholeDao.roles
  listeners w := Hooks.items w.roles.hooks
  told o := o.hooks.map (fun m => (m.to, [m.member]))

end Verif.RewardedDao
