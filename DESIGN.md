# Formal model of DA0-DA0/dao-contracts in Lean 4

The code under study is the Rust workspace in /repo (pinned commit, read as text only).
The model is in `lean/Verif/`. The property list is `properties.jsonl`; the mapping from properties
to theorems is `MANIFEST.json`; the wrong programs the theorems were tried against are in `seeded/LOG.jsonl`.

## Layout

* `Verif/Base`: integers with overflow, association maps, snapshot maps, ledgers, ownership, claims, and
  transition systems with their histories (`Sys`, `Run`, `Reach`).
* `Verif/Model`: one file per contract or package, one Lean definition per Rust function, each with the file
  and lines it models. The header of each file lists its simplifications.
* `Verif/Spec`: what the properties speak of (sums over ballots, what was paid in a history, who may do what),
  written from the English statement and not from the contract's helpers.
* `Verif/Proofs`: lemmas and invariants.
* `Verif/Props`: the theorems named `Cnn_...`, and beside them concrete histories that meet their hypotheses
  (`..._example`, `example`) or that violate a claim which is false of the code (`..._witness`).

## Conventions of the model

* Entry points are total functions `State -> Env -> ... -> Except Err (State x Out)`. An error or a panic
  reverts the transaction, so the caller keeps the old state. The release profile of the workspace has
  `overflow-checks = true` and `panic = "abort"`; overflow and underflow are explicit errors here.
* `Uint128`, `Uint256`, `u64` are `Nat` with explicit bound checks where the Rust code can overflow.
  A `Decimal` is its number of atomics (`Nat`, scale 10^18).
  Only the addition of a duration to the block height or time is unbounded in the models of the contracts; `Model/Clock`
  has it with the bound, and C126 says what that changes: nothing for durations up to 272 years.
  The same holds of `pause` of the DAO core, of the funding period of the fund distributor and of the end of a vest, which are
  additions of the same kind made by one call: with a bound that call fails for such a duration, and nothing else changes.
* Storage maps are association lists (`Verif.Base.Map`).
* A contract is modelled with as much of its surroundings as the property needs: the ledger of its token, the
  NFT contract's owners, the staking contract's snapshots, the DAO's voting module. Histories interleave calls
  of the contract by anybody with everything the surroundings can do. Assumptions on other contracts are
  hypotheses of the theorems and are named there.
* Addresses are natural numbers (opaque ids); address validation and JSON encoding are not modelled.
* Strings, messages and metadata that the code only stores and passes on are numbers.
* Properties about histories quantify over all runs (`Sys.Run`, `Sys.Reach`), of any length and with any
  non-decreasing block heights and times, and are proved by induction.
* A claim that is false of the code is kept in `properties.jsonl` in full. The manifest calls it `partial`,
  the proved part has the suffix `_partial` or a hypothesis that says what is missing, and a theorem or a
  reachable history shows the violation.

## Trusted base

* Lean 4.33.0's kernel, and the axioms `propext`, `Classical.choice`, `Quot.sound`. `AXIOMS.md` lists for every
  theorem of the manifest the axioms it depends on, as `#print axioms` reports them. No axioms of our own, no
  `sorry`, `native_decide` or `bv_decide`. Concrete histories are evaluated by the kernel (`decide +kernel`).
* The reading of the Rust code: that each definition behaves as the cited lines do.
* The behaviour assumed of libraries that are not in /repo; each assumption is a definition of the model:
  * cosmwasm-std integers and decimals (`Base/Core`, `Model/Voting`).
  * cw-storage-plus: maps and items; `SnapshotMap`/`SnapshotItem` with `EveryBlock` (`Base/Snapshot`): a value
    read at height h is the one before the first write at or above h. Ranges are in key order (`Model/Paginate`).
  * cw-utils `Expiration`, `Duration`, `must_pay`, `nonpayable` (`Base/Core`, and in the contracts).
  * cw-controllers claims and hooks (`Base/Claims`, `Model/Hooks`), cw-ownable (`Base/Ownable`).
  * cw20, bank and cw721 behave as standard ledgers (`Base/Ledger`, `Base/Coins`, the `World` of each model):
    no fees, no rebasing, nobody else moves the contract's funds. cw20 allowances are not modelled; a
    `TransferFrom` may fail or move.
  * wynd-utils curves and the chain's staking module (`Model/Vesting`).
  * x/fantoken: only the minter mints, never beyond the largest supply and no zero amounts; authority and minter are
    handed over by who has them (`Model/FanToken`). x/onft: owners (`Model/OnftStaked`).
  * the token factory module in both flavours of burning (`Model/Issuer`); answers of other transfer listeners
    are left open, they could only stop more.
* The CosmWasm runtime: transactions are atomic, submessages run in order, a `reply_on_error` submessage
  that fails is rolled back and its reply runs, an instantiated contract has a new address. Where messages run
  later in a transaction the models over-approximate: `DaoCore` has a stack of messages with calls by anybody
  in between, the pre-propose models have queues that are worked off at any time in any order.

## What is modelled

| Code | Model | Left out |
| --- | --- | --- |
| packages/dao-voting (thresholds, tallies, status, veto, deposits, reply ids, active thresholds) | Voting, Reply, ActiveThreshold, PrePropose | denomination checks by queries, delegations are not in this commit |
| packages/cw-hooks, dao-hooks | Hooks and the `Out` of each contract | encoding |
| packages/cw-paginate-storage | Paginate | keys are numbers |
| packages/cw-wormhole, cw-stake-tracker | Wormhole, StakeTracker | |
| packages/cw721-controllers | NftClaims | |
| packages/dao-pre-propose-base, contracts/pre-propose/{single, multiple, approval-single, approver} | PrePropose, PreProposeModules, PreProposeApproval, PreProposeApprover | queries other than those other contracts rely on (migration: PreProposeUpgrade) |
| contracts/proposal/{single, multiple, condorcet} | Single, SingleUpgrade, Multiple, Condorcet | migration of multiple and condorcet (which only write the version), the code of version 1 |
| contracts/dao-dao-core | DaoCore | queries of balances (migration: StakingUpgrade) |
| contracts/staking/{cw20-stake, external-rewards, reward-distributor} | Cw20Stake, ExternalRewards, RewardDistributor | (migration: StakingUpgrade) |
| contracts/voting/{cw20-staked, cw4, token-staked, cw721-staked, onft-staked, cw721-roles} | Cw20Voting, Cw4Voting, TokenStaked, NftStaked, OnftStaked, Roles, PowerQueries | creation through other factory contracts than btsg-ft-factory |
| contracts/distribution/{cw-fund-distributor, dao-rewards-distributor} | FundDistributor, DaoRewards | `migrate` of dao-rewards-distributor, which only writes the version |
| contracts/external/cw-vesting | Vesting | |
| contracts/external/cw-token-swap | TokenSwap | |
| contracts/external/cw-tokenfactory-issuer | Issuer | denomination metadata |
| contracts/external/cw721-roles | Roles | approvals, which nothing reads |
| contracts/external/cw-payroll-factory | PayrollFactory (over Vesting) | |
| contracts/external/cw-admin-factory | AdminFactory | code ids, salts and how the chain derives addresses |
| contracts/external/dao-migrator, with the upgrade of core and single choice modules | Migrator | the code of version 1, labels, the storage of voting and staking contracts (an oracle says what they report) |
| `migrate` of cw20-stake, cw20-stake-external-rewards, cw20-stake-reward-distributor and dao-dao-core from version 1 | StakingUpgrade | the code of version 1; whether stored bytes of the two versions agree beyond the settings |
| `migrate` of dao-pre-propose-base and its four contracts (`FromUnderV250`) | PreProposeUpgrade | the code of version 2.4, versions with a suffix |
| contracts/external/btsg-ft-factory | FanToken | issue fee, names and URIs |
| core, single choice module and voting module of one DAO | WholeDao, WholeDaoModules | messages between them other than power queries and `ExecuteProposalHook` are calls by anybody |
| the same with a multiple choice module | WholeMulti, WholeMultiModules | likewise |
| a DAO with dao-pre-propose-single in front of its proposal module | DepositDao, PrePropose | the hooks and the take of a deposit are later steps, as in PrePropose; the calls of the pre-propose module by its DAO are calls by anybody with that address |
| a DAO with dao-pre-propose-multiple in front of its proposal module | DepositMulti, PrePropose, WholeMulti | as DepositDao |
| a DAO whose proposals another DAO may veto | VetoDao, WholeDao | the messages of the vetoing DAO with which it uses its right come out of its list of messages to send; what else it does there (voting, proposing) it may do at any time |
| a DAO with a multiple choice module whose proposals another DAO may veto | VetoMulti, WholeMulti, WholeDao | as the line above |
| a DAO and a contract that belongs to it (vesting, issuer, rewards distributor, staking, reward distributor, external rewards, payroll factory, roles) | OwnedDao, WholeDao | the calls of the contract by the DAO come out of its list of messages to send; the coins sent along with them are not taken from the treasury of the DAO model |
| a DAO with all its proposal modules and any number of contracts of the eight kinds | Holdings, FullDao | as the row above |
| a DAO and its treasury: native coins, cw20 tokens and allowances; `into_wasm_msg` | Treasury, FullDao | the bank and cw20-base as documented; tokens whose issuer can seize them are left out; the coins with which members vote are a ledger of their own, that of the voting module; contracts that receive a message with tokens accept it |
| several DAOs and a cw-token-swap | SwapDaos, FullDao, TokenSwap | the messages of a DAO to the swap are read as one of its calls or as a transfer; a party is a DAO of the model or an outside account |
| a network of DAOs | DaoNet, FullDao | a message of a DAO to another is read as one call of the other DAO's core; it is delivered and carried out in one step |
| DAOs as members of DAOs | Federation, FullDao | a message of a DAO to another is read as one call of the other DAO's core or of one of its proposal modules; it is delivered and carried out in one step |
| `migrate` of dao-voting-cw4, -cw20-staked, -token-staked, -cw721-staked, -onft-staked, cw-tokenfactory-issuer, cw-token-swap, cw-admin-factory, btsg-ft-factory, dao-proposal-multiple, dao-rewards-distributor | Versions | names are numbers; versions without pre-release parts and build numbers; the code the chain runs afterwards is not modelled |
| a DAO behind dao-pre-propose-approval-single with an approving DAO behind dao-pre-propose-approver | PreProposeApprover, DepositDao | both DAOs are whole DAOs; the hooks between the contracts are later steps, as in PreProposeApprover |
| dao-voting-token-staked with a token from btsg-ft-factory, that factory and the chain | FanDao | issue fee, funds sent to the factory |
| dao-voting-token-staked creating its own token, with cw-tokenfactory-issuer and the chain | TokenDao | the fee for a denomination, its metadata |
| dao-voting-cw721-staked creating its own collection, with cw721-base | NftDao | token URIs and extensions |
| dao-rewards-distributor with the voting module of a DAO and its hook messages | RewardedDao | what other listeners do on a message (later calls by anybody); cw4-group, whose hooks are not in this repository |

Not modelled: contracts/test, ci, scripts, packages that only hold interfaces, macros or test helpers; JSON and protobuf encodings, gas, IBC, schemas,
events and attributes, code ids and labels, cw2 version bookkeeping.

## Plan per property

| Property | What is modelled, how it is proved |
| --- | --- |
| C01, C02 | `compare_vote_count`, `does_vote_count_pass/fail` over Nat; arithmetic lemmas about floor division; bounds of every intermediate. |
| C03-C05, C12 | `is_passed`, `is_rejected`, `current_status` of dao-proposal-single; a continuation of votes is any extra tally within the remaining power. Monotonicity proofs. C04/C05 are false for some decimals: witness plus partial theorem for thresholds of at most nine decimals. |
| C06-C11, C13-C15 | The whole dao-proposal-single contract as a state machine over propose, vote, update rationale, execute, close, veto, config, policy, hooks, replies. Invariants by induction over histories. |
| C61, C62 | On the same state machine: totality lemmas for each entry point from the invariants; announcements compared with the recorded status. C62 is false when an execution fails: proved. |
| C16 | `mask_*` and `TaggedReplyId::new` over 64-bit wrap-around arithmetic. |
| C17, C60 | cw-hooks list and the reply that removes by index; characterisation for every failing subset. The property is false for two failures in one message: witness and exact condition. What the lists of the staking modules and of cw721-roles hold, and that everybody on them is told of every change, by induction over histories (`Props/HookLists`). |
| C18-C21 | dao-proposal-multiple: tally, vote result, passed/rejected decisions, contract state machine. |
| C22-C25 | dao-proposal-condorcet: cells, triangular matrix, stats, tally, contract. Refinement of the matrix to the integer-valued antisymmetric margin function. |
| C26-C29 | cw20-stake state machine with the ledger of its token; real-valued share prices compared by cross multiplication. |
| C30, C31 | Snapshot map model (changelog + current); every voting contract writes it only at the current height. |
| C32 | `query_is_active` arithmetic of all voting modules with thresholds. |
| C33 | dao-voting-cw721-staked with the NFT contract's ownership map. |
| C34, C63, C35 | cw20-stake-external-rewards over the staking contract's snapshots, with the exact pro-rata share as a rational number; cw20-stake-reward-distributor. |
| C36, C37 | cw-wormhole as sorted snapshot list refined to a function of time; cw-stake-tracker on top, against the chain's staking records. |
| C38-C41, C64, C65 | cw-vesting with curves, the bank and the staking module; payments summed over the history. |
| C42 | cw-token-swap with the balances of the parties. |
| C43, C44 | cw-fund-distributor; the voting module answers a fixed function of the address. |
| C45, C46, C66 | dao-rewards-distributor with voting contracts that announce changes; accrual bounds with explicit rounding. |
| C47-C51 | dao-dao-core with a stack of messages. |
| C52-C55 | dao-pre-propose-base, -single, -multiple, -approval-single, -approver, composed with any proposal module that obeys laws which are proved for dao-proposal-single and -multiple. |
| C56, C57 | cw-tokenfactory-issuer over bank and token factory. |
| C70 | The optional-height queries of every voting module; stable reads of the snapshots; witnesses for the two modules that read the newest value. |
| C71 | dao-voting-cw4 over a model of cw4-group; sorting is a permutation, loop invariant total = sum of weights, then the snapshot theorems. |
| C72, C73 | dao-voting-cw20-staked over the cw20-stake model; pool at par as an invariant of histories without funding. |
| C74, C75 | dao-voting-onft-staked over the owners kept by the x/onft module, reusing the model of dao-voting-cw721-staked for the shared code; what the log says about preparations is compared with the records; the custody invariant holds while the DAO cancels no stake of an NFT kept for somebody, with a witness otherwise. |
| C58, C67-C69 | cw721-roles with dao-voting-cw721-roles; sums over tokens and members; the exact account of moved weights. |
| C76, C77 | cw-payroll-factory with balances, tokens that may or may not be honest, and vesting contracts as instances of the cw-vesting model; the registry compared with the log; balances by exact accounts. False when `Receive` is called directly and when tokens lie in the factory: witnesses. |
| C78 | cw-admin-factory with a stack of creations under way, so that instantiated contracts may call it again to any depth; invariants over the stack. The expected address can be evaded by a nested request: witness. |
| C79 | btsg-ft-factory over a model of the chain's fan token module; induction over the list of balances. |
| C80 | The models of dao-dao-core, dao-proposal-single and a voting module wired together (`Model/WholeDao`); what is needed of a voting module is a record of laws (`Spec.WholeDao.Lawful`), proved for six of them; histories of the whole are projected to histories of the parts. Percentages with more than nine decimals are covered by a second form, met but for less than a billionth of a vote (`Spec/SingleNearly`), which C81, C94, C95 and C96 carry too. |
| C81 | As C80 with dao-proposal-multiple (`Model/WholeMulti`). What the module gets when it asks for the total without a height is part of the model (`Model/WholeMultiModules`); that it is the total of the height whose powers count is proved for four voting modules, and for the other two if memberships do not change in the block of a proposal. |
| C82 | `migrate` of dao-proposal-single over a storage with the keys of both versions (`Model/SingleUpgrade`). What version 1 wrote down is described by functions from version 2 to version 1 (`Spec/SingleUpgrade`), the other way round than the code converts. Histories with upgrades are projected to histories of the module, an upgrade being two changes of settings, so that all its theorems apply. |
| C83 | dao-migrator's `execute` and `reply`, the core's migration and its replies, the `WasmMsg::Migrate` orders carried out by the chain on a world of storages, code ids and admins (`Model/Migrator`). The transaction is inverted to its parts (`upgrade_ok`); orders for different contracts are shown not to interfere; equivalence of success with readiness conditions by constructing the run. |
| C84 | `migrate` of the three staking contracts over a storage with the settings of both versions, written once for any contract whose settings can be read and written (`Model/StakingUpgrade`), and of dao-dao-core. Histories with one upgrade are projected to histories of the models of version 2. Later upgrades are false: exact effect and witnesses. |
| C85 | `migrate` of dao-pre-propose-base over a storage that holds the settings of one of the two versions, for any system whose settings can be read and written (`Model/PreProposeUpgrade`). Acceptance as an equivalence; histories with the upgrade are projected to histories of the base and approval models, where a policy given is one `UpdateConfig`. |
| C86 | The models of dao-rewards-distributor and of a voting module wired together: power queries and hook messages in the same transaction (`Model/RewardedDao`). What is needed of the module besides C80's laws is that its messages name all members whose weight changes and reach all listeners (`Spec.RewardedDao.Tells`), proved for five modules. Histories of the whole are simulated by histories of C45's model. |
| C87 | No new model: the whole DAO of C80. A status recorded as rejected or closed goes back to a tally that cannot meet the threshold any more (invariant over the histories of the proposal module, `Proofs/SingleReject`, from C04 and C10); so what is decided can be carried out (C80) or has been. For the continuation from any state: induction over the members who vote, each vote accepted by C61, powers by C80. |
| C88 | The creation of dao-voting-token-staked with a new token as one computation over the models of the module, the issuer and the chain (`Model/TokenDao`), in its two callers: a new DAO, which carries out the module's callback, and a DAO that replaces its module, which does not read it. Success as an equivalence, the outcome in terms of balances and ownership; then induction over the joint histories. |
| C89 | The same three side by side: the coins staked are coins the issuer can move, burn and freeze. Invariant: stakes and claims are covered by the module's account and what was seized from it (`Spec.TokenDao.seized`). The joint system is shown to be `Lawful`, so that C80 and C87 hold of it. |
| C90 | The same histories with the DAO idle: what can be staked is bounded by what is not the DAO's; conversely all holders stake, by induction over their list. The unconditional claim is false: witnesses. |
| C91 | The creation of dao-voting-cw721-staked with a new collection as one computation (`Model/NftDao`), in its two callers as in C88; the listed messages are arbitrary messages to the collection. Success as an equivalence for lists of mints, the shape of the outcome for all lists; then induction over the joint histories. |
| C92 | The same joint histories, with approvals and operators. The module gave no permissions (invariant `Clean`), so they are simulated by histories of the voting module over a bare ledger of owners (`Model/NftStaked`), whose theorems carry over. With a permission: explicit continuations, by induction over the number of votes. |
| C93 | The same histories with the DAO idle: NFTs of the DAO, the module and the collection stay where they are, so what can be staked is bounded; conversely all holders stake. The unconditional claim is false: witnesses. |
| C94 | As C80 with dao-proposal-condorcet (`Model/WholeCondorcet`), which asks for the proposer's power and for the total without a height (`Model/WholeCondorcetModules`). The tally of a reachable state is that of the ballots of the history, weighed by the voting module; C25 and C61 then give the winner. For cw4 and roles it holds if membership does not change in the block of a proposal before it is made; otherwise witnesses. |
| C95 | A DAO with any number of proposal modules of all kinds (`Model/FullDao`): modules are created at new addresses, and a call of one is a step of `Model/WholeDao`, `WholeMulti` or `WholeCondorcet` on the DAO as that module sees it. By induction every history projects to a history each single module could have seen, in which all else that happens is calls of core and voting module; C80, C81 and C94 then apply. That everything sent is authorised is an induction over the messages waiting. |
| C96 | Two DAOs (`Model/SubDao`), each a `Model/FullDao`; the next message of the parent may be one for the core of the SubDAO, and is then carried out as a call of it by the parent. Histories project to histories of either DAO, so C95 applies to both. That the parent stays admin is an induction; that everything the SubDAO sends is authorised is proved for any DAO with an outside admin and then traced to the parent's messages. Obedience is shown by running the step. |
| C97 | One `Model/Cw20Stake` and any number of `Model/ExternalRewards` contracts (`Model/Farms`), the balances of each token kept once; hook messages are delivered in order and a failing one fails the transaction. Histories project to histories of the staking contract alone (payments by reward contracts are transfers by strangers), and of each registered reward contract alone, so C34/C63 apply to it. Liveness and the trap of an overfunded contract by running the step; witnesses without registration. |
| C98 | The queries of `Model/Cw20Stake` against its own unstaking (C29) and its invariants (C26-C28); staking run forward from any reachable state; witnesses by replay of histories. |
| C99 | `Model/DaoRewards`: an invariant of every distribution relating start, end, funds and rate, kept by every transaction (`Proofs/DaoRewardsPeriod`); the exact effect of fundings and rate changes; when a fresh distribution can be funded, as an equivalence; claims against the pending-rewards query. |
| C100 | `Spec/Settings`: receivers and settings told from the list of successful calls. Per contract (`Spec/SettingsOf`) which call edits or sets what; induction over histories that the storage agrees (`Props/SettingsVoting`, `SettingsProposals`, `SettingsPrePropose`). |
| C101 | `Spec/SoundConfig`: sound thresholds and periods. Instantiation and update as equivalences, soundness as an invariant; for the empty voting period an invariant of the proposal along every later history (`Props/SoundConfig`). |
| C102 | `Model/FundedDao`: the fund distributor (C43, C44) beside any lawful voting module (C80). The history of the distributor is cut out of the common one; past answers of the module are stable, so the assumption of C43 on the answers is discharged; shares over everybody add up by `Lawful.sums`. |
| C103 | `Model/Listings`: the list queries on the states of the contracts already modelled; `Spec/Listings.Pages` says what a client does. Following pages of a map shows the map (as in C59); entries are tied to the histories by C07, C13, C31, C33, C54, C58, C61. |
| C104 | No new model: the whole DAO of C81. As C87, with the multiple choice module: a status recorded as rejected or closed goes back to a tally in which no option can win any more (`Proofs/MultipleReject`, from C19-C21 and C10); votes by induction over the members; `Spec.WholeMulti.Decisive` is the share that wins whatever the others do, characterised by `C104_half_decides` and `C104_half_needed`. |
| C105 | No new model: the whole DAO of C94. A status recorded as rejected or closed goes back to a tally in which no choice can win any more (`Proofs/CondorcetReject`, invariant over all histories); members with more than half who rank a choice first make it the Condorcet winner whatever the others rank (`first_wins`); votes by induction over the members; `C105_half_needed` shows the bound is sharp, `C105_zero_period` the one configuration that breaks it. |
| C106 | `Model/CoreQueries`: the queries of the core contract on the state of `Model/DaoCore`. `Spec/CoreQueries` says what they should show in terms of calls: `Closed` (every call of everybody else fails), `Obeys` (the messages of a module are carried out), `pauseAfter`, `votingAfter` (the last word). By the invariants of C48 and C51 and induction over histories. |
| C107 | Same model. Pages while the tokens answer; `C107_blocked` shows for every reachable state how anybody can stop the query, so the full statement is false of the code. |
| C108 | `Model/FundQueries`: the list queries of cw-fund-distributor. The entries by the invariant of C43, the pages as in C103, payments by `C43_query`. |
| C109 | `Base/Ownable` for `cw_ownable`; the eight contracts as modelled for their own properties. `Spec/Owners` reads the calls of `UpdateOwnership` off a history and says who should own the contract; by induction over histories, after showing of each message of each contract that it leaves the ownership alone. |
| C110 | The two calls of a hand-over, and a renunciation, carried out in an arbitrary state. |
| C111 | `Model/DepositDao`: the whole DAO of C80 is the proposal module of `Model/PrePropose`. Each history is read as one of the DAO and as one of the pre-propose module; C80 and C52 apply to these, and by induction every new proposal goes back to a submission. That the pre-propose module stays attached until one of its hooks fails is an induction over the history (`Props/Attached`). |
| C112 | C87 with the proposal made by the pre-propose module (`WholeDao.after_proposed`), lifted call by call, followed by the take of the deposit and the delivery of the completion hook. |
| C113 | `PreProposeApprover.tsys` with the whole DAO of C80 on both sides. `Proofs/Watch` reads a history of a system as one of a DAO in it; both DAOs are read like this. By induction every mirror of a submission is a proposal of the approving DAO with its contents; a new proposal of the DAO goes back to the execution of such a mirror, and C80 says what the members had decided then. |
| C114 | The steps of C112, for the approving DAO and then for the DAO: `tmirror_of`, `ttwo_of`, `tdeliver_of`, `approve_of`, `tone_of` say what each call between the contracts does; C87 (`WholeDao.after_proposed`) gives the votes and the execution in each DAO, and C113's reading of a history as one of each DAO the reachability it needs. |
| C115 | `Model/FanDao` puts dao-voting-token-staked (with its factory reply), btsg-ft-factory, x/fantoken and the bank together. The ledger of one denomination is cut out of all balances (`ledgerOf`), so that a history of the whole is one of the voting module over one ledger (`seen`, `run_proj`) and C31 and C32 carry over; the supply the chain keeps is the sum of what holders have (`Tally`); burning never helps to meet a threshold (`met_burn`). |
| C116 | `Model/DepositMulti`: as C111, with the whole DAO of C81 as the proposal module of `Model/PrePropose`. Each history is read as one of the DAO and as one of the pre-propose module; C81 and C52 apply to these, and by induction every new proposal goes back to a submission. Staying attached as for C111. |
| C117 | C104 with the proposal made by the pre-propose module (`WholeMulti.after_proposed`), lifted call by call, followed by the take of the deposit and the delivery of the completion hook, as in C112. |
| C118 | `Model/VetoDao`: two whole DAOs of C80, either with an arbitrary earlier history. Each history is read as one of each DAO; C11 and C80 apply to these, and what is done with the address of the vetoing DAO came out of its list, so C80 says who decided it. |
| C119 | C87 for the vetoing DAO, lifted to the two DAOs and followed by the veto, which `veto_step` shows to succeed; the status of a proposal during its timelock by the invariant behind C11. |
| C120 | `Model/VetoMulti`: as C118 with the whole DAO of C81 in the place of the watched one. C11 for multiple choice and C81 apply to its history, C80 to that of the vetoing DAO. |
| C121 | As C119, with the status of a multiple choice proposal during its timelock. |
| C122 | `Model/OwnedDao`: a whole DAO (C80) and any contract with an owner, whose calls by the DAO are the next message of the DAO's list. Projection of a history to one of the DAO and one of the contract; C80 for the decisions, `Owners.Owned` (C109) for the ownership; instances for eight contracts. |
| C123 | The script of C87, followed by the call; C40 and C41 for the split of a cancelled vest. |
| C124 | The DAO of C80, in histories in which what the DAO says to its own modules was the message it delivered just before (`FromList`, an assumption that holds of a chain, where only a contract itself can call in its own name). The caller checks of each module give the caller; C80 gives the decision. |
| C125 | The script of C87, the delivery of the message, and the call of the module; C71 and C58 for the weights. The histories stay within `FromList`. |
| C126 | `Model/Clock`: `Duration::after` and `Expiration + Duration` with 64 bit overflow, put before the calls of the other models that make these additions (propose, unstake) and into `current_status`. Inversion gives the exact condition; the runs of the checked program are runs of the model (so all that is proved of histories holds of it), and conversely when the durations in force fit. The frozen DAO: induction, with C124 and C80. |
| C127 | `Model/Holdings`: the DAO with all its proposal modules (C95) and a family of contracts, indexed by any type of names, each of one of eight kinds. A message of the DAO for a contract is the next of its list. Projection to a history of the DAO and one of each contract by induction; C95 for the decisions, C109 for the ownership, C95's theorems on carrying out for what members can do. |
| C128 | No new model: C95's DAO (`Model/FullDao`). `Spec/FullRules` says what the DAO says to its parts and that this comes off its list of messages. Whatever is on the list was authorised (C95); who may change what is C15, C25 and the admin theorems of the voting modules; put together for each event of a history. |
| C129 | The same model: C95's theorems on carrying out, delivery of the one message, then the call by the DAO, whose success follows from the characterisation of sound configurations (C101) and of what admins of groups and owners of roles can do (C71, C69). |
| C130 | `Model/Treasury`: C95's DAO together with all balances and cw20 allowances; what the DAO sends is carried out on them in its name, everybody else does anything in their own name. The books by induction over histories; what the DAO does is on its list of messages, so C95 says who decided. |
| C131 | The same model: C95's theorems on carrying out, then delivery of each message; payments by induction over their list. |
| C132 | `Model/Versions`: what `migrate` does to the recorded version, with strings as bytes, Rust's order of strings and semver's parsing and order. That parsing undoes writing and that both orders agree on versions with the same numbers of digits, by induction on the digits; then induction over the upgrades. Partial: the voting modules compare versions as strings (`C132_tenth_witness`). |
| C133 | `Model/SwapDaos`: any number of DAOs (FullDao, each with its own voting module) and a cw-token-swap; what a DAO sends to the swap is acted on there. The histories of each DAO and of the swap are projections; then C95's and C42's theorems, accounts by induction over the history. |
| C134 | `Model/DaoNet`: any finite number of DAOs (FullDao, each with its own voting module); what a DAO sends to another is the call it makes there. The history of each DAO is a projection (`C134_dao`); then C95's theorems, authority by induction over the history, chains of command by induction over the chain. |
| C135 | `Model/DaoNet`. Changes of admin and nominee in one step from C50's theorems on the core; who said it from the network (`net_said`); authority from C134, by induction over the history. |
| C136 | `Model/Federation`: any finite number of DAOs (FullDao) that may be members of each other; what a DAO sends to another is a call of its core or of a proposal module there, with the DAO as sender. The history of each DAO is a projection (`C136_dao`); who speaks in the name of a DAO by cases on the event, authority from C95; acceptance of votes from C87, C94 and C104. Not modelled: that staking in another DAO, and calls of its pre-propose modules, come out of what a DAO sends (the voting module and the proposer named by a pre-propose module are free). |
| C59 | cw-paginate-storage over sorted key lists; following pages to the end. |

## What the proofs found

Behaviour that contradicts what a user would expect, each shown by a theorem over the model:

* C04, C05: with thresholds finer than nine decimals a proposal can be passed and rejected at once, since the
  two decisions round differently (`C05_false_in_general`).
* C17: two failing hooks in one message abort it or remove an innocent receiver, since indices shift.
* C28: the first staker of cw20-stake takes what was funded into the empty pool (`C28_first_staker_gains`).
* C34: external rewards stop being payable when the contract is removed from the hooks, and funding of more
  than 2^256/10^39 blocks claims and unstaking (`C34_unhooked_witness`, `C34_overflow_witness`).
* C35: updating the reward distributor's configuration drops the pending rewards (`C35_config_drops`).
* C37, C39, C41: slashes of unbonding tokens and unasked transfers let cw-vesting's accounts go wrong: blocked
  cancellation, underflow, payments beyond the total.
* C44: the fund distributor reads the total at another height than the members' powers (`C44_heights_*`).
* C45, C46: in dao-rewards-distributor replacing the voting contract, or handing out at once in a block whose
  powers changed, pays more than was funded; refunding a finished continuous distribution loses accrued rewards.
* C52: deposits are stranded when a pre-propose module is replaced, or withdrawn by the DAO.
* C55: vetoing a mirror proposal leaves the submission undecided for ever.
* C57: a denomination that the issuer did not create with its hook is not protected by its freeze.
* C70: dao-voting-cw4 and dao-voting-cw721-roles, asked without a height, answer with the newest weight and the
  current height, which is not what they answer for that height if weights changed in the same block.
* C81: dao-proposal-multiple (and dao-proposal-condorcet) ask for the total that way: if a member of a cw4 group is
  removed in the block of a proposal, those who remain can decide alone although the removed one could still vote
  (`C81_cw4_witness`, `C81_roles_witness`).
* C94: with dao-proposal-condorcet it is worse: the removed member's vote is then rejected altogether, because it exceeds
  what is outstanding of the total (`C94_cw4_witness`, `C94_roles_witness`: 10 of 100 decide, the other 90 cannot vote).
* C82: the storage of version 1 stays after an upgrade of dao-proposal-single and only the version string is compared,
  so `FromV1` sent with a later release turns proposals back: an executed one can be executed again
  (`C82_again_witness`). `FromCompatible` sent to a module of version 1 makes every call fail (`C82_compatible`).
* C83: a DAO that has a proposal module without any proposal cannot be upgraded by dao-migrator (`C83_blocked`), nor
  one with a second kind of module; of all voting powers it compares one (`C83_accepted`, `SampleAgrees`).
* C84: the same holds of cw20-stake, its reward contracts and dao-dao-core: `FromV1` sent with a later release makes
  whoever owned the contract under version 1 owner again, also after ownership was given up (`C84_again_witness`);
  in the core it enables disabled modules, sets wrong counts and leads to equal prefixes (`C84_core_witness`).
* C86: hook messages to dao-rewards-distributor are not allowed to fail: if the owner gives the last distribution for a
  staking contract another hook caller and does not take the distributor off its list, nobody can stake or unstake any
  more (`C86_locked`, `C86_witness_locked`). Nothing checks that the distributor listens (`C86_witness_deaf`).
* C87: a `max_voting_period` of zero is accepted (`validate_voting_period` only compares it with the minimum). Proposals made
  under it are expired in their own block: nobody can vote, nothing can pass, so a DAO without an outside admin cannot even
  change it back (`C87_zero_period`, `C87_witness_zero`).
* C88: a DAO that replaces its voting module by one with a new token does not carry out the module's callback, so the
  voting module stays owner of the issuer until the DAO accepts by another proposal (`C88_waiting`, `C88_replaced_witness`).
* C89: coins staked in a token the DAO issues can be moved, burned or frozen by it; the stakers keep their voting power and
  cannot unstake (`C89_seizure_witness`, `C89_freeze_witness`).
* C90: a percentage threshold counts the coins minted for the DAO itself, which nobody can stake: with a treasury of 90 %
  and a threshold of 50 % the DAO is never active (`C90_born_locked`). A count is compared with listed coins, also those
  listed for the DAO (`C90_listed_locked`).
* C91: as in C88, a DAO that replaces its voting module by one with a new collection has to accept the ownership by another
  proposal (`C91_waiting`, `C91_replaced_witness`).
* C92: the messages that mint the first NFTs are sent unread by the voting module. With an `ApproveAll` among them the named
  account is an operator of the module for good: it can take every staked NFT and give itself any number of votes from one
  of them (`C92_operator_takes`, `C92_operator_votes`).
* C93: the count of an active threshold is compared with all NFTs, also those minted for the DAO itself
  (`C93_born_locked`); holders who burn NFTs can leave a DAO inactive for good (`C93_burnt_locked`). Votes are counted as of
  the start of a block and NFTs as of now: unstaking and burning makes a DAO active for the rest of the block
  (`C93_burn_wakes`).
* C71: dao-voting-cw4 accepts an existing group with total weight zero.
* C73: whoever stakes one unit in an empty cw20-stake pool and funds it raises the price of a share; the voting
  power of all that is staked afterwards falls short of the supply, and the DAO may never become active.
* C74: in dao-voting-onft-staked the DAO can cancel a confirmed stake, which moves the NFT and leaves the stake: the
  NFT can then be staked again and counts twice, and one of the two stakers cannot unstake (`C74_double_witness`).
* C75: a preparation survives a sale: a buyer who transfers the NFT without preparing it loses it to the earlier
  owner (`C75_stale_witness`).
* C58, C67, C68, C69: cw721-roles does not move weights on transfers, tells listeners nothing of lowered
  weights, can refuse to burn tokens, and can never be handed over: a role contract created by
  dao-voting-cw721-roles obeys nobody for ever (`C67_created_frozen`).
* C76: cw-payroll-factory lets anybody call `Receive` with a made-up sender, which passes the owner check and is
  listed as instantiator (`C76_forged_witness`).
* C77: cw20 tokens that lie in the payroll factory can be vested by anybody for nothing, and the token that pays
  is not compared with the token that is vested (`C77_taken_witness`, `C77_stranded_witness`).
* C78: a contract created by cw-admin-factory at an expected address can evade the check by asking the factory for
  another contract while it is instantiated (`C78_expect_witness`); a nested request without an expectation is
  refused by mistake (`C78_inner_blocked`).
* C115: a DAO with a fan token can be created with a percentage threshold that its holders can never meet, as in C90
  (`C115_born_locked`).
* C79: the fan token factory accepts an empty list of balances (`C79_empty_witness`).
* C62: hooks are told "executed" when the execution failed.
* C65: accepted vesting schedules whose vested amount overflows.
* C126: voting periods, unstaking periods and veto timelocks have no upper bound. With 585 years or more the addition to the
  clock panics: nobody can propose (a DAO with this one proposal module is stuck for ever), nobody can unstake, and a passed
  proposal has no status.
