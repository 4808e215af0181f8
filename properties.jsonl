{"id": "C01", "title": "Threshold comparison decides the fraction it documents", "statement": "A percentage threshold p is met by w votes out of n whenever w/n >= p, is never met when w/n falls short of p by 1e-9 of a vote or more, and is exact when p has at most nine decimals; a majority threshold is met iff 2w > n; with n = 0 nothing passes and everything fails.", "quantifier": "every vote count w, every number of eligible votes n, every decimal p in [0,1]", "why_tests_cant": "the rounding error depends on the joint value of three 128-bit numbers; the bad inputs are isolated points", "anchors": ["packages/dao-voting/src/voting.rs:compare_vote_count", "packages/dao-voting/src/voting.rs:does_vote_count_pass", "packages/dao-voting/src/voting.rs:does_vote_count_fail"]}
{"id": "C02", "title": "Vote counting never overflows or panics", "statement": "Evaluating a validated threshold on any 128-bit vote counts never overflows the 256-bit intermediate or panics.", "quantifier": "all Uint128 vote counts and total powers, all validated thresholds", "why_tests_cant": "overflow needs extreme values of several operands at once", "anchors": ["packages/dao-voting/src/voting.rs:compare_vote_count", "packages/dao-voting/src/threshold.rs:Threshold::validate"]}
{"id": "C03", "title": "Early passing is final (single choice)", "statement": "When a single choice proposal without revoting reports that it passed before its voting period is over, every way the remaining voting power may be cast leaves it passed, before and after expiry (provided at least one yes vote was cast).", "quantifier": "every threshold, every tally, every continuation of ballots by the remaining power, every later block", "why_tests_cant": "continuations are an unbounded set of ballot sequences", "anchors": ["contracts/proposal/dao-proposal-single/src/proposal.rs:SingleChoiceProposal::is_passed", "packages/dao-voting/src/voting.rs:does_vote_count_pass"]}
{"id": "C04", "title": "Early rejection is final (single choice)", "statement": "When a proposal without revoting reports that it is rejected before its voting period is over, no way of casting the remaining power lets it pass.", "quantifier": "every threshold, tally, continuation and later block", "why_tests_cant": "needs all continuations; false at isolated roundings of a decimal threshold that sampling does not hit", "anchors": ["contracts/proposal/dao-proposal-single/src/proposal.rs:SingleChoiceProposal::is_rejected", "packages/dao-voting/src/voting.rs:does_vote_count_fail"]}
{"id": "C05", "title": "A proposal is never both passed and rejected", "statement": "For one tally at one block the passed and rejected decisions are mutually exclusive.", "quantifier": "every threshold, tally and block", "why_tests_cant": "the documented argument fails only for thresholds with more than nine decimals at particular totals", "anchors": ["contracts/proposal/dao-proposal-single/src/proposal.rs:SingleChoiceProposal::is_passed", "contracts/proposal/dao-proposal-single/src/proposal.rs:SingleChoiceProposal::is_rejected"]}
{"id": "C06", "title": "The tally is the sum of the recorded ballots (single choice)", "statement": "In every reachable state of dao-proposal-single, for each proposal, the yes, no and abstain counts are exactly the sums of the power of the recorded yes, no and abstain ballots, revotes included.", "quantifier": "every history of messages by any senders, any blocks, any voting module answers", "why_tests_cant": "an invariant over unbounded histories with revotes and rationale updates", "anchors": ["contracts/proposal/dao-proposal-single/src/contract.rs:execute_vote", "contracts/proposal/dao-proposal-single/src/contract.rs:execute_propose", "packages/dao-voting/src/voting.rs:Votes"]}
{"id": "C07", "title": "One ballot per address; a cast ballot is permanent without revoting", "statement": "An address has at most one ballot per proposal. Without revoting, once cast, its vote and power never change and a second vote is refused. With revoting, the address's latest vote is the one counted, with the power of the proposal's start height.", "quantifier": "every history, every address, every proposal", "why_tests_cant": "depends on arbitrary interleavings of other messages between the two votes", "anchors": ["contracts/proposal/dao-proposal-single/src/contract.rs:execute_vote", "contracts/proposal/dao-proposal-single/src/contract.rs:execute_update_rationale", "contracts/proposal/dao-proposal-single/src/state.rs:BALLOTS"]}
{"id": "C08", "title": "Counted votes never exceed the total power snapshot", "statement": "If the voting module's member powers at a height sum to at most its total power there, the votes counted on any proposal never exceed that proposal's total power.", "quantifier": "every history and every voting module satisfying the sum condition", "why_tests_cant": "needs the joint invariant between all ballots and one snapshot", "anchors": ["contracts/proposal/dao-proposal-single/src/contract.rs:execute_vote", "contracts/proposal/dao-proposal-single/src/contract.rs:execute_propose"]}
{"id": "C09", "title": "Status lifecycle of a single choice proposal", "statement": "Recorded statuses only move along Open -> {Passed, Rejected, VetoTimelock}, VetoTimelock -> {Passed(reported), Executed, Vetoed}, Passed -> Executed, Rejected -> Closed, Executed -> ExecutionFailed; Closed, Vetoed and ExecutionFailed never change again, and Executed only changes to ExecutionFailed within its own execution.", "quantifier": "every history of messages including replies", "why_tests_cant": "all interleavings of votes, expiry, veto, execute, close and failed executions", "anchors": ["contracts/proposal/dao-proposal-single/src/contract.rs:execute_execute", "contracts/proposal/dao-proposal-single/src/contract.rs:execute_close", "contracts/proposal/dao-proposal-single/src/contract.rs:execute_veto", "contracts/proposal/dao-proposal-single/src/contract.rs:reply", "contracts/proposal/dao-proposal-single/src/proposal.rs:SingleChoiceProposal::current_status"]}
{"id": "C10", "title": "A proposal's messages are handed to the DAO at most once, only after it passed, unaltered", "statement": "Over any history the DAO is asked to execute a given proposal's messages at most once, exactly the messages it was proposed with, and only when its tally met its own threshold (exactly, for percentages of up to nine decimals; for finer percentages up to less than a billionth of a vote, which is the precision of the contract's arithmetic).", "quantifier": "every history of messages including replies", "why_tests_cant": "a safety property of all histories", "anchors": ["contracts/proposal/dao-proposal-single/src/contract.rs:execute_execute", "contracts/proposal/dao-proposal-single/src/contract.rs:execute_propose"]}
{"id": "C11", "title": "Veto and timelock are respected", "statement": "A proposal with a veto configuration is executed only after its timelock (expiration of voting plus the timelock duration) ended, or earlier by the vetoer when early execution is enabled. Only the vetoer can veto; before passing only if so configured; never after the timelock; a vetoed proposal is never executed.", "quantifier": "every history, every veto configuration, every block", "why_tests_cant": "depends on the order and time of independent parties' messages", "anchors": ["contracts/proposal/dao-proposal-single/src/contract.rs:execute_veto", "contracts/proposal/dao-proposal-single/src/contract.rs:execute_execute", "contracts/proposal/dao-proposal-single/src/proposal.rs:SingleChoiceProposal::current_status"]}
{"id": "C12", "title": "No early outcome with revoting or within the minimum voting period", "statement": "With revoting enabled no proposal passes or is rejected before it expires; with a minimum voting period no proposal passes before that period is over.", "quantifier": "every tally, block and history", "why_tests_cant": "quantifies over all tallies and times", "anchors": ["contracts/proposal/dao-proposal-single/src/proposal.rs:SingleChoiceProposal::is_passed", "contracts/proposal/dao-proposal-single/src/proposal.rs:SingleChoiceProposal::is_rejected"]}
{"id": "C13", "title": "Proposal ids are consecutive, unique and never reused", "statement": "The n-th proposal created gets id n; existing proposals keep their id and are never removed; queries for larger ids fail.", "quantifier": "every history", "why_tests_cant": "invariant over unbounded histories", "anchors": ["contracts/proposal/dao-proposal-single/src/state.rs:advance_proposal_id", "contracts/proposal/dao-proposal-single/src/contract.rs:execute_propose"]}
{"id": "C14", "title": "Rules of a running proposal do not change", "statement": "Title, messages, threshold, expiration, minimum voting period, total power, start height, revoting flag and veto configuration of a created proposal never change, whatever configuration changes follow.", "quantifier": "every history including configuration updates, votes, executions and replies", "why_tests_cant": "all interleavings of config updates with a running proposal", "anchors": ["contracts/proposal/dao-proposal-single/src/contract.rs:execute_update_config", "contracts/proposal/dao-proposal-single/src/contract.rs:execute_vote"]}
{"id": "C15", "title": "Only the DAO changes a proposal module's configuration, policy and hooks", "statement": "Any message from an address other than the DAO leaves configuration, creation policy and hook lists unchanged, except for the documented fail-open of a failing pre-propose module or failing hook.", "quantifier": "every history, every sender", "why_tests_cant": "quantifies over all senders and messages", "anchors": ["contracts/proposal/dao-proposal-single/src/contract.rs:execute_update_config", "contracts/proposal/dao-proposal-single/src/contract.rs:execute_update_proposal_creation_policy", "contracts/proposal/dao-proposal-single/src/contract.rs:add_proposal_hook", "contracts/proposal/dao-proposal-single/src/contract.rs:reply"]}
{"id": "C16", "title": "Reply ids decode to what was encoded", "statement": "Every tagged reply id decodes to the same kind and number that was encoded, so a failed execution or hook is attributed to the right proposal or hook, for all ids below 2^61.", "quantifier": "all tags and all 64-bit ids", "why_tests_cant": "2^64 ids times five tags; wrap-around at 2^61", "anchors": ["packages/dao-voting/src/reply.rs:mask_proposal_execution_proposal_id", "packages/dao-voting/src/reply.rs:TaggedReplyId::new"]}
{"id": "C17", "title": "A failing hook is removed and never blocks or evicts others", "statement": "When hook receivers fail during a proposal or vote message, exactly the failing receivers are removed from the list and the message succeeds.", "quantifier": "every list of hooks and every set of failing receivers", "why_tests_cant": "depends on which subset fails in one transaction; unit tests fail one hook at a time", "anchors": ["packages/cw-hooks/src/lib.rs:Hooks::remove_hook_by_index", "packages/dao-hooks/src/proposal.rs", "packages/dao-hooks/src/vote.rs", "contracts/proposal/dao-proposal-single/src/contract.rs:reply"]}
{"id": "C18", "title": "The tally is the sum of the recorded ballots (multiple choice)", "statement": "In every reachable state each option's weight equals the summed power of the ballots for it, ballots name existing options, and there is one weight per option including 'none of the above'.", "quantifier": "every history", "why_tests_cant": "unbounded histories with revotes", "anchors": ["contracts/proposal/dao-proposal-multiple/src/contract.rs:execute_vote", "packages/dao-voting/src/multiple_choice.rs:MultipleChoiceVotes"]}
{"id": "C19", "title": "Multiple choice: the winner is the strict plurality and an early win is final", "statement": "A multiple choice proposal passes only if quorum is met and one option other than 'none of the above' has strictly more weight than each other option; if it passes before expiry no way of casting the remaining power changes the winner or undoes the pass.", "quantifier": "every tally, every number of options, every continuation of ballots", "why_tests_cant": "all continuations of ballots", "anchors": ["contracts/proposal/dao-proposal-multiple/src/proposal.rs:MultipleChoiceProposal::is_passed", "contracts/proposal/dao-proposal-multiple/src/proposal.rs:MultipleChoiceProposal::calculate_vote_result", "contracts/proposal/dao-proposal-multiple/src/proposal.rs:MultipleChoiceProposal::is_choice_unbeatable"]}
{"id": "C20", "title": "Multiple choice: rejection is final and exclusive with passing", "statement": "A multiple choice proposal is never passed and rejected at once, and if it is rejected before expiry no way of casting the remaining power makes it pass.", "quantifier": "every tally, number of options and continuation", "why_tests_cant": "all continuations of ballots", "anchors": ["contracts/proposal/dao-proposal-multiple/src/proposal.rs:MultipleChoiceProposal::is_rejected"]}
{"id": "C21", "title": "Multiple choice: lifecycle, single execution, winner's messages", "statement": "Statuses follow the same lifecycle as single choice proposals; a proposal is executed at most once and the messages executed are those of the winning option.", "quantifier": "every history", "why_tests_cant": "all interleavings, votes may arrive after the pass", "anchors": ["contracts/proposal/dao-proposal-multiple/src/contract.rs:execute_execute", "contracts/proposal/dao-proposal-multiple/src/contract.rs:execute_vote", "contracts/proposal/dao-proposal-multiple/src/contract.rs:execute_close", "contracts/proposal/dao-proposal-multiple/src/contract.rs:execute_veto"]}
{"id": "C22", "title": "Condorcet matrix holds the pairwise margins", "statement": "After any sequence of votes, the margin between any two candidates read from the tally equals the power of the voters who ranked the first above the second minus the power of those who ranked it below.", "quantifier": "every number of candidates, every sequence of valid ballots, every pair", "why_tests_cant": "triangular index arithmetic and sign handling for all sizes and sequences", "anchors": ["contracts/proposal/dao-proposal-condorcet/src/m.rs:M", "contracts/proposal/dao-proposal-condorcet/src/tally.rs:Tally::add_vote"]}
{"id": "C23", "title": "Condorcet: reported winner beats every other candidate; undisputed is final", "statement": "A reported winner beats each other candidate pairwise, there is at most one such candidate, the tally reports a winner whenever one exists, and an undisputed winner stays the undisputed winner however the outstanding power votes.", "quantifier": "every tally reachable by votes, every continuation", "why_tests_cant": "all continuations of ballots", "anchors": ["contracts/proposal/dao-proposal-condorcet/src/m.rs:M::stats", "contracts/proposal/dao-proposal-condorcet/src/tally.rs:Tally::winner"]}
{"id": "C24", "title": "Condorcet: 'never' is final", "statement": "When the tally reports that no winner is possible, no way of casting the outstanding power produces a winner.", "quantifier": "every tally and continuation", "why_tests_cant": "all continuations of ballots", "anchors": ["contracts/proposal/dao-proposal-condorcet/src/m.rs:M::stats", "contracts/proposal/dao-proposal-condorcet/src/tally.rs:Tally::winner"]}
{"id": "C25", "title": "Condorcet: one vote per voter, lifecycle", "statement": "A voter votes at most once per proposal, the outstanding power is the total minus the power that voted, closed and executed proposals are final, and a proposal is executed at most once and only with a winner.", "quantifier": "every history", "why_tests_cant": "unbounded histories", "anchors": ["contracts/proposal/dao-proposal-condorcet/src/contract.rs:execute_vote", "contracts/proposal/dao-proposal-condorcet/src/contract.rs:execute_execute", "contracts/proposal/dao-proposal-condorcet/src/contract.rs:execute_close", "contracts/proposal/dao-proposal-condorcet/src/proposal.rs:Proposal"]}
{"id": "C26", "title": "cw20-stake: total staked is the sum of the staked balances", "statement": "In every reachable state the reported total staked equals the sum of all stakers' balances.", "quantifier": "every history of stake, unstake, claim, fund and config messages", "why_tests_cant": "invariant over unbounded histories", "anchors": ["contracts/staking/cw20-stake/src/contract.rs:execute_stake", "contracts/staking/cw20-stake/src/contract.rs:execute_unstake", "contracts/staking/cw20-stake/src/state.rs"]}
{"id": "C27", "title": "cw20-stake: the contract can always pay what it owes", "statement": "The contract's token balance is always at least the reported total value plus all outstanding claims; a transfer the contract issues is always covered.", "quantifier": "every history", "why_tests_cant": "invariant over unbounded histories with rewards and claims", "anchors": ["contracts/staking/cw20-stake/src/contract.rs:execute_unstake", "contracts/staking/cw20-stake/src/contract.rs:execute_fund", "contracts/staking/cw20-stake/src/contract.rs:execute_claim"]}
{"id": "C28", "title": "cw20-stake: nobody gains from staking and unstaking, nobody loses by others' actions", "statement": "While somebody else is staked, no sequence of a user's own calls raises what they own (tokens, claims and pool share together), so staking and unstaking never returns more than was put in; nobody's holdings fall through calls of others; and the value of a share never falls through any stake, unstake or funding, as long as somebody stays staked. When nobody is staked, the first staker receives whatever was funded into the empty pool.", "quantifier": "every state and amount, every history", "why_tests_cant": "rounding effects over all amounts and orders", "anchors": ["contracts/staking/cw20-stake/src/math.rs:amount_to_stake", "contracts/staking/cw20-stake/src/math.rs:amount_to_claim"]}
{"id": "C29", "title": "cw20-stake: claims are paid once, in full, not before maturity", "statement": "An unstaked amount is released to its owner only once, only after the unstaking duration in force when it was unstaked, and never lost.", "quantifier": "every history, every duration", "why_tests_cant": "time and order of many claims", "anchors": ["contracts/staking/cw20-stake/src/contract.rs:execute_unstake", "contracts/staking/cw20-stake/src/contract.rs:execute_claim"]}
{"id": "C30", "title": "Voting power at a past height never changes", "statement": "The voting power of an address and the total power reported for a height are the values at the beginning of that block and do not change by any operation at that height or later.", "quantifier": "every history of operations at non-decreasing heights, every height, every address", "why_tests_cant": "all histories and all heights", "anchors": ["contracts/voting/dao-voting-token-staked/src/contract.rs:query_voting_power_at_height", "contracts/voting/dao-voting-token-staked/src/state.rs:STAKED_BALANCES", "contracts/staking/cw20-stake/src/state.rs:STAKED_BALANCES", "contracts/voting/dao-voting-cw721-staked/src/state.rs:NFT_BALANCES"]}
{"id": "C31", "title": "dao-voting-token-staked: total power is the sum of members' power at every height; stake is conserved", "statement": "At every height the total power equals the sum of the powers of all addresses; tokens held by the contract equal staked plus claims plus donations; nobody can withdraw more than they staked.", "quantifier": "every history, every height", "why_tests_cant": "invariant over unbounded histories and heights", "anchors": ["contracts/voting/dao-voting-token-staked/src/contract.rs:execute_stake", "contracts/voting/dao-voting-token-staked/src/contract.rs:execute_unstake", "contracts/voting/dao-voting-token-staked/src/contract.rs:execute_claim"]}
{"id": "C32", "title": "Active threshold decides the fraction of supply it documents", "statement": "With a percentage active threshold p the DAO is active iff the staked amount is at least p times the supply, rounded up to a whole token up to the documented 1e-9 precision; never panics.", "quantifier": "all supplies, staked amounts and percentages", "why_tests_cant": "rounding over three large numbers", "anchors": ["contracts/voting/dao-voting-token-staked/src/contract.rs:query_is_active", "contracts/voting/dao-voting-cw20-staked/src/contract.rs:query_is_active", "contracts/voting/dao-voting-cw721-staked/src/contract.rs:query_is_active"]}
{"id": "C33", "title": "NFT staking: power is the number of NFTs staked; an NFT is never counted twice or lost", "statement": "In every reachable state an address's power is the number of NFTs recorded as staked by it, the total is the sum, no NFT is both staked and waiting to be claimed, and each NFT the contract took is returned only to the one who staked it.", "quantifier": "every history of stake, unstake, claim messages, with a non-malicious NFT contract", "why_tests_cant": "invariant over unbounded histories", "anchors": ["contracts/voting/dao-voting-cw721-staked/src/state.rs:register_staked_nft", "contracts/voting/dao-voting-cw721-staked/src/state.rs:register_unstaked_nfts", "contracts/voting/dao-voting-cw721-staked/src/contract.rs:execute_unstake", "packages/cw721-controllers/src/nft_claim.rs"]}
{"id": "C34", "title": "External rewards: claims never exceed the funding", "statement": "While the rewards contract stays registered with the staking contract, the sum of all rewards ever claimed and claimable never exceeds the amount funded. If it is not registered, somebody who stakes meanwhile can claim more than was ever funded.", "quantifier": "every history of staking changes announced to the contract, fundings and claims", "why_tests_cant": "rounding and time over unbounded histories", "anchors": ["contracts/staking/cw20-stake-external-rewards/src/contract.rs:get_reward_per_token", "contracts/staking/cw20-stake-external-rewards/src/contract.rs:update_rewards", "contracts/staking/cw20-stake-external-rewards/src/contract.rs:execute_fund_native", "contracts/staking/cw20-stake-external-rewards/src/contract.rs:execute_claim"]}
{"id": "C35", "title": "Reward distributor: pays at most the configured rate and never twice for a block", "statement": "The amount distributed between two blocks is at most the configured rate times the blocks elapsed and at most the contract's balance; pending rewards are not lost by a configuration update.", "quantifier": "every history of distribute and configuration messages", "why_tests_cant": "all schedules of calls", "anchors": ["contracts/staking/cw20-stake-reward-distributor/src/contract.rs:get_distribution_msg", "contracts/staking/cw20-stake-reward-distributor/src/contract.rs:execute_update_config"]}
{"id": "C36", "title": "Wormhole: a value loaded at t is the result of all updates scheduled at or before t", "statement": "Reading a key at time t returns the fold, in order of application, of all updates whose time is at most t, whatever order the updates were made in.", "quantifier": "every sequence of updates at arbitrary times and every read time", "why_tests_cant": "arbitrary out-of-order update sequences", "anchors": ["packages/cw-wormhole/src/lib.rs:Wormhole::load", "packages/cw-wormhole/src/lib.rs:Wormhole::update"]}
{"id": "C37", "title": "Stake tracker reports the staked amounts and number of validators at every time", "statement": "At every time the tracker's total equals the sum over validators of the amounts delegated or still unbonding, and the validator count is the number of validators with a nonzero amount.", "quantifier": "every sequence of delegate, undelegate, redelegate and slash registrations with non-decreasing times", "why_tests_cant": "depends on overlapping unbonding periods", "anchors": ["packages/cw-stake-tracker/src/lib.rs:StakeTracker"]}
{"id": "C38", "title": "Vesting: the vested amount rises from 0 to the total", "statement": "The vested amount never decreases over time, is 0 before the start and the total from the end on.", "quantifier": "every schedule accepted at creation, every pair of times", "why_tests_cant": "all schedules and times", "anchors": ["contracts/external/cw-vesting/src/vesting.rs:Schedule::into_curve", "contracts/external/cw-vesting/src/vesting.rs:Vest::vested"]}
{"id": "C39", "title": "Vesting: the recipient never gets more than has vested; all payments together never exceed the total", "statement": "At every point of every history the amount paid to the recipient is at most the amount vested, and the sum paid to recipient and owner plus slashes is at most the total.", "quantifier": "every history of fund, distribute, cancel, withdraw, delegate, undelegate and slash operations", "why_tests_cant": "unbounded histories with staking and slashing", "anchors": ["contracts/external/cw-vesting/src/vesting.rs:Payment::distribute", "contracts/external/cw-vesting/src/vesting.rs:Payment::cancel", "contracts/external/cw-vesting/src/vesting.rs:Payment::withdraw_canceled", "contracts/external/cw-vesting/src/vesting.rs:Payment::register_slash"]}
{"id": "C40", "title": "Vesting: cancellation splits the total exactly", "statement": "On cancellation the vested part remains due to the recipient and the rest to the owner: what both receive and can still receive adds up to the total less slashes; no further vesting happens.", "quantifier": "every state and time of cancellation", "why_tests_cant": "all combinations of staked, slashed and claimed amounts", "anchors": ["contracts/external/cw-vesting/src/vesting.rs:Payment::cancel"]}
{"id": "C41", "title": "Vesting: a slash never makes the contract panic or owe more than it has", "statement": "Registered slashes reduce what can be paid by exactly the slashed amount, and the liquid amount never underflows.", "quantifier": "every history", "why_tests_cant": "combinations of slashes before and after cancellation", "anchors": ["contracts/external/cw-vesting/src/vesting.rs:Payment::register_slash", "contracts/external/cw-vesting/src/vesting.rs:Payment::liquid"]}
{"id": "C42", "title": "Token swap is atomic", "statement": "Either both parties paid exactly their promise and each received the other's, or whoever paid can withdraw exactly what they paid; nobody else receives anything and nothing is paid twice.", "quantifier": "every history of fund and withdraw messages by any senders", "why_tests_cant": "all interleavings by two adverse parties", "anchors": ["contracts/external/cw-token-swap/src/contract.rs", "contracts/external/cw-token-swap/src/state.rs"]}
{"id": "C43", "title": "Fund distributor: each member receives exactly its pro-rata share, in whatever order and portions it claims", "statement": "After the funding period, the total a member can ever claim of a token is floor(funds * floor-share), independent of how claims are split or ordered, and a second claim pays nothing more.", "quantifier": "every history of claims", "why_tests_cant": "all claim orders and token lists", "anchors": ["contracts/distribution/cw-fund-distributor/src/contract.rs:execute_claim_cw20s", "contracts/distribution/cw-fund-distributor/src/contract.rs:execute_claim_natives", "contracts/distribution/cw-fund-distributor/src/contract.rs:get_entitlement"]}
{"id": "C44", "title": "Fund distributor never pays out more than was funded", "statement": "The sum of all claims never exceeds the funded amount.", "quantifier": "every history and every voting module with powers summing to the recorded total", "why_tests_cant": "sum over all members with rounding; the total and the members' power are read at different heights", "anchors": ["contracts/distribution/cw-fund-distributor/src/contract.rs:instantiate", "contracts/distribution/cw-fund-distributor/src/contract.rs:get_relative_share", "contracts/distribution/cw-fund-distributor/src/contract.rs:execute_redistribute_unclaimed_funds"]}
{"id": "C45", "title": "Rewards distributor: rewards owed and paid never exceed the funding", "statement": "For every distribution the sum of rewards claimed, claimable and clawed back never exceeds the amount funded.", "quantifier": "every history of fundings, power changes, emission changes, claims and withdrawals", "why_tests_cant": "epochs, rounding and power changes over unbounded histories", "anchors": ["contracts/distribution/dao-rewards-distributor/src/rewards.rs", "contracts/distribution/dao-rewards-distributor/src/contract.rs:execute_withdraw", "contracts/distribution/dao-rewards-distributor/src/contract.rs:execute_fund"]}
{"id": "C46", "title": "Rewards distributor: a member accrues in proportion to its power while it holds it", "statement": "Rewards accrued by a member over an interval without changes are its share of power times the emission over that interval; later power changes do not affect rewards already accrued; how often rewards are updated does not matter.", "quantifier": "every history and every update schedule", "why_tests_cant": "all schedules of updates", "anchors": ["contracts/distribution/dao-rewards-distributor/src/rewards.rs:get_active_total_earned_puvp", "contracts/distribution/dao-rewards-distributor/src/rewards.rs:update_rewards"]}
{"id": "C47", "title": "The DAO only acts on behalf of an enabled proposal module or its admin", "statement": "The core contract sends a message only when asked by an enabled proposal module, by the admin, or, in its instantiation callback, by a module the DAO itself has just had created, and sends each exactly once; every privileged setting changes only by a message from the DAO itself (except that the admin may end a pause and that received tokens may be listed automatically); while paused nobody but the admin and the DAO itself is heard.", "quantifier": "every history, every sender", "why_tests_cant": "all senders and histories, modules being enabled and disabled in between", "anchors": ["contracts/dao-dao-core/src/contract.rs:execute", "contracts/dao-dao-core/src/contract.rs:execute_proposal_hook", "contracts/dao-dao-core/src/contract.rs:execute_admin_msgs", "contracts/dao-dao-core/src/contract.rs:execute_pause"]}
{"id": "C48", "title": "The DAO always keeps at least one enabled proposal module, and counts are right", "statement": "In every reachable state after setup the active module count equals the number of enabled modules, is at least one, and the total count equals the number of modules ever added.", "quantifier": "every history of module updates", "why_tests_cant": "updates with duplicates, unknown and already disabled modules", "anchors": ["contracts/dao-dao-core/src/contract.rs:execute_update_proposal_modules", "contracts/dao-dao-core/src/contract.rs:reply"]}
{"id": "C49", "title": "Proposal module prefixes are unique", "statement": "Distinct module indices give distinct prefixes, so no two modules share one.", "quantifier": "all pairs of module indices", "why_tests_cant": "infinitely many indices", "anchors": ["contracts/dao-dao-core/src/contract.rs:derive_proposal_module_prefix"]}
{"id": "C50", "title": "Admin transfer needs nomination by the admin and acceptance by the nominee", "statement": "The admin changes only when the address last nominated by the then admin accepts, or when the admin gives up the role to the DAO; a pending nomination can be replaced only after withdrawal.", "quantifier": "every history, every sender", "why_tests_cant": "all interleavings of nomination messages", "anchors": ["contracts/dao-dao-core/src/contract.rs:execute_nominate_admin", "contracts/dao-dao-core/src/contract.rs:execute_accept_admin_nomination", "contracts/dao-dao-core/src/contract.rs:execute_withdraw_admin_nomination"]}
{"id": "C51", "title": "DAO items, token lists and SubDAOs behave like maps and sets", "statement": "Getting an item returns the last value set and not removed; a token list contains exactly the addresses added and not removed since; likewise SubDAOs.", "quantifier": "every sequence of updates", "why_tests_cant": "unbounded sequences with duplicates inside one message", "anchors": ["contracts/dao-dao-core/src/contract.rs:execute_set_item", "contracts/dao-dao-core/src/contract.rs:execute_update_cw20_list", "contracts/dao-dao-core/src/contract.rs:execute_update_sub_daos_list"]}
{"id": "C52", "title": "A proposal deposit goes back exactly once to the right party", "statement": "For each proposal made with a deposit, exactly the deposited amount is paid at most once, when the proposal is executed, closed or vetoed: to the proposer if refunds are always given or (if only passed) the proposal executed, else to the DAO, under the deposit rules in force when it was made.", "quantifier": "every history of the proposal module and its pre-propose module", "why_tests_cant": "crosses two contracts and any configuration changes in between", "anchors": ["packages/dao-pre-propose-base/src/execute.rs:execute_proposal_completed_hook", "packages/dao-pre-propose-base/src/execute.rs:execute_propose", "packages/dao-voting/src/deposit.rs"]}
{"id": "C53", "title": "Submission policy decides who may propose", "statement": "An address may submit iff the policy allows it: denylisted addresses never; otherwise anyone, or allowlisted addresses, or members with power, as configured; list updates keep the lists disjoint and someone allowed.", "quantifier": "every policy, address and update sequence", "why_tests_cant": "all combinations of list updates", "anchors": ["packages/dao-pre-propose-base/src/execute.rs:check_can_submit", "packages/dao-pre-propose-base/src/execute.rs:execute_update_submission_policy", "packages/dao-voting/src/pre_propose.rs:PreProposeSubmissionPolicy"]}
{"id": "C54", "title": "Approval flow: a submission is decided once, by the approver only", "statement": "A pending submission is approved or rejected at most once and only by the current approver; it becomes a proposal iff approved; its deposit follows the proposal or is returned on rejection according to the refund policy.", "quantifier": "every history", "why_tests_cant": "all interleavings of submissions and decisions", "anchors": ["contracts/pre-propose/dao-pre-propose-approval-single/src/contract.rs:execute_propose", "contracts/pre-propose/dao-pre-propose-approval-single/src/contract.rs:execute_approve", "contracts/pre-propose/dao-pre-propose-approval-single/src/contract.rs:execute_reject"]}
{"id": "C55", "title": "Approver DAO: the outcome of the mirror proposal decides the submission", "statement": "When the approving DAO's mirror proposal completes, the submission is approved if it was executed and rejected if it did not pass, and never left undecided.", "quantifier": "every history of the approving DAO's proposals, including vetoes", "why_tests_cant": "rare completion statuses", "anchors": ["contracts/pre-propose/dao-pre-propose-approver/src/contract.rs:execute_proposal_completed"]}
{"id": "C56", "title": "Issuer: nobody mints or burns beyond the allowance the owner gave", "statement": "The total minted (burned) by an address since its allowance was last set never exceeds that allowance; only the owner sets allowances.", "quantifier": "every history, every address", "why_tests_cant": "unbounded histories with allowance changes", "anchors": ["contracts/external/cw-tokenfactory-issuer/src/execute.rs:mint", "contracts/external/cw-tokenfactory-issuer/src/execute.rs:burn", "contracts/external/cw-tokenfactory-issuer/src/execute.rs:set_minter"]}
{"id": "C57", "title": "Issuer: frozen and denylisted transfers are blocked", "statement": "While frozen, a transfer passes the hook only if the sender or receiver is allowlisted; a denylisted sender or receiver is always blocked; the issuer itself can never be denylisted.", "quantifier": "every history, every transfer", "why_tests_cant": "all states and pairs", "anchors": ["contracts/external/cw-tokenfactory-issuer/src/hooks.rs:beforesend_hook", "contracts/external/cw-tokenfactory-issuer/src/helpers.rs:check_is_not_frozen", "contracts/external/cw-tokenfactory-issuer/src/execute.rs:deny", "contracts/external/cw-tokenfactory-issuer/src/execute.rs:freeze"]}
{"id": "C58", "title": "Role NFTs: total weight is the sum of member weights; a member's weight is the sum of its tokens' weights", "statement": "In every reachable state the total weight is the sum of member weights, and each member's weight is the sum of the weights of the tokens it owns.", "quantifier": "every history of mint, burn, transfer, send and weight updates", "why_tests_cant": "unbounded histories", "anchors": ["contracts/external/cw721-roles/src/contract.rs:execute_mint", "contracts/external/cw721-roles/src/contract.rs:execute_burn", "contracts/external/cw721-roles/src/contract.rs:execute_transfer", "contracts/external/cw721-roles/src/contract.rs:execute_update_token_weight"]}
{"id": "C59", "title": "Pagination visits every entry exactly once", "statement": "Following pages by passing the last key of each page as start_after visits every entry exactly once and in order, for every page size, ascending or descending.", "quantifier": "every map, every positive page size", "why_tests_cant": "all maps and page sizes", "anchors": ["packages/cw-paginate-storage/src/lib.rs"]}
{"id": "C60", "title": "Hook lists behave like ordered sets", "statement": "A hook list never contains duplicates; adding appends; removing removes exactly the named one; each event notifies each registered hook exactly once, in order.", "quantifier": "every sequence of additions and removals", "why_tests_cant": "unbounded sequences", "anchors": ["packages/cw-hooks/src/lib.rs:Hooks"]}
{"id": "C61", "title": "Nobody is locked out of a single choice proposal", "statement": "In every reachable state (with a voting module whose powers are stable and sum to at most the total): the status query always answers; once voting is over the proposal is decided; a member's first vote (or changed vote when revoting is on) before expiry is accepted; a passed proposal can be executed by anyone (only by members when so configured) and a rejected one can be closed by anyone.", "quantifier": "every reachable state, block, member and vote", "why_tests_cant": "absence of a reachable stuck state cannot be sampled", "anchors": ["contracts/proposal/dao-proposal-single/src/contract.rs:execute_vote", "contracts/proposal/dao-proposal-single/src/contract.rs:execute_execute", "contracts/proposal/dao-proposal-single/src/contract.rs:execute_close", "contracts/proposal/dao-proposal-single/src/proposal.rs:SingleChoiceProposal::current_status"]}
{"id": "C62", "title": "Hooks are told the status the proposal really has", "statement": "Whenever a call on a proposal notifies hooks or the pre-propose module about that proposal's status, the announced status is the one recorded when the transaction ends.", "quantifier": "every call, every state, succeeding and failing executions", "why_tests_cant": "quantifies over all calls and hook lists; the failing case needs the asynchronous reply", "anchors": ["contracts/proposal/dao-proposal-single/src/contract.rs:execute_execute", "contracts/proposal/dao-proposal-single/src/contract.rs:reply", "packages/dao-proposal-hooks/src/proposal.rs"]}
{"id": "C63", "title": "External rewards: every staker gets its pro-rata share", "statement": "What an address has received plus what it can claim equals its share of the rewards of all blocks so far, in proportion to the stakes at the beginning of each block, up to a rounding loss of at most two token units per transaction; in a given block only its own claim changes what it can claim.", "quantifier": "every history of staking changes, fundings and claims, every address", "why_tests_cant": "sums over unbounded histories of changing stakes and totals", "anchors": ["contracts/staking/cw20-stake-external-rewards/src/contract.rs:get_reward_per_token", "contracts/staking/cw20-stake-external-rewards/src/contract.rs:get_rewards_earned", "contracts/staking/cw20-stake-external-rewards/src/contract.rs:update_rewards"]}
{"id": "C64", "title": "Vesting: who can cancel, slash, stake and be paid", "statement": "Only the owner cancels a vesting payment or registers a slash; only the recipient stakes, moves and (before cancellation) unstakes; payments go to the recipient and to the owner only, to the owner only on or after cancellation; while the owner of a canceled payment is owed anything there is an owner.", "quantifier": "every history, every sender", "why_tests_cant": "The owner can change hands or be renounced at any point of a history; tests fix one sequence of transfers and cancellations.", "anchors": ["contracts/external/cw-vesting/src/contract.rs:execute", "contracts/external/cw-vesting/src/vesting.rs:Payment"]}
{"id": "C65", "title": "Vesting: the vested amount can always be computed", "statement": "For every accepted schedule the vested amount exists at every time, so that queries, distributions and cancellations do not fail because of the size of the numbers.", "quantifier": "every accepted schedule, every time", "why_tests_cant": "The product formed when interpolating overflows only for large totals and long durations.", "anchors": ["contracts/external/cw-vesting/src/vesting.rs:Vest::vested", "contracts/external/cw-vesting/src/vesting.rs:Schedule::into_curve"]}
{"id": "C66", "title": "Rewards distributor: only the owner sets distributions up, payments go to claimers and to the owner's chosen account", "statement": "The settings of a distribution (token, rate, voting contract, hook caller, open funding, withdraw destination) change only in messages of the owner, to what the message says; a distribution closed to funding is funded by the owner only; the contract pays only members who claim, in the distribution's token, and the withdraw destination when the owner withdraws.", "quantifier": "every history, every event", "why_tests_cant": "all callers and interleavings", "anchors": ["contracts/distribution/dao-rewards-distributor/src/contract.rs:execute_update", "contracts/distribution/dao-rewards-distributor/src/contract.rs:execute_fund", "contracts/distribution/dao-rewards-distributor/src/contract.rs:execute_withdraw", "contracts/distribution/dao-rewards-distributor/src/contract.rs:execute_claim"]}
{"id": "C67", "title": "Role NFTs: only the owner acts, and ownership can be handed over, in particular to the DAO", "statement": "Every successful message to a role contract comes from its current owner. An owner can name a successor, which becomes the owner by accepting; in particular a DAO whose voting module creates a role contract can take it over and then mint, burn and reweigh roles.", "quantifier": "every role contract and every history of messages by anybody; every instantiation of the voting module with a new role contract", "why_tests_cant": "a statement about all continuations of all histories", "anchors": ["contracts/external/cw721-roles/src/contract.rs:execute", "contracts/voting/dao-voting-cw721-roles/src/contract.rs:reply", "contracts/voting/dao-voting-cw721-roles/src/contract.rs:execute"]}
{"id": "C68", "title": "Role NFTs: listeners are told every change of a member's weight", "statement": "When a message changes the weight of a member, every registered listener gets one message that names the member with its weight before and after; messages that change no weight announce nothing, and no message changes the weight of a member other than the one announced.", "quantifier": "every history, every step, every set of listeners", "why_tests_cant": "unbounded histories and listener lists", "anchors": ["contracts/external/cw721-roles/src/contract.rs:execute_mint", "contracts/external/cw721-roles/src/contract.rs:execute_burn", "contracts/external/cw721-roles/src/contract.rs:execute_update_token_weight"]}
{"id": "C69", "title": "Role NFTs: the owner can always grant, revoke and reweigh roles", "statement": "As long as the total fits in 64 bits the owner can mint a token with a fresh id for anybody and raise weights; it can burn every token and lower the weight of every token.", "quantifier": "every reachable state, every token", "why_tests_cant": "liveness in every reachable state", "anchors": ["contracts/external/cw721-roles/src/contract.rs:execute_mint", "contracts/external/cw721-roles/src/contract.rs:execute_burn", "contracts/external/cw721-roles/src/contract.rs:execute_update_token_weight"]}
{"id": "C70", "title": "Power asked without a height is the power at the height it is reported for", "statement": "VotingPowerAtHeight and TotalPowerAtHeight may be asked without a height; the answer names a height. The power in the answer is the power the same module reports for that height, so that an answer given in the middle of a block does not depend on what was called before in the same block.", "quantifier": "every voting module (token, cw20, cw721, cw4, role NFT), every history of calls, every address, and every block in which the question is asked", "why_tests_cant": "A test asks once in a block in which nothing or one fixed thing happened; the property is about every order of calls within a block.", "anchors": ["contracts/voting/dao-voting-token-staked/src/contract.rs:query_voting_power_at_height", "contracts/voting/dao-voting-cw721-staked/src/contract.rs:query_voting_power_at_height", "contracts/voting/dao-voting-cw20-staked/src/contract.rs:query_voting_power_at_height", "contracts/voting/dao-voting-cw4/src/contract.rs:query_voting_power_at_height", "contracts/voting/dao-voting-cw721-roles/src/contract.rs:query_voting_power_at_height"]}
{"id": "C71", "title": "cw4 voting: powers are the group's weights, and only its admin changes them", "statement": "With a new group, instantiation succeeds exactly if members are listed, no address twice, with a total weight above zero that fits 64 bits; then every member has exactly the listed power and the DAO is the group's admin. At every height the total power is the sum of all powers. Only the group's admin changes anything, an update does exactly what it lists, the admin can always update, and a group without admin never changes again.", "quantifier": "every member list, every history of group calls by anybody, every height and address; new and existing groups", "why_tests_cant": "Tests use a few member lists and updates; sums at every height over every history, and the absence of any other way to change weights, cannot be enumerated.", "anchors": ["contracts/voting/dao-voting-cw4/src/contract.rs:instantiate", "contracts/voting/dao-voting-cw4/src/contract.rs:execute", "contracts/voting/dao-voting-cw4/src/contract.rs:query_voting_power_at_height", "contracts/voting/dao-voting-cw4/src/contract.rs:query_total_power_at_height"]}
{"id": "C72", "title": "cw20-staked voting: powers are the staked amounts, thresholds stay sensible", "statement": "However the module is created (over a staking contract, over a token, with a new token), the staking contract stakes the token the module names and stays so; a new token is held as listed. At every height the total power is the sum of the powers, which are the staked amounts. Only the DAO changes the active threshold, exactly if it is a percentage above 0 and up to 100 or a count of at least one and at most the supply, and the DAO is active exactly if the threshold is met.", "quantifier": "every way of creation, every history of token, staking and module calls, every height, address and threshold", "why_tests_cant": "Tests pick a few thresholds and stakes; the claim is about every history and every rounding of shares and percentages.", "anchors": ["contracts/voting/dao-voting-cw20-staked/src/contract.rs:instantiate", "contracts/voting/dao-voting-cw20-staked/src/contract.rs:execute_update_active_threshold", "contracts/voting/dao-voting-cw20-staked/src/contract.rs:query_is_active", "contracts/staking/cw20-stake/src/contract.rs:query_staked_balance_at_height"]}
{"id": "C73", "title": "With everything staked the DAO is active", "statement": "If the whole supply of the token, or every NFT of the collection, is staked, then the DAO is active from the next block on, for every threshold that is a percentage or a count of at most the supply.", "quantifier": "every reachable state with everything staked, every threshold", "why_tests_cant": "The rounding of percentages and of stake shares depends on all amounts and on the whole history of the pool; an attacker picks them.", "anchors": ["contracts/voting/dao-voting-token-staked/src/contract.rs:query_is_active", "contracts/voting/dao-voting-cw721-staked/src/contract.rs:query_is_active", "contracts/voting/dao-voting-cw20-staked/src/contract.rs:query_is_active", "contracts/staking/cw20-stake/src/contract.rs:execute_fund"]}
{"id": "C74", "title": "x/onft staking: power is the number of NFTs staked, and no NFT is counted twice or lost", "statement": "In dao-voting-onft-staked the total power is at every height the sum of the powers; an address's power is the number of NFTs listed as staked by it; the contract owns every NFT staked or waiting to be claimed, for exactly one address; it is returned only to that address in its own unstake or claim, which always succeed; nobody else's calls change an address's lists or power.", "quantifier": "every history of prepare, confirm, cancel, unstake, claim, configuration calls and of transfers, mints and burns of NFTs by anybody", "why_tests_cant": "invariant over unbounded histories of calls and of transfers outside the contract", "anchors": ["contracts/voting/dao-voting-onft-staked/src/contract.rs:execute_unstake", "contracts/voting/dao-voting-onft-staked/src/contract.rs:execute_claim_nfts", "contracts/voting/dao-voting-onft-staked/src/contract.rs:execute_cancel_stake", "contracts/voting/dao-voting-onft-staked/src/state.rs:register_staked_nfts"]}
{"id": "C75", "title": "x/onft staking: a stake needs preparation by the owner and custody by the contract, and an unconfirmed NFT can be had back", "statement": "Preparing succeeds exactly for NFTs the sender owns and moves nothing. Confirming succeeds only if the sender prepared every named NFT last, with no confirmation or cancellation since, and the contract owns it; it raises the sender's power by the number of different NFTs named. Cancelling returns NFTs the contract owns to the preparer who asks, or, if the DAO asks, to the recipient it names or the preparer; nobody else can cancel. An NFT leaves the contract in no other way than by cancelling, unstaking or claiming; whoever prepared a transferred NFT can always have it back.", "quantifier": "every history of calls by anybody, of transfers, mints and burns", "why_tests_cant": "depends on the order of calls and transfers in unbounded histories", "anchors": ["contracts/voting/dao-voting-onft-staked/src/contract.rs:execute_prepare_stake", "contracts/voting/dao-voting-onft-staked/src/contract.rs:execute_confirm_stake", "contracts/voting/dao-voting-onft-staked/src/contract.rs:execute_cancel_stake"]}
{"id": "C76", "title": "Payroll factory: who may create vesting contracts, and what the registry says of them", "statement": "With an owner, only the owner has cw-payroll-factory create vesting contracts; without one, anybody. Every contract it created is listed once and for ever, with who paid for it as instantiator and the recipient that was asked for, and nothing else is listed; paging through the listings shows each exactly once. Code id and ownership change only by the owner (or an offered owner accepting).", "quantifier": "every history of requests over native coins and cw20 tokens, of direct calls of Receive, ownership and code id calls by anybody", "why_tests_cant": "the registry is an invariant of unbounded histories; the access rule quantifies over every caller of every entry point", "anchors": ["contracts/external/cw-payroll-factory/src/contract.rs:execute", "contracts/external/cw-payroll-factory/src/contract.rs:receive_cw20", "contracts/external/cw-payroll-factory/src/contract.rs:instantiate_contract", "contracts/external/cw-payroll-factory/src/contract.rs:reply", "contracts/external/cw-payroll-factory/src/contract.rs:query"]}
{"id": "C77", "title": "Payroll factory: every vesting contract is funded with exactly what was paid for it", "statement": "A vesting contract created by cw-payroll-factory ends the transaction funded with exactly the total that was asked for, paid in that token by whoever asked for it; the factory keeps no tokens; a request with the right amount and acceptable terms succeeds.", "quantifier": "every history of requests, transfers to the factory and direct calls by anybody, any balances", "why_tests_cant": "conservation of tokens over unbounded histories with arbitrary senders", "anchors": ["contracts/external/cw-payroll-factory/src/contract.rs:receive_cw20", "contracts/external/cw-payroll-factory/src/contract.rs:execute_instantiate_native", "contracts/external/cw-payroll-factory/src/contract.rs:instantiate_contract", "contracts/external/cw-payroll-factory/src/contract.rs:reply", "contracts/external/cw-vesting/src/contract.rs:instantiate"]}
{"id": "C78", "title": "Admin factory: contracts become their own admins, at the address that was expected", "statement": "At the end of every transaction each contract created by cw-admin-factory is its own admin, unless it has itself named another since. With an admin, only they use the factory. A contract asked for with an expected address is created at that address or not at all, whatever the contract does while it is instantiated; no expectation is left for later; coins sent along are passed on.", "quantifier": "every history, including calls of the factory by the contract being instantiated, nested to any depth", "why_tests_cant": "re-entrant schedules of any depth", "anchors": ["contracts/external/cw-admin-factory/src/contract.rs:instantiate_contract", "contracts/external/cw-admin-factory/src/contract.rs:instantiate2_contract", "contracts/external/cw-admin-factory/src/contract.rs:reply"]}
{"id": "C79", "title": "Fan token factory: the DAO gets authority and minter of the new token and everybody exactly their share", "statement": "After a call of btsg-ft-factory the DAO of the caller is authority and minter of the new token, the supply is the sum of the initial balances and of the DAO's balance and at most the largest supply, every address holds exactly what the list and the DAO's balance give it, other tokens are untouched, and the factory keeps no state. Exactly the calls succeed whose caller has a DAO, whose listed amounts are not zero, and which ask for no more than the largest supply.", "quantifier": "every list of balances (with repeated addresses), every amount, every history of the token module", "why_tests_cant": "quantifies over all lists and histories", "anchors": ["contracts/external/btsg-ft-factory/src/contract.rs:execute_issue", "contracts/external/btsg-ft-factory/src/contract.rs:reply"]}
{"id": "C80", "title": "A whole DAO does what its members decide, and nothing else", "statement": "Take a DAO with its core contract, a single choice proposal module and any of the voting modules (staked native tokens, cw20, cw721, onft, cw4 group, cw721 roles), in any interleaving of calls by anybody. Every proposal is executed at most once; when it is executed, the addresses whose last vote was yes, no and abstain, counted with what each held before the block of the proposal, meet the proposal's threshold. If the DAO is its own admin and has no other enabled proposal module, every message the DAO ever sends goes back to such a proposal: it is one of its messages, or sent in turn because such a message told the DAO to. Conversely a proposal the members have decided for can be executed by anybody in any later block, and the DAO then sends exactly its messages in order. (Percentages of up to nine decimals are meant exactly; with more decimals the contracts count a percentage as met when less than a billionth of a vote is missing.)", "quantifier": "every voting module of the six, every interleaving of calls of the three contracts by any senders, every configuration, every reading of message bytes", "why_tests_cant": "the guarantee spans three contracts and the whole history of stakes, votes and changes of configuration; tests fix one wiring and one schedule", "anchors": ["contracts/dao-dao-core/src/contract.rs:execute_proposal_hook", "contracts/dao-dao-core/src/contract.rs:query_voting_power_at_height", "contracts/proposal/dao-proposal-single/src/contract.rs:execute_execute", "contracts/proposal/dao-proposal-single/src/contract.rs:execute_vote", "contracts/voting/dao-voting-token-staked/src/contract.rs:query_voting_power_at_height"]}
{"id": "C81", "title": "A whole DAO with a multiple choice module does what its members decide", "statement": "Take a DAO with its core contract, a multiple choice proposal module and any of the voting modules, in any interleaving of calls by anybody. Every proposal is executed at most once; when it is executed there is an option other than none-of-the-above which more power stands behind than behind each other option, counted by last votes with what each voter held before the block of the proposal, the quorum of all power of that height is met, and voting is over or no option can catch up. If the DAO is its own admin and has no other enabled proposal module, every message the DAO ever sends goes back to the messages of such an option. Conversely an option the members have decided for can be executed by anybody in any later block, and the DAO then sends exactly its messages in order. (Percentages of up to nine decimals are meant exactly; with more decimals the contracts count a percentage as met when less than a billionth of a vote is missing.)", "quantifier": "every voting module of the six, every interleaving of calls of the three contracts by any senders, every configuration, every reading of message bytes", "why_tests_cant": "the guarantee spans three contracts and every history of stakes, votes and changes of membership, also several in one block", "anchors": ["contracts/dao-dao-core/src/contract.rs: execute_proposal_hook / query_voting_power_at_height / query_total_power_at_height", "contracts/proposal/dao-proposal-multiple/src/contract.rs: execute_propose / execute_vote / execute_execute", "contracts/proposal/dao-proposal-multiple/src/proposal.rs: is_passed / calculate_vote_result", "contracts/voting: query_voting_power_at_height / query_total_power_at_height"]}
{"id": "C82", "title": "An upgrade keeps every proposal, vote and setting", "statement": "Upgrading a single choice proposal module from version 1 keeps every proposal (content, messages, rules, tally, status), every ballot, the number of proposals, the hooks and the settings, and sends nothing but the message creating the pre-propose module asked for. It is refused exactly when the code is not new, the module is not one of version 1, the veto does not fit the voting period, or a proposal's deposit is still out. Every guarantee about histories of the module continues across upgrades: a proposal executed or closed before stays so, a proposal is executed at most once counting both versions, and tallies are the sums of ballots of both.", "quantifier": "every storage of version 1, every state of proposals, every later history of calls and upgrades", "why_tests_cant": "the storage of every running DAO would have to be upgraded, and every continuation after it tried", "anchors": ["contracts/proposal/dao-proposal-single/src/contract.rs: migrate", "contracts/proposal/dao-proposal-single/src/v1_state.rs", "contracts/proposal/dao-proposal-single/src/state.rs: CONFIG / PROPOSALS"]}
{"id": "C83", "title": "A DAO is upgraded as a whole or not at all", "statement": "If the upgrade of a DAO from version 1 with the migrator goes through, every proposal module of the DAO was named in the parameters and nothing else was; each runs the new code, has kept its proposals, ballots, hooks and settings and has the new settings asked for; the voting module and its staking contract run the new code; no other contract has been touched; the DAO has the proposal modules it had, all enabled, with the right counts, the SubDAOs named, and otherwise its old settings; and the migrator is no enabled module any more. It goes through exactly when the DAO is not paused, has proposal modules, each of them is an upgradable module of version 1 with at least one proposal and no open deposit, and the samples taken of state before and after agree. Only the DAO can start it.", "quantifier": "every DAO of version 1 with any number of modules, every set of parameters, every chain state", "why_tests_cant": "the upgrade is one transaction over many contracts; tests try a handful of DAOs", "anchors": ["contracts/external/dao-migrator/src/contract.rs: execute_migration_v1_v2; reply", "contracts/external/dao-migrator/src/utils/state_queries.rs", "contracts/dao-dao-core/src/contract.rs: migrate; reply"]}
{"id": "C84", "title": "Upgrades of the staking contracts and the core contract keep owner, settings and records", "statement": "Upgrading cw20-stake, cw20-stake-external-rewards, cw20-stake-reward-distributor or dao-dao-core from version 1 goes through exactly when the version changes and version 1 left its settings. It keeps every stake, claim, reward, payment date, hook, proposal module, item and token list, the settings and the owner or admin, and the upgraded contract behaves like one of version 2 in that state. No later upgrade takes back what the owner or the DAO has decided since.", "quantifier": "every storage left by version 1, every history of calls and upgrades afterwards", "why_tests_cant": "the settings and records may be anything and an upgrade may come at any point of a history; a test upgrades once, with a fresh contract", "anchors": ["contracts/staking/cw20-stake/src/contract.rs:migrate", "contracts/staking/cw20-stake-external-rewards/src/contract.rs:migrate", "contracts/staking/cw20-stake-reward-distributor/src/contract.rs:migrate", "contracts/dao-dao-core/src/contract.rs:migrate"]}
{"id": "C85", "title": "Upgrading a pre-propose module keeps who may propose, the deposits and everything recorded", "statement": "Upgrading a pre-propose module with FromUnderV250 goes through exactly from versions 2.4.1 and later 2.4 releases whose settings are readable, with no submission policy given or one that lets somebody propose. Without a policy given exactly the accounts that could propose before may propose afterwards, with one given it decides; the deposit asked for, its refund rule, every deposit paid, the hooks, the approver and every submission stay. Afterwards the module behaves, for all time, like one of version 2.5 with that past in which the DAO at most set the policy once, and no second upgrade goes through.", "quantifier": "All storages of the old version, all policies given, all histories of the module before and after the upgrade", "why_tests_cant": "Tests upgrade one fixed configuration and look at one query; that all deposits, submissions and later behaviour carry over concerns every history before and after.", "anchors": ["packages/dao-pre-propose-base/src/execute.rs:migrate", "contracts/pre-propose/dao-pre-propose-single/src/contract.rs:migrate", "contracts/pre-propose/dao-pre-propose-multiple/src/contract.rs:migrate", "contracts/pre-propose/dao-pre-propose-approval-single/src/contract.rs:migrate", "packages/dao-voting/src/pre_propose.rs:PreProposeSubmissionPolicy"]}
{"id": "C86", "title": "Members of a real voting module never get more rewards than were funded", "statement": "Take a rewards distributor together with the voting module it rewards the members of (staked native tokens, staked cw20 tokens, staked NFTs, or roles), wired by its power queries and hook messages. Whatever members stake, unstake, claim and fund, in whatever order and blocks: all that was claimed from a distribution and clawed back, and all that members can still claim, is at most what was funded, the distributor holds enough to pay, and a member accrues in proportion to their share of the voting power.", "quantifier": "every history of transactions by anybody with the distributor and with any of five voting modules, every distribution, set of members and later block", "why_tests_cant": "Tests play a few stakes and claims with one module; whether the bound survives depends on the order of stakes, hook messages, funding and claims within and across blocks, and on each module telling of every change.", "anchors": ["contracts/distribution/dao-rewards-distributor/src/hooks.rs:execute_stake_changed", "contracts/distribution/dao-rewards-distributor/src/helpers.rs:get_voting_power_at_block", "contracts/voting/dao-voting-token-staked/src/contract.rs:execute_stake", "contracts/voting/dao-voting-cw721-staked/src/contract.rs:execute_unstake", "contracts/voting/dao-voting-onft-staked/src/contract.rs:execute_confirm_stake", "contracts/staking/cw20-stake/src/contract.rs:execute_unstake", "contracts/external/cw721-roles/src/contract.rs:execute_mint", "packages/dao-hooks/src/stake.rs:stake_hook_msgs"]}
{"id": "C87", "title": "A majority of a DAO can always act, and nobody can stop it", "statement": "Take a DAO with its core contract, a single choice proposal module that lets anybody propose and has no veto, and any of the voting modules, in any state it can reach. Members whose stakes suffice for the threshold can in any later block propose messages of their choice, vote yes, and once the voting period is over anybody can execute the proposal: every one of these calls succeeds, and the DAO then has to send exactly these messages. Everybody with power can vote until the voting period is over. If members with a decisive share stand by their yes, the proposal cannot be lost: whatever the others vote and whatever anybody does in between, it has been executed or anybody can execute it; what the members have decided for is never recorded as rejected or closed. (A voting period of zero, which the contract accepts, takes all this away: nobody can ever vote.)", "quantifier": "every reachable state of a DAO with any of the voting modules, every set of members, threshold, list of messages and later block, every behaviour of everybody else", "why_tests_cant": "the guarantee is that a continuation exists from every reachable state, and that no behaviour of the others prevents it; tests start from a few states and play the others in one way", "anchors": ["contracts/proposal/dao-proposal-single/src/contract.rs:execute_propose", "contracts/proposal/dao-proposal-single/src/contract.rs:execute_vote", "contracts/proposal/dao-proposal-single/src/contract.rs:execute_execute", "contracts/proposal/dao-proposal-single/src/proposal.rs:current_status", "contracts/proposal/dao-proposal-single/src/proposal.rs:is_rejected", "packages/dao-voting/src/voting.rs:validate_voting_period", "contracts/dao-dao-core/src/contract.rs:execute_proposal_hook"]}
{"id": "C88", "title": "A DAO created with a new token gets it as the message says, and nobody else has a say over it", "statement": "Creating a DAO with a voting module that makes its own token goes through exactly if the unstaking duration is none or positive, the active threshold is a percentage above 0 and up to 100 or a count between one and the coins listed, some coins are listed, no listed amount is zero, the whole supply fits, and the denomination is new. Then every account holds exactly what is listed for it, the DAO its own balance on top, and that is the supply; the DAO owns the issuer, the issuer administers the token, and nobody has an allowance to mint or burn. As long as the DAO sends nothing to the issuer, nobody gets a message through to it, the supply stays, and accounts are debited only by their own transactions. A DAO that replaces its voting module by such a one is only offered the ownership: none of its messages to the issuer goes through until it accepts, which it can at any time.", "quantifier": "every creation message, chain state, address and naming of denominations; every later history of messages of anybody to the module, the issuer and the chain", "why_tests_cant": "The creation is a chain of five contracts' messages whose success and outcome depend on all amounts together, and that nobody else can interfere quantifies over all later histories", "anchors": ["contracts/voting/dao-voting-token-staked/src/contract.rs:instantiate", "contracts/voting/dao-voting-token-staked/src/contract.rs:reply", "contracts/external/cw-tokenfactory-issuer/src/execute.rs:mint", "contracts/external/cw-tokenfactory-issuer/src/contract.rs:instantiate", "contracts/dao-dao-core/src/contract.rs:reply"]}
{"id": "C89", "title": "Staked coins of a DAO's own token are there for the stakers, unless the token's owner takes them", "statement": "In a DAO with a token of its own, whatever anybody sends to the voting module, the issuer and the chain: the coins in the module's account together with those seized from it are at least all stakes and claims. Only the issuer's owner, somebody with an allowance to burn, or the denomination's administrator can seize. As long as the DAO leaves the issuer alone everything is covered, and everybody can unstake and claim at any time; otherwise unstaking with a delay works always, and payments work while the coins are there and the issuer does not object. No message to the issuer changes anybody's voting power, and powers for past heights stay and add up to the total.", "quantifier": "every history of messages of anybody to module, issuer and chain after a creation or replacement, both kinds of burning, every amount", "why_tests_cant": "Tests run single scenarios; solvency must hold after every interleaving of staking, transfers, minting, burning and seizures", "anchors": ["contracts/voting/dao-voting-token-staked/src/contract.rs:execute_stake", "contracts/voting/dao-voting-token-staked/src/contract.rs:execute_unstake", "contracts/voting/dao-voting-token-staked/src/contract.rs:execute_claim", "contracts/external/cw-tokenfactory-issuer/src/execute.rs:force_transfer", "contracts/external/cw-tokenfactory-issuer/src/execute.rs:burn", "contracts/external/cw-tokenfactory-issuer/src/execute.rs:freeze", "contracts/external/cw-tokenfactory-issuer/src/hooks.rs:beforesend_hook"]}
{"id": "C90", "title": "The holders of a new token can make their DAO active", "statement": "A DAO created with a new token and an active threshold is not inactive for good: without any doing of the DAO, the holders can stake so much that the threshold is met. (Proved for counts, and for percentages if no coins are minted for the DAO; in general the holders can do so exactly if the listed coins meet the threshold out of all coins, those of the DAO included. If not, the DAO is inactive at every point of every history in which it does nothing.)", "quantifier": "every accepted creation message, every later history without messages of the DAO", "why_tests_cant": "That a DAO can never become active is a statement about all later histories", "anchors": ["contracts/voting/dao-voting-token-staked/src/contract.rs:instantiate", "contracts/voting/dao-voting-token-staked/src/contract.rs:reply", "contracts/voting/dao-voting-token-staked/src/contract.rs:query_is_active", "packages/dao-voting/src/threshold.rs:assert_valid_percentage_threshold"]}
{"id": "C91", "title": "A DAO created with its own NFT collection gets the NFTs as listed and the right to mint", "statement": "A DAO created with a new NFT collection gets exactly the NFTs that were listed, each owned by the account listed with it, and the creation goes through exactly if the settings make sense for that list. Whatever messages are listed instead, if the creation goes through there are NFTs, the threshold makes sense for their number, and the DAO alone can mint. Nobody else can ever mint or take that right unless the DAO hands it out. If a DAO replaces its voting module instead, nobody can mint until the DAO accepts the ownership, and it can accept at any time.", "quantifier": "every creation message, every later history of the voting module and the collection", "why_tests_cant": "Who may mint is a statement about all later histories of two contracts, and the creation spans five messages and three replies", "anchors": ["contracts/voting/dao-voting-cw721-staked/src/contract.rs:instantiate", "contracts/voting/dao-voting-cw721-staked/src/contract.rs:reply", "contracts/dao-dao-core/src/contract.rs:reply"]}
{"id": "C92", "title": "NFTs staked in a DAO's own collection stay with the module until their staker takes them back", "statement": "With approvals, operators, transfers and burns in the collection: the votes of an account are the NFTs it sent to the module and has not taken back, the module owns every NFT that is staked or waited for, nobody but the staker makes it leave, and staking, unstaking and claiming go through for those who may. This holds if the messages listed in the creation give no permission in the module's name and do not stake; if they make an account an operator of the module, that account can take every staked NFT and give itself any number of votes.", "quantifier": "every list of messages in the creation, every later history, every account and NFT", "why_tests_cant": "An approval given in one message is used in another, so the property is about histories of two contracts; the number of votes an operator can make has no bound", "anchors": ["contracts/voting/dao-voting-cw721-staked/src/contract.rs:execute_stake", "contracts/voting/dao-voting-cw721-staked/src/contract.rs:execute_unstake", "contracts/voting/dao-voting-cw721-staked/src/contract.rs:execute_claim_nfts", "contracts/voting/dao-voting-cw721-staked/src/contract.rs:reply"]}
{"id": "C93", "title": "The holders of a new NFT collection can make their DAO active", "statement": "A DAO created with a new NFT collection and an active threshold is not inactive for good: without any doing of the DAO, the holders can stake so many NFTs that the threshold is met. (Proved if the NFTs minted for others than the DAO, the module and the collection meet the threshold out of all. With a count this is also necessary. Once too few NFTs are left, because holders burnt theirs, a DAO with a count is inactive from then on; with a percentage it is inactive as long as nobody burns an NFT.)", "quantifier": "every accepted list of NFTs, every later history without messages of the DAO", "why_tests_cant": "That a DAO can never become active is a statement about all later histories", "anchors": ["contracts/voting/dao-voting-cw721-staked/src/contract.rs:query_is_active", "contracts/voting/dao-voting-cw721-staked/src/contract.rs:instantiate", "contracts/voting/dao-voting-cw721-staked/src/contract.rs:reply", "packages/dao-voting/src/threshold.rs:assert_valid_absolute_count_threshold"]}
{"id": "C94", "title": "A whole DAO with a condorcet module does what its members decide", "statement": "Take a DAO with its core contract, a condorcet proposal module and any of the voting modules, in any interleaving of calls by anybody. Every proposal is executed at most once; when it is executed every member has voted on it at most once, the minimum voting period is over, the votes cast meet the quorum of all power of the height of the proposal, and there is a choice which is preferred to each other choice by more power than prefers the other, as of the votes cast if voting is over, and otherwise however those who have not voted may still vote; powers are those held before the block of the proposal. If the DAO is its own admin and has no other enabled proposal module, every message the DAO ever sends goes back to the messages of such a choice. Conversely a choice so decided for can be executed by any member in that block or a later one, and the DAO then sends exactly its messages in order; and every member who has not voted can vote until voting is over. (Percentages of up to nine decimals are meant exactly; with more decimals the contracts count a percentage as met when less than a billionth of a vote is missing.)", "quantifier": "every voting module of the six, every interleaving of calls of the three contracts by any senders, every configuration, every number of choices and voters, every reading of message bytes", "why_tests_cant": "the guarantee spans three contracts and every history of stakes, votes and changes of membership, and speaks about all ways the remaining votes may still fall", "anchors": ["contracts/dao-dao-core/src/contract.rs: execute_proposal_hook / query_voting_power_at_height / query_total_power_at_height", "contracts/proposal/dao-proposal-condorcet/src/contract.rs: execute_propose / execute_vote / execute_execute", "contracts/proposal/dao-proposal-condorcet/src/proposal.rs: status", "contracts/proposal/dao-proposal-condorcet/src/tally.rs: Tally::add_vote / Tally::winner", "contracts/voting: query_voting_power_at_height"]}
{"id": "C95", "title": "A DAO with any number of proposal modules does what its members decide in them", "statement": "Take a DAO with any number of proposal modules of all three kinds, which it creates and disables as time goes by, and any of the voting modules, in any interleaving of calls by anybody. Every proposal of every module is executed at most once, and only if the members have decided for it by the rules of its module, with the powers held before the block of the proposal. If the DAO is its own admin and its enabled proposal modules are those it created, every message it ever sends goes back to its founding or to the messages of a proposal so decided for in a module that was enabled when it was executed. Conversely, what is decided in an enabled module can be executed, and the DAO then sends exactly its messages in order. Modules do not disturb each other: what happens elsewhere changes neither the proposals nor the votes of a module. A disabled module has no effect on the DAO. (Percentages of up to nine decimals are meant exactly; with more decimals the contracts count a percentage as met when less than a billionth of a vote is missing.)", "quantifier": "every number and mix of proposal modules, every voting module, every interleaving of calls and creations, every configuration", "why_tests_cant": "the guarantee spans any number of contracts of four kinds and every interleaving of their histories", "anchors": ["contracts/dao-dao-core/src/contract.rs: execute_proposal_hook / execute_update_proposal_modules / reply", "contracts/proposal/dao-proposal-single/src/contract.rs: execute", "contracts/proposal/dao-proposal-multiple/src/contract.rs: execute", "contracts/proposal/dao-proposal-condorcet/src/contract.rs: execute"]}
{"id": "C96", "title": "A SubDAO obeys its members and its parent DAO, and nobody else", "statement": "Take a DAO and a SubDAO whose admin it is, each with any voting module and any number of proposal modules, in any interleaving of calls by anybody. The parent stays the admin of the SubDAO, whatever the members of the SubDAO decide and also if the parent strikes it off its list, until the parent itself tells the SubDAO to take another admin. Everything the SubDAO ever sends goes back to its founding, to proposals its own members have decided for, or to admin messages of the parent, and these go back to the founding of the parent or to proposals the members of the parent have decided for. Conversely the SubDAO obeys: an admin message of the parent is carried out also if the SubDAO is paused, and its messages are sent in order before anything else; the parent can end a pause, and it can replace the proposal modules of the SubDAO. Once released by its parent the SubDAO does not obey it any more.", "quantifier": "every pair of DAOs with any voting modules and any numbers of proposal modules, every interleaving of calls, every message of the parent and the SubDAO", "why_tests_cant": "the guarantee spans two DAOs with any number of contracts each and every interleaving of their histories", "anchors": ["contracts/dao-dao-core/src/contract.rs: execute_admin_msgs / execute_nominate_admin / execute_accept_admin_nomination / execute_pause / execute_unpause", "contracts/dao-dao-core/src/contract.rs: execute_update_sub_daos_list", "contracts/proposal/dao-proposal-single/src/contract.rs: execute"]}
{"id": "C97", "title": "A staking contract and its reward contracts pay each staker its share and never endanger the stakes", "statement": "Take a cw20-stake contract and any number of cw20-stake-external-rewards contracts for it, several of which may pay in the same token, even in the staked token. Whatever anybody does at any of them, the staking contract always holds what stakers and claimants can take out. A reward contract that is registered as a hook before its first use and stays registered pays, with what it shows as pending, each staker's share of its rewards in proportion to the stakes at each block, never promises more than it was funded with, holds what it promises, and a claim succeeds, pays exactly what was pending and changes nothing elsewhere. Reward contracts do not stand in the way of staking and unstaking.", "quantifier": "every history of calls to the staking contract, to any number of reward contracts created at any time, and of token movements, by anybody, at any heights", "why_tests_cant": "The reward contracts learn of stake changes only through hook messages and read stakes from the staking contract's height snapshots; that the accounting stays right when several of them share tokens and hooks is a statement about all interleavings of all contracts", "anchors": ["contracts/staking/cw20-stake/src/contract.rs / execute_stake / execute_unstake", "contracts/staking/cw20-stake-external-rewards/src/contract.rs / execute_stake_changed / update_rewards / execute_claim / execute_fund", "packages/dao-hooks/src/stake.rs / stake_hook_msgs"]}
{"id": "C98", "title": "cw20-stake: the reported value is what unstaking pays, and everybody can stake", "statement": "The value reported for a staker is exactly what unstaking everything now pays (at once or as a claim); the values of all stakers never add up to more than the reported total, which the contract holds; the value is always answered. Everybody can always stake any part of their tokens and gets the matching part of the shares, losing less than one share to rounding.", "quantifier": "every reachable state, every staker and list of stakers, every amount", "why_tests_cant": "Rounding and overflow depend on the exact ratio of shares to tokens; tests sample a few ratios.", "anchors": ["contracts/staking/cw20-stake/src/contract.rs:query_staked_value", "contracts/staking/cw20-stake/src/contract.rs:query_total_value", "contracts/staking/cw20-stake/src/math.rs:amount_to_stake"]}
{"id": "C99", "title": "Rewards distributor: funds last exactly as long as the rate says, and claims pay what is shown", "statement": "From start to end a linear distribution has exactly as many whole periods as its funds pay for, after every funding, change of rate and claw-back. Funding a distribution prolongs it, or starts it anew when it is over, to the length the funds pay for; a funding is refused only when numbers do not fit. A claim pays exactly what the pending-rewards query shows, nothing is left to claim in that block, and whoever is shown something can claim it.", "quantifier": "every history of distributions, fundings, updates, claw-backs, power changes and claims, every rate, amount and block", "why_tests_cant": "Tests fund a few distributions at round amounts; the claim is about every amount, rate, restart and order of transactions, including the limits of the number types.", "anchors": ["contracts/distribution/dao-rewards-distributor/src/state.rs:get_funded_period_duration", "contracts/distribution/dao-rewards-distributor/src/state.rs:transition_epoch", "contracts/distribution/dao-rewards-distributor/src/contract.rs:execute_fund_linear", "contracts/distribution/dao-rewards-distributor/src/contract.rs:execute_claim", "contracts/distribution/dao-rewards-distributor/src/contract.rs:query_pending_rewards"]}
{"id": "C100", "title": "Settings and receivers are what was said last", "statement": "In every voting module, proposal module and pre-propose module the receivers of notifications are exactly those the owner added and did not remove (and that were not dropped because they failed), in the order added, and every setting (unstaking duration, active threshold, configuration, who may propose, deposit, approver) has the value that the last successful call setting it gave, or the value given at instantiation. No other call changes them, and the owner can always add a receiver that is not there, remove one that is, and set a valid value.", "quantifier": "all histories of calls by anybody, all receivers, all values", "why_tests_cant": "A test adds one hook and looks; it cannot show that no later stake, vote, claim or execution silently changes the list or the configuration.", "anchors": ["contracts/voting/dao-voting-token-staked/src/contract.rs / execute_update_config execute_add_hook execute_remove_hook", "contracts/staking/cw20-stake/src/contract.rs / execute_update_config execute_add_hook", "contracts/voting/dao-voting-cw721-staked/src/contract.rs", "contracts/voting/dao-voting-onft-staked/src/contract.rs", "contracts/external/cw721-roles/src/contract.rs / execute_add_hook", "contracts/proposal/dao-proposal-single/src/contract.rs / execute_update_config add_hook remove_hook", "contracts/proposal/dao-proposal-multiple/src/contract.rs", "contracts/proposal/dao-proposal-condorcet/src/contract.rs / execute_set_config", "packages/dao-pre-propose-base/src/execute.rs"]}
{"id": "C101", "title": "Proposal modules accept exactly the sound configurations", "statement": "A proposal module can be instantiated with, and its DAO can set, exactly the configurations whose threshold asks for more than nothing and at most everything (a quorum may be nothing), whose minimum voting period has the unit of the voting period and is not longer, and whose veto timelock has the unit of the voting period; in every reachable state the configuration is such a one. A voting period of nothing is accepted: a proposal created under it is rejected for ever, nobody can vote on it and its messages are never sent.", "quantifier": "all configurations, all reachable states, all later histories of a proposal", "why_tests_cant": "The space of configurations is unbounded, and that a proposal stays rejected concerns all later calls.", "anchors": ["packages/dao-voting/src/threshold.rs / Threshold::validate", "packages/dao-voting/src/voting.rs / validate_voting_period", "packages/dao-voting/src/veto.rs / VetoConfig::validate", "contracts/proposal/dao-proposal-single/src/contract.rs / instantiate execute_update_config", "contracts/proposal/dao-proposal-multiple/src/contract.rs / instantiate execute_update_config", "contracts/proposal/dao-proposal-condorcet/src/config.rs / into_checked"]}
{"id": "C102", "title": "Fund distributor with a real voting module: every member gets its share and nobody more", "statement": "A fund distributor that asks one of the DAO's voting modules for powers pays each member, once, the fraction of the funds that its power was of the total power at the distribution height (rounded down), whatever anybody stakes, unstakes, transfers or claims before or after; all payments together stay within the funds; once the funding period is over every member can claim at any time; and when everybody has claimed nothing but rounding is left.", "quantifier": "All histories of transactions of the distributor and of any of the six voting modules, interleaved at will, with any senders, amounts and blocks.", "why_tests_cant": "Tests mock the voting module or stake once and claim once; whether moving stakes between claims can change what is paid depends on all interleavings with the snapshots of the voting module, and on the choice of heights.", "anchors": ["contracts/distribution/cw-fund-distributor/src/contract.rs: instantiate / get_relative_share / execute_claim_all / execute_redistribute_unclaimed_funds", "contracts/voting/dao-voting-token-staked/src/contract.rs: query_voting_power_at_height"]}
{"id": "C103", "title": "A client that follows the pages of a list sees everything, once", "statement": "For every state a contract can be in, every limit a client gives (other than one that is zero in 32 bits) and both orders: asking for the list of proposals, votes, stakers, members, staked NFTs, pending or completed submissions page by page, each time after the last entry shown, is answered every time and ends; it shows every proposal ever made exactly once in order, each with the status the proposal query gives in that block; exactly the voters on a proposal, with their last vote and their power, adding up to the tally; every staker or member with their stake, adding up to the total; every staked NFT of an owner; and every submission in exactly one of the two lists, with what was decided.", "quantifier": "all histories of the contracts, all blocks in which the client asks, all page sizes, both orders", "why_tests_cant": "Tests page through lists of a few entries with one or two limits; that no entry is ever skipped or repeated, that no record can make a page fail, and that what is listed is what the history did is a statement about all histories and all page sizes.", "anchors": ["contracts/proposal/dao-proposal-single/src/contract.rs query_list_proposals / query_reverse_proposals / query_list_votes", "contracts/proposal/dao-proposal-multiple/src/contract.rs query_list_proposals / query_reverse_proposals / query_list_votes", "contracts/voting/dao-voting-token-staked/src/contract.rs query_list_stakers", "contracts/staking/cw20-stake/src/contract.rs query_list_stakers", "contracts/external/cw721-roles/src/contract.rs query_list_members", "contracts/voting/dao-voting-cw721-staked/src/contract.rs query_staked_nfts", "contracts/pre-propose/dao-pre-propose-approval-single/src/contract.rs query"]}
{"id": "C104", "title": "A majority of a DAO with a multiple choice module can always act, and nobody can stop it", "statement": "Take a DAO with its core contract, a multiple choice proposal module that lets anybody propose and has no veto, and any of the voting modules, in any state it can reach. Members with more than half of all power, who also meet the quorum alone, can in any later block propose two to twenty options of their choice, vote for one of them, and once the voting period is over anybody can execute the proposal: every one of these calls succeeds, and the DAO then has to send exactly the messages of that option. Everybody with power can vote for every option, the implicit none of the above included, until the voting period is over. If members with such a share stand by their option, the proposal cannot be lost: whatever the others vote and whatever anybody does in between, it has been executed or anybody can execute it; what the members have decided for is never recorded as rejected or closed. Half of all power is not enough. (A voting period of zero, which the contract accepts, takes all this away: nobody can ever vote.)", "quantifier": "every reachable state of a DAO with any of the voting modules, every set of members, quorum, list of options and later block, every behaviour of everybody else", "why_tests_cant": "the guarantee is that a continuation exists from every reachable state, and that no behaviour of the others prevents it; tests start from a few states and play the others in one way", "anchors": ["contracts/proposal/dao-proposal-multiple/src/contract.rs:execute_propose", "contracts/proposal/dao-proposal-multiple/src/contract.rs:execute_vote", "contracts/proposal/dao-proposal-multiple/src/contract.rs:execute_execute", "contracts/proposal/dao-proposal-multiple/src/proposal.rs:current_status", "contracts/proposal/dao-proposal-multiple/src/proposal.rs:is_rejected", "contracts/proposal/dao-proposal-multiple/src/proposal.rs:is_passed", "packages/dao-voting/src/multiple_choice.rs:into_checked", "contracts/dao-dao-core/src/contract.rs:execute_proposal_hook"]}
{"id": "C105", "title": "A majority of a DAO with a condorcet module can always act, and nobody can stop it", "statement": "Take a DAO with its core contract, a condorcet proposal module and any of the voting modules, in any state it can reach. Members with more than half of all power, who also meet the quorum alone, can in any later block have one of them propose options of their choice, rank one of them first (the rest in any order they like), and once the minimum voting period is over, which without such a period is the same block, any member can execute the proposal: every one of these calls succeeds, and the DAO then has to send exactly the messages of that option. If members with such a share have ranked an option first, the proposal cannot be lost: whatever the others rank and whatever anybody does in between, it has been executed or any member can execute it, and it is never recorded as rejected or closed. Half of all power is not enough: the others can prevent a winner. (A voting period of zero, which the contract accepts, takes all this away: nobody can ever vote.)", "quantifier": "every reachable state of a DAO with any of the voting modules, every set of members, quorum, list of options, rankings and later block, every behaviour of everybody else", "why_tests_cant": "the guarantee is that a continuation exists from every reachable state, and that no behaviour of the others prevents it; tests start from a few states and play the others in one way", "anchors": ["contracts/proposal/dao-proposal-condorcet/src/contract.rs:execute_propose", "contracts/proposal/dao-proposal-condorcet/src/contract.rs:execute_vote", "contracts/proposal/dao-proposal-condorcet/src/contract.rs:execute_execute", "contracts/proposal/dao-proposal-condorcet/src/contract.rs:execute_close", "contracts/proposal/dao-proposal-condorcet/src/proposal.rs:status", "contracts/proposal/dao-proposal-condorcet/src/tally.rs:Tally::winner", "contracts/proposal/dao-proposal-condorcet/src/config.rs:UncheckedConfig::into_checked", "contracts/dao-dao-core/src/contract.rs:execute_proposal_hook"]}
{"id": "C106", "title": "A DAO shows what it does", "statement": "PauseInfo says that a DAO is paused exactly when nobody but the DAO itself and its admin can do anything, with the end that was set last, and every pause ends. Following the pages of ActiveProposalModules shows exactly the proposal modules whose messages the DAO carries out; ProposalModules shows all modules there ever were; both lists are as long as ProposalModuleCount says. Between transactions DumpState answers and agrees with the other queries; the voting module shown is the one made last. ListItems and ListSubDaos show what was last set.", "quantifier": "all histories of a DAO, blocks, senders and messages, page sizes", "why_tests_cant": "An example shows one state; the agreement of what is shown and what is done must hold after every history and for every message and sender.", "anchors": ["contracts/dao-dao-core/src/contract.rs:query", "contracts/dao-dao-core/src/contract.rs:get_pause_info", "contracts/dao-dao-core/src/contract.rs:query_dump_state", "contracts/dao-dao-core/src/contract.rs:query_active_proposal_modules"]}
{"id": "C107", "title": "A DAO can always list its token balances", "statement": "Following the pages of Cw20Balances shows the DAO's balance of every cw20 token on its list, once, whatever others do; an entry that does not answer can be taken off the list.", "quantifier": "all histories of a DAO, tokens and answers of the tokens, page sizes", "why_tests_cant": "It must hold whatever contracts or accounts get on the list.", "anchors": ["contracts/dao-dao-core/src/contract.rs:query_cw20_balances", "contracts/dao-dao-core/src/contract.rs:execute_receive_cw20", "contracts/dao-dao-core/src/contract.rs:do_update_addr_list"]}
{"id": "C108", "title": "A fund distributor shows what it will pay", "statement": "Following the pages of NativeEntitlements and CW20Entitlements for a member shows every token of the pool, once, each with the member's share of the pool less what the member has received; claiming everything then pays exactly what was shown, token by token, and nothing else. NativeDenoms and CW20Tokens show the pool: what was funded less what earlier rounds paid out.", "quantifier": "all histories of a fund distributor, members, kinds of tokens, page sizes", "why_tests_cant": "Fundings, partial claims and redistributions can come in any order; an example settles one order.", "anchors": ["contracts/distribution/cw-fund-distributor/src/contract.rs:query_native_entitlements", "contracts/distribution/cw-fund-distributor/src/contract.rs:query_cw20_entitlements", "contracts/distribution/cw-fund-distributor/src/contract.rs:query_native_denoms", "contracts/distribution/cw-fund-distributor/src/contract.rs:query_cw20_tokens", "contracts/distribution/cw-fund-distributor/src/contract.rs:execute_claim_all"]}
{"id": "C109", "title": "Contracts change owner only by nomination and acceptance", "statement": "The owner of a contract is whoever accepted the ownership last, or the owner named at instantiation if nobody did, and nobody once it was renounced. Only the owner of the moment can nominate a successor or renounce; only the account nominated by the last word of the owner can accept, and only before the nomination expires. Nothing else a contract does changes its owner. Renouncing is for ever.", "quantifier": "all histories of cw20-stake, cw20-stake-reward-distributor, cw20-stake-external-rewards, dao-rewards-distributor, cw-tokenfactory-issuer, cw-vesting, cw-payroll-factory and cw721-roles, by any callers, in any blocks", "why_tests_cant": "Nominations, acceptances and renunciations of several accounts mix with all other calls; tests try a few orders.", "anchors": ["contracts/staking/cw20-stake/src/contract.rs:execute_update_owner", "contracts/staking/cw20-stake-reward-distributor/src/contract.rs:execute_update_owner", "contracts/staking/cw20-stake-external-rewards/src/contract.rs:execute_update_owner", "contracts/distribution/dao-rewards-distributor/src/contract.rs:execute_update_owner", "contracts/external/cw-tokenfactory-issuer/src/execute.rs:update_contract_owner", "contracts/external/cw-vesting/src/contract.rs:execute_update_owner", "contracts/external/cw-payroll-factory/src/contract.rs:execute_update_owner", "contracts/external/cw721-roles/src/contract.rs:execute"]}
{"id": "C110", "title": "An owner can always hand a contract over or give it up", "statement": "In whatever state a contract is, its owner can nominate any account and that account can accept, which changes the owner and nothing else; and its owner can renounce, except for a cancelled vest that still owes the owner tokens, where renouncing is always refused. (For the role contracts this fails, see C67.)", "quantifier": "all states of cw20-stake, cw20-stake-reward-distributor, cw20-stake-external-rewards, dao-rewards-distributor, cw-tokenfactory-issuer, cw-vesting and cw-payroll-factory, and all accounts other than the contract itself and the token contracts it obeys", "why_tests_cant": "A statement about every reachable state, whatever else is going on in the contract.", "anchors": ["contracts/staking/cw20-stake/src/contract.rs:execute_update_owner", "contracts/staking/cw20-stake-reward-distributor/src/contract.rs:execute_update_owner", "contracts/staking/cw20-stake-external-rewards/src/contract.rs:execute_update_owner", "contracts/distribution/dao-rewards-distributor/src/contract.rs:execute_update_owner", "contracts/external/cw-tokenfactory-issuer/src/execute.rs:update_contract_owner", "contracts/external/cw-vesting/src/contract.rs:execute_update_owner", "contracts/external/cw-payroll-factory/src/contract.rs:execute_update_owner"]}
{"id": "C111", "title": "A DAO that takes deposits does what its members decide on submitted proposals", "statement": "Take a DAO with its core contract, a single choice proposal module with dao-pre-propose-single in front of it, and any of the voting modules, in any interleaving of calls by anybody. While the pre-propose module stays attached, every new proposal was submitted through it: by its proposer, whom the submission policy in force let submit (a member is one with voting power at that moment), who left exactly the deposit in force, and it has the messages submitted. Every message the DAO sends for its proposal module is one of such a proposal, or of one made before the pre-propose module was there, which the members decided for. When a proposal is over and its hooks have run, its deposit was paid exactly once, to its proposer or to the DAO as the refund policy at submission says. The pre-propose module stays attached until the DAO says otherwise or a completion hook fails, which happens only if the DAO had withdrawn deposits, a deposit was not taken yet, or the receiver has too much already.", "quantifier": "every voting module of the six, every history of the DAO before, every interleaving of calls of the four contracts and of token transfers by any senders, every configuration", "why_tests_cant": "the guarantee spans four contracts: who may submit is the pre-propose module's decision on the voting module's numbers, and the refund follows from the proposal module's decision; tests fix one wiring and one schedule", "anchors": ["packages/dao-pre-propose-base/src/execute.rs:execute_propose", "packages/dao-pre-propose-base/src/execute.rs:execute_proposal_completed_hook", "packages/dao-pre-propose-base/src/execute.rs:check_can_submit", "contracts/proposal/dao-proposal-single/src/contract.rs:execute_propose", "contracts/dao-dao-core/src/contract.rs:query_voting_power_at_height"]}
{"id": "C112", "title": "The members of a DAO that takes deposits can always act", "statement": "Take a DAO with a single choice proposal module, dao-pre-propose-single in front of it, no veto, and any of the voting modules, in any state it can reach with the pre-propose module attached. Somebody whom the policy lets submit and who has the deposit can in any later block submit messages of their choice; the deposit is taken; members whose stakes suffice for the threshold can vote yes; and once the voting period is over anybody can execute: every one of these calls succeeds and the DAO then has to send exactly these messages. The completion hook succeeds as well, so that the pre-propose module stays attached, and the deposit is back with the submitter, or with the DAO if it is never refunded; nobody else's balance changes. If members with a decisive share have voted yes, nothing others do stops the execution.", "quantifier": "every reachable state of a DAO with any of the voting modules and a pre-propose module, every deposit, policy, set of members, threshold, list of messages and later block, every behaviour of everybody else", "why_tests_cant": "the guarantee is that a continuation exists from every reachable state, across four contracts; tests start from a few states", "anchors": ["packages/dao-pre-propose-base/src/execute.rs:execute_propose", "packages/dao-pre-propose-base/src/execute.rs:execute_proposal_completed_hook", "packages/dao-voting/src/deposit.rs:check_native_deposit_paid", "packages/dao-voting/src/deposit.rs:get_take_deposit_messages", "contracts/proposal/dao-proposal-single/src/contract.rs:execute_execute"]}
{"id": "C113", "title": "A DAO overseen by another DAO sends only what the members of both decided for", "statement": "Take a DAO with a single choice proposal module behind dao-pre-propose-approval-single, and a second DAO that approves through dao-pre-propose-approver. While the approval contract is the DAO's pre-propose module and the approver contract its approver whenever a proposal is made, every proposal made to the DAO was submitted, by its proposer and with exactly its contents and messages; the submission was put before the members of the approving DAO, as a proposal with the same contents and no messages; and that proposal was executed when the votes of those who held power in the approving DAO when it was made met its threshold. So whatever the DAO is made to send through its proposal module is a message of a proposal for which the members of both DAOs decided, or of a proposal older than the arrangement. Nobody, neither majority alone nor whoever submits, approves, executes or delivers messages out of turn, gets around this.", "quantifier": "every pair of DAOs with any of the voting modules, every history of both before the contracts are connected, every history after with all calls of all contracts by anybody in any order", "why_tests_cant": "the guarantee relates two DAOs with four contracts each over unbounded histories with the hooks between them delivered at any time; tests run single scenarios", "anchors": ["contracts/pre-propose/dao-pre-propose-approver/src/contract.rs:execute_propose", "contracts/pre-propose/dao-pre-propose-approver/src/contract.rs:execute_proposal_completed", "contracts/pre-propose/dao-pre-propose-approval-single/src/contract.rs:execute_propose", "contracts/pre-propose/dao-pre-propose-approval-single/src/contract.rs:execute_approve", "contracts/proposal/dao-proposal-single/src/contract.rs:execute_propose", "contracts/proposal/dao-proposal-single/src/contract.rs:execute_execute"]}
{"id": "C114", "title": "The members of a DAO and of the DAO that oversees it can always act together", "statement": "Take the DAO and the approving DAO of C113 in any state reachable by any history in which both kept their voting modules, with the contracts connected (the approval contract is the DAO's pre-propose module, the approver contract its approver, a submission hook, and the approving DAO's pre-propose module) and no message waiting between them. Then whoever may submit and has the deposit can submit any messages; the approver contract can put them before the approving DAO; members of that DAO who together meet its threshold can vote for them and have them approved when the voting period is over, which makes the proposal in the DAO; and members of the DAO who together meet its threshold can vote for it and have exactly these messages sent when its voting period is over. None of these calls fails, the approving DAO itself sends nothing, the contracts stay connected with nothing waiting, and the deposit is back with the proposer, or with the DAO if it is never refunded.", "quantifier": "every pair of DAOs with any of the voting modules, every state reachable by any history, every submission, every set of members with enough weight, every choice of blocks with the stated order", "why_tests_cant": "the claim is that no history of four contracts on each side leads to a state in which the members are stuck; tests only try a few states", "anchors": ["contracts/pre-propose/dao-pre-propose-approval-single/src/contract.rs:execute_propose", "contracts/pre-propose/dao-pre-propose-approval-single/src/contract.rs:execute_approve", "contracts/pre-propose/dao-pre-propose-approver/src/contract.rs:execute_propose", "contracts/pre-propose/dao-pre-propose-approver/src/contract.rs:execute_proposal_completed", "contracts/proposal/dao-proposal-single/src/contract.rs:execute_execute", "packages/dao-pre-propose-base/src/execute.rs:PreProposeContract::execute_proposal_completed_hook"]}
{"id": "C115", "title": "A DAO with a fan token: who gets it, who makes more of it, and that stakes are safe", "statement": "Create dao-voting-token-staked with btsg-ft-factory as its token factory. The creation succeeds exactly if the unstaking duration and the active threshold make sense, no listed balance is zero, the coins do not exceed the largest supply, and some of them are for others than the DAO (a count threshold must be reachable with these). Then the DAO is authority and minter of the new token, everybody has what the message gives them and nobody's other coins have changed. In every history after that, there is never more of the token than the largest supply, it becomes more only when its minter mints, the minter is the DAO until the DAO hands this over, the voting module holds every staked coin and every coin being unstaked, and whoever holds coins can stake them, whoever has staked can unstake, and whoever has a claim that is due is paid in full, whatever the DAO and the minter have done. The holders can make the DAO active without its doing exactly if the coins made for others meet the threshold out of all coins; for percentages this can be impossible from the start.", "quantifier": "every earlier history of the factory and the chain, every creation message, every later history of the module, the factory, the minter and the holders", "why_tests_cant": "the claims are about all later histories of four parties, about exactly when a creation succeeds, and about thresholds that can never be met whatever holders do", "anchors": ["contracts/voting/dao-voting-token-staked/src/contract.rs: instantiate (TokenInfo::Factory)", "contracts/voting/dao-voting-token-staked/src/contract.rs: reply (FACTORY_EXECUTE_REPLY_ID)", "contracts/external/btsg-ft-factory/src/contract.rs: execute_issue and reply"]}
{"id": "C116", "title": "A DAO that takes deposits for multiple choice proposals does what its members decide on submitted ones", "statement": "Take a DAO with its core contract, a multiple choice proposal module with dao-pre-propose-multiple in front of it, and any of the voting modules that answer for a height (token, cw721, cw20 and onft staking; cw4 and cw721-roles as long as the membership does not change in the block of a proposal before it), in any interleaving of calls by anybody. While the pre-propose module stays attached, every new proposal was submitted through it: by its proposer, whom the submission policy in force let submit (a member is one with voting power at that moment), who left exactly the deposit in force, and it offers the options submitted, in order, and none of the above. Every message the DAO sends for its proposal module is one of an option the members decided for, of such a proposal or of one made before the pre-propose module was there. When a proposal is over and its hooks have run, its deposit was paid exactly once, to its proposer or to the DAO as the refund policy at submission says. The pre-propose module stays attached until the DAO says otherwise or a completion hook fails, which happens only if the DAO had withdrawn deposits, a deposit was not taken yet, or the receiver has too much already.", "quantifier": "every voting module of the six, with the proviso for two of them, every history of the DAO before, every interleaving of calls of the four contracts and of token transfers by any senders, every configuration", "why_tests_cant": "the guarantee spans four contracts: who may submit is the pre-propose module's decision on the voting module's numbers, which option wins is the proposal module's, and the refund follows from it; tests fix one wiring and one schedule", "anchors": ["packages/dao-pre-propose-base/src/execute.rs:execute_propose", "packages/dao-pre-propose-base/src/execute.rs:execute_proposal_completed_hook", "packages/dao-pre-propose-base/src/execute.rs:check_can_submit", "contracts/proposal/dao-proposal-multiple/src/contract.rs:execute_propose", "contracts/pre-propose/dao-pre-propose-multiple/src/contract.rs:execute", "packages/dao-voting/src/multiple_choice.rs:into_checked"]}
{"id": "C117", "title": "The members of a multiple choice DAO that takes deposits can always act", "statement": "Take a DAO with a multiple choice proposal module, dao-pre-propose-multiple in front of it, no veto, and any of the voting modules, in any state it can reach with the pre-propose module attached. Somebody whom the policy lets submit and who has the deposit can in any later block submit two to twenty options of their choice; the deposit is taken; members with a decisive share of the stakes can vote for one of the options; and once the voting period is over anybody can execute: every one of these calls succeeds and the DAO then has to send exactly the messages of this option. The completion hook succeeds as well, so that the pre-propose module stays attached, and the deposit is back with the submitter, or with the DAO if it is never refunded; nobody else's balance changes. If members with a decisive share stand by an option of a proposal whose recorded total is that of its block, nothing others do stops the execution.", "quantifier": "every reachable state of a DAO with any of the voting modules and a pre-propose module, every deposit, policy, set of members, quorum, list of options and later block, every behaviour of everybody else", "why_tests_cant": "the guarantee is that a continuation exists from every reachable state, across four contracts; tests start from a few states", "anchors": ["packages/dao-pre-propose-base/src/execute.rs:execute_propose", "packages/dao-pre-propose-base/src/execute.rs:execute_proposal_completed_hook", "packages/dao-voting/src/deposit.rs:check_native_deposit_paid", "packages/dao-voting/src/deposit.rs:get_take_deposit_messages", "contracts/proposal/dao-proposal-multiple/src/contract.rs:execute_execute"]}
{"id": "C118", "title": "A DAO that may veto decides by its own members, and nobody gets around it", "statement": "Take a DAO with a single choice proposal module whose vetoer is another DAO, each with any of the voting modules, in any interleaving of calls by anybody. A veto by the other DAO goes back to proposals the members of that DAO have decided for; it comes before the timelock is over, and before the vote is over only if that is enabled. A proposal is executed only after the members of the watched DAO have decided for it and its timelock is over, or earlier, where that is enabled, on an order that goes back to proposals the members of the other DAO have decided for. A vetoed proposal is never executed. Where a threshold is a percentage, a decision may miss it by less than a billionth of a vote, because the contracts round (see C03).", "quantifier": "every pair of DAOs with any voting modules, every earlier history of both, every interleaving of calls, every veto configuration, every reading of message bytes", "why_tests_cant": "Tests play one veto by a fixed address; that no interleaving of two DAOs lets anybody else veto, or execute a proposal during its timelock, is a statement about all histories of both.", "anchors": ["contracts/proposal/dao-proposal-single/src/contract.rs:execute_veto", "contracts/proposal/dao-proposal-single/src/contract.rs:execute_execute", "packages/dao-voting/src/veto.rs:VetoConfig", "contracts/dao-dao-core/src/contract.rs:execute_proposal_hook"]}
{"id": "C119", "title": "The members of a DAO that may veto can always veto in time", "statement": "Take a DAO and the DAO that is the vetoer of its proposals, in any state they can reach. Members of the vetoing DAO whose stakes suffice for its threshold can in any later block propose a veto, vote yes, and once their voting period is over anybody can execute it: every one of these calls succeeds, and the proposal is vetoed, if by then it may still be vetoed. It may be vetoed in every block in which its timelock is not over, once its voting period is over (or earlier where that is enabled), unless it is lost, vetoed or executed already; and while the timelock is not over nobody but the vetoing DAO can have executed it. Nobody can stop this: if members with a decisive share of the power of the vetoing DAO stand by their yes, this holds whatever everybody else does in the two DAOs.", "quantifier": "every reachable state of the two DAOs, every set of members of the vetoing DAO, every threshold, every later block, every behaviour of everybody else", "why_tests_cant": "That a veto succeeds in time is a statement about all states, blocks and behaviours of others; a test shows one.", "anchors": ["contracts/proposal/dao-proposal-single/src/contract.rs:execute_veto", "contracts/proposal/dao-proposal-single/src/proposal.rs:current_status", "packages/dao-voting/src/veto.rs:VetoConfig"]}
{"id": "C120", "title": "A DAO that may veto multiple choice proposals decides by its own members, and nobody gets around it", "statement": "Take a DAO with a multiple choice proposal module and a staking voting module whose vetoer is another DAO with a single choice proposal module and any voting module, in any interleaving of calls by anybody. A veto by the other DAO goes back to proposals the members of that DAO have decided for; it comes before the timelock is over, and before the vote is over only if that is enabled. A proposal is executed only after the members of the watched DAO have decided for the option that is carried out and its timelock is over, or earlier, where that is enabled, on an order that goes back to proposals the members of the other DAO have decided for. A vetoed proposal is never executed. Where a threshold is a percentage, a decision may miss it by less than a billionth of a vote, because the contracts round (see C03).", "quantifier": "every pair of such DAOs, every earlier history of both, every interleaving of calls, every veto configuration, every reading of message bytes", "why_tests_cant": "Tests play one veto by a fixed address; that no interleaving of two DAOs lets anybody else veto, or execute an option during the timelock, is a statement about all histories of both.", "anchors": ["contracts/proposal/dao-proposal-multiple/src/contract.rs:execute_veto", "contracts/proposal/dao-proposal-multiple/src/contract.rs:execute_execute", "packages/dao-voting/src/veto.rs:VetoConfig", "contracts/dao-dao-core/src/contract.rs:execute_proposal_hook"]}
{"id": "C121", "title": "The members of a DAO that may veto multiple choice proposals can always veto in time", "statement": "Take a DAO with a multiple choice proposal module and the DAO that is the vetoer of its proposals, in any state they can reach. Members of the vetoing DAO whose stakes suffice for its threshold can in any later block propose a veto, vote yes, and once their voting period is over anybody can execute it: every one of these calls succeeds, and the proposal is vetoed, if by then it may still be vetoed. It may be vetoed in every block in which its timelock is not over, once its voting period is over (or earlier where that is enabled), unless it is lost, vetoed or executed already; and while the timelock is not over nobody but the vetoing DAO can have executed it. Nobody can stop this: if members with a decisive share of the power of the vetoing DAO stand by their yes, this holds whatever everybody else does in the two DAOs.", "quantifier": "every reachable state of the two DAOs, every set of members of the vetoing DAO, every threshold, every later block, every behaviour of everybody else", "why_tests_cant": "That a veto succeeds in time is a statement about all states, blocks and behaviours of others; a test shows one.", "anchors": ["contracts/proposal/dao-proposal-multiple/src/contract.rs:execute_veto", "contracts/proposal/dao-proposal-multiple/src/proposal.rs:current_status", "packages/dao-voting/src/veto.rs:VetoConfig"]}
{"id": "C122", "title": "What belongs to a DAO is used only as its members decide", "statement": "Take a DAO with a single choice proposal module and any voting module that is governed by its members alone, and a contract that belongs to it (a vesting contract, a token issuer, a rewards distributor, a staking contract, a reward distributor for it, an external rewards contract, a payroll factory or a roles contract), in any interleaving of calls by anybody to either. Whatever only the owner of the contract may do (canceling a vest, letting somebody mint, creating a distribution or taking the money back, changing the unstaking duration, and so on) happens only after a proposal with exactly that call among its messages was passed by the members of the DAO as its threshold demands. The DAO stays the owner, unless the members decided to nominate another owner or to renounce the ownership. Everything that is proved of the contract or of the DAO on its own holds of it in this company.", "quantifier": "every DAO, every voting module of the model, each of eight kinds of contract, every earlier history of both, every interleaving of calls, every reading of message bytes", "why_tests_cant": "Tests call an owned contract with a fixed owner address; that with a DAO as owner no interleaving of calls to the DAO and to the contract lets anybody use the owner's rights without a vote is a statement about all histories of both.", "anchors": ["contracts/dao-dao-core/src/contract.rs:execute_proposal_hook", "contracts/external/cw-vesting/src/contract.rs:execute_cancel_contract", "contracts/external/cw-tokenfactory-issuer/src/execute.rs:set_minter", "contracts/distribution/dao-rewards-distributor/src/contract.rs:execute_withdraw", "contracts/staking/cw20-stake/src/contract.rs:execute_update_config"]}
{"id": "C123", "title": "The members of a DAO can always use what belongs to it", "statement": "Take a DAO and a contract that belongs to it, in any state they can reach. Members whose stakes suffice for the threshold can in any later block propose a call of the contract, vote yes, and once the voting period is over anybody who may execute can execute it: every one of these calls succeeds, and the contract is called by the DAO, if it accepts that call in that state. For a vesting contract this means that the vest is canceled, its recipient gets exactly what has vested by then and all the rest goes to the DAO; for a token issuer, that the allowance of a minter is what was proposed. Nobody can stop this: if members with a decisive share of the power stand by their yes, it holds whatever everybody else does.", "quantifier": "every reachable state of the DAO and the contract, every set of members, every threshold, every call of the contract, every later block, every behaviour of everybody else", "why_tests_cant": "That the members can use the rights of their DAO from every state is a statement about all histories, sets of members and blocks; a test shows one.", "anchors": ["contracts/dao-dao-core/src/contract.rs:execute_proposal_hook", "contracts/proposal/dao-proposal-single/src/contract.rs:execute_execute", "contracts/external/cw-vesting/src/contract.rs:execute_cancel_contract", "contracts/external/cw-tokenfactory-issuer/src/execute.rs:set_minter"]}
{"id": "C124", "title": "The rules and the membership of a DAO change only as its members decide", "statement": "Take a DAO with a single choice proposal module and any voting module that is governed by its members alone. The configuration of the proposal module (threshold, voting period, who may execute, whether votes can be changed, veto), who may propose and who is told of proposals and votes change only by a call that the members decided on, in a proposal passed as the threshold then demanded, except that a listener or a pre-propose module that fails is removed automatically. The unstaking duration, the active threshold and the listeners of the token, NFT and oNFT voting modules and the active threshold of the cw20 voting module change only by such a call. In a DAO over a group of which it is the admin, and in a DAO of roles of which it is the owner, nothing of the membership changes but by such a call; for a group, unless the members decided to let somebody else be the admin.", "quantifier": "every voting module, every history of the DAO in any interleaving of calls by anybody, every event of it", "why_tests_cant": "A test changes a configuration as one stranger and sees a refusal; that no interleaving of proposals, votes, executions, staking and direct calls changes the rules without a passed proposal holds for all histories.", "anchors": ["contracts/proposal/dao-proposal-single/src/contract.rs:execute_update_config", "contracts/proposal/dao-proposal-single/src/contract.rs:execute_update_proposal_creation_policy", "contracts/voting/dao-voting-token-staked/src/contract.rs:execute_update_config", "contracts/voting/dao-voting-token-staked/src/contract.rs:execute_update_active_threshold", "contracts/voting/dao-voting-cw721-staked/src/contract.rs:execute_update_config", "contracts/voting/dao-voting-onft-staked/src/contract.rs:execute_update_config", "contracts/voting/dao-voting-cw20-staked/src/contract.rs:execute_update_active_threshold", "contracts/external/cw721-roles/src/contract.rs:execute", "contracts/dao-dao-core/src/contract.rs:execute_proposal_hook"]}
{"id": "C125", "title": "The members of a DAO can always change its rules and its membership", "statement": "Take a DAO with a single choice proposal module and any voting module, governed by its members alone, in any state it can reach. Members whose stakes suffice for the threshold can in any later block propose a call of one of its own modules, vote yes, and after the voting period have it executed: every one of these calls succeeds and the module is called by the DAO. Any sound configuration of the proposal module takes effect this way. In a DAO over a group of which it is the admin, those to be removed have no votes afterwards, those to be added have the weights proposed and everybody else has what they had; in a DAO of roles, the new role adds its weight to its holder and changes nobody else's.", "quantifier": "every voting module, every reachable state, every set of members with enough stake, every call, configuration, list of members and role", "why_tests_cant": "A test changes the members of one group from one state; that a majority can do it from every reachable state holds for all histories.", "anchors": ["contracts/proposal/dao-proposal-single/src/contract.rs:execute_update_config", "contracts/voting/dao-voting-cw4/src/contract.rs:instantiate", "contracts/external/cw721-roles/src/contract.rs:execute_mint", "contracts/dao-dao-core/src/contract.rs:execute_proposal_hook"]}
{"id": "C126", "title": "Periods that are accepted can be waited for", "statement": "Whatever voting period, unstaking period or veto timelock a contract accepts, the end of the period can be computed: it never makes proposing, unstaking or the status of a proposal fail. In particular the limits of the 64 bit clock do not change what the other properties say.", "quantifier": "all durations, configurations, blocks, calls and histories of the three proposal modules and the four staking contracts; all whole DAOs over any voting module", "why_tests_cant": "A test uses durations of days; the failure needs a duration near the limit of the clock, and that a DAO is then stuck for ever is a statement about all later histories.", "anchors": ["packages/dao-voting/src/duration.rs:validate_duration", "packages/dao-voting/src/voting.rs:validate_voting_period", "packages/dao-voting/src/veto.rs:VetoConfig::validate", "contracts/proposal/dao-proposal-single/src/contract.rs:execute_propose", "contracts/proposal/dao-proposal-multiple/src/contract.rs:execute_propose", "contracts/proposal/dao-proposal-condorcet/src/contract.rs:execute_propose", "contracts/staking/cw20-stake/src/contract.rs:execute_unstake"]}
{"id": "C127", "title": "Everything a DAO owns is used as its members decide", "statement": "A DAO may have any number of proposal modules of all kinds, and own any number of payrolls, token issuers, reward distributors, staking contracts, payroll factories and roles contracts. Each of these contracts goes on as it would by itself, and they do not disturb each other. Whatever is said to one of them in the name of the DAO was decided by its members in one of its proposal modules (or said at the founding); such a contract stays with the DAO unless the members decided to give it away, and what only the owner may do is done on such a decision. What the members have decided about a contract, in whichever module, anyone who may execute can have carried out.", "quantifier": "all voting modules, all families of contracts of the eight kinds, of any size, all ways to encode their calls as messages, all histories in which the DAO keeps its voting module, has no outside admin and its modules are those it created", "why_tests_cant": "A test has one module and one contract; that contracts and modules of several kinds together open no other way to use a contract, and do not interfere, is about all families and all their interleavings.", "anchors": ["contracts/dao-dao-core/src/contract.rs:execute_proposal_hook", "contracts/proposal/dao-proposal-single/src/contract.rs:execute_execute", "contracts/proposal/dao-proposal-multiple/src/contract.rs:execute_execute", "contracts/proposal/dao-proposal-condorcet/src/contract.rs:execute_execute", "contracts/external/cw-vesting/src/contract.rs:execute", "contracts/external/cw-tokenfactory-issuer/src/contract.rs:execute", "contracts/external/cw721-roles/src/contract.rs:execute"]}
{"id": "C128", "title": "The rules and the membership of a DAO with any proposal modules change only as its members decide", "statement": "Take a DAO with any number of proposal modules of all three kinds and any voting module, governed by its members alone. Whatever the DAO says to one of its proposal modules, to its voting module or to a contract behind that, its members decided in one of its proposal modules that it be said (or it was to be said at the founding). A proposal module stays of its kind, and its configuration, who may propose in it and who is told change only by a call of it that was decided on like this, except that a listener or a pre-propose module that fails is removed automatically. The same goes for the unstaking duration, the active threshold and the listeners of the staking voting modules, and for everything about the members of a group of which the DAO is the admin or of roles which it owns; for a group, unless the members decided to let somebody else be the admin.", "quantifier": "every voting module, every number of proposal modules of every kind, every history of the DAO in any interleaving of calls by anybody, every event of it", "why_tests_cant": "A test changes the rules of one module through itself; that several modules of different kinds, deciding about each other, open no other way to change the rules of any of them holds for all interleavings.", "anchors": ["contracts/proposal/dao-proposal-single/src/contract.rs:execute_update_config", "contracts/proposal/dao-proposal-multiple/src/contract.rs:execute_update_config", "contracts/proposal/dao-proposal-condorcet/src/contract.rs:execute_set_config", "contracts/voting/dao-voting-token-staked/src/contract.rs:execute_update_config", "contracts/voting/dao-voting-cw721-staked/src/contract.rs:execute_update_config", "contracts/voting/dao-voting-onft-staked/src/contract.rs:execute_update_config", "contracts/voting/dao-voting-cw20-staked/src/contract.rs:execute_update_active_threshold", "contracts/external/cw721-roles/src/contract.rs:execute", "contracts/dao-dao-core/src/contract.rs:execute_proposal_hook"]}
{"id": "C129", "title": "What the members decide about rules and membership in any proposal module takes effect", "statement": "Take a DAO with any number of proposal modules of all three kinds and any voting module, governed by its members alone, in any state it can reach, in which the members have decided in one of the modules on a call of its own modules. Whoever may execute the proposal can have the call made, in three transactions that all succeed. Any sound configuration of any of its proposal modules, of whichever kind and whether or not the decision was made in that module, takes effect this way, and all other modules keep theirs. In a DAO over a group of which it is the admin, those to be removed have no votes afterwards, those to be added have the weights decided and everybody else has what they had; in a DAO of roles, the new role adds its weight to its holder and changes nobody else's.", "quantifier": "every voting module, every number of proposal modules of every kind, every reachable state, every decided proposal, every call, configuration, list of members and role", "why_tests_cant": "A test configures one module from one state; that every decision of every kind of module about every other is carried out holds for all reachable states.", "anchors": ["contracts/proposal/dao-proposal-single/src/contract.rs:execute_update_config", "contracts/proposal/dao-proposal-multiple/src/contract.rs:execute_update_config", "contracts/proposal/dao-proposal-condorcet/src/contract.rs:execute_set_config", "contracts/voting/dao-voting-token-staked/src/contract.rs:execute_update_config", "contracts/voting/dao-voting-cw721-staked/src/contract.rs:execute_update_config", "contracts/voting/dao-voting-onft-staked/src/contract.rs:execute_update_config", "contracts/voting/dao-voting-cw20-staked/src/contract.rs:execute_update_active_threshold", "contracts/external/cw721-roles/src/contract.rs:execute", "contracts/dao-dao-core/src/contract.rs:execute_proposal_hook"]}
{"id": "C130", "title": "The treasury of a DAO is spent only as its members decide", "statement": "The coins and tokens of a DAO are what it had at its founding and what it received since, less what it paid and what others took. What it pays, the coins it attaches to messages, the funds it gives to modules and the allowances it gives all go back to a decision of its members in one of its proposal modules, or to its founding. Nobody can take its native coins. Of its cw20 tokens, a spender can take no more than the DAO allowed them to in all. So a coin or token that the members never decided to spend, or to let others take, only grows.", "quantifier": "all voting modules, all numbers and kinds of proposal modules, all ways messages use coins and tokens, all other accounts doing anything with coins and tokens, all histories in which the DAO keeps its voting module, has no outside admin and its modules are those it created", "why_tests_cant": "Tests send a few payments; that no sequence of calls by anybody, in any order, across all proposal modules, moves an asset of the DAO without a decision is a statement over all histories.", "anchors": ["contracts/dao-dao-core/src/contract.rs", "packages/dao-interface/src/state.rs", "contracts/proposal/dao-proposal-single/src/contract.rs", "contracts/proposal/dao-proposal-multiple/src/contract.rs", "contracts/proposal/dao-proposal-condorcet/src/contract.rs"]}
{"id": "C131", "title": "The members of a DAO can always spend its treasury", "statement": "Whatever the members decide in any of the proposal modules to do with the coins and tokens of the DAO can be carried out by anyone who may execute, whenever the DAO has enough: the execution and the sending of each message succeed. When it is payments, each receiver gets exactly what was decided, the DAO has that much less, and nothing else changes hands.", "quantifier": "all voting modules, all reachable states of the DAO and its modules, all decided proposals that nobody may veto, all lists of payments the treasury covers", "why_tests_cant": "Tests execute a few proposals in fresh DAOs; that no history can leave the DAO in a state in which decided payments fail is a statement over all reachable states.", "anchors": ["contracts/dao-dao-core/src/contract.rs", "contracts/proposal/dao-proposal-single/src/contract.rs", "contracts/proposal/dao-proposal-multiple/src/contract.rs", "contracts/proposal/dao-proposal-condorcet/src/contract.rs"]}
{"id": "C132", "title": "An upgraded contract shows the latest version it was upgraded to", "statement": "Upgrading a contract to code of a later version makes it show that version, upgrading it to code of an earlier one does not make it show less, and neither changes what the contract has recorded. A rewards distributor moreover refuses code of another contract and code that is not of a later version.", "quantifier": "all versions (any three numbers), all sequences of upgrades to code of any version and of any contract, all that may be recorded", "why_tests_cant": "The comparison goes wrong only for numbers with different numbers of digits, which no version so far has; a test knows only the version it is compiled with.", "anchors": ["contracts/voting/dao-voting-cw4/src/contract.rs: migrate", "contracts/voting/dao-voting-token-staked/src/contract.rs: migrate", "contracts/external/cw-tokenfactory-issuer/src/contract.rs: migrate", "contracts/distribution/dao-rewards-distributor/src/contract.rs: migrate"]}
{"id": "C133", "title": "A DAO that swaps tokens gets what was agreed or has its own back", "statement": "When DAOs swap tokens through a token swap, the part of a DAO goes into the swap, comes out of it again or is paid to anybody else only as the members of that DAO decided. Until both parties have provided, a DAO has everything it had or lacks exactly what it promised; once both have, it has exactly that much less and exactly what the other promised more. What members decide about the swap is acted on there and cannot get lost on the way: whenever they decide to provide and the DAO has enough, that succeeds, and completes the swap if the other has provided; and as long as the other has not, they can decide to have their part back.", "quantifier": "any number of DAOs with any voting modules and any number of proposal modules of each kind, any two parties (DAOs or other accounts), any terms, all histories of all of them together", "why_tests_cant": "Tests swap between two wallets with fixed amounts; that no interleaving of the decisions of several DAOs, withdrawals and other payments breaks the books is a statement over all histories.", "anchors": ["contracts/external/cw-token-swap/src/contract.rs", "contracts/external/cw-token-swap/src/state.rs", "contracts/dao-dao-core/src/contract.rs", "contracts/proposal/dao-proposal-single/src/contract.rs"]}
{"id": "C134", "title": "In a network of DAOs everything sent goes back to decisions of members, and orders reach the last DAO", "statement": "Take any number of DAOs of which some are the admins of others, in chains or circles of any length. Whatever one of them ever sends goes back, through however many admins, to what the members of one of the DAOs decided, to a founding, or to an outside account that is admin. What a DAO says to another is not lost, and arrives in the name of the one that said it. A DAO stays the admin of another until it tells the other to take a different one. An order of the admin is carried out at once, also by a paused DAO; and an order to pass on an order is, along a chain of any length, so that once the members of the topmost DAO have decided it, anyone who may execute can have the last DAO send the messages ordered, in order and before all else, while nobody else has more or less to send. In this way they can also have the last DAO do to itself whatever it may do, such as replacing its modules, and the admin of a paused DAO can end its pause.", "quantifier": "any finite number of DAOs that are as in C95 (each keeps its voting module, uses proposal modules it created, takes percentages of at most nine decimals and has a voting module that answers for the height when asked without one), any number of proposal modules of each kind, any admin relation among them and outside accounts, chains of command of any length, all histories of all of them together", "why_tests_cant": "Tests have one DAO and at most one SubDAO; chains of any length and interleavings of the decisions of many DAOs are statements over all networks and all histories.", "anchors": ["contracts/dao-dao-core/src/contract.rs: execute_admin_msgs; execute_proposal_hook; execute_nominate_admin; execute_accept_admin_nomination", "contracts/proposal/dao-proposal-single/src/contract.rs: execute_execute"]}
{"id": "C135", "title": "A DAO becomes the SubDAO of another, or ceases to be, only if those concerned want it", "statement": "In a network of DAOs, a DAO becomes the SubDAO of another only when the other has decided to accept, after it was nominated by whoever was the admin until then; if that was a DAO (the same one or a third), by its own decision. It ceases to be the SubDAO only when its admin decided to let it go, or had decided to nominate somebody else, who then accepted. Conversely, if a DAO that is its own admin decides to nominate another, and the other decides to accept while the first is not paused, it becomes the SubDAO of the other, and nothing else of it changes.", "quantifier": "any finite number of DAOs that are as in C95 (each keeps its voting module, uses proposal modules it created, takes percentages of at most nine decimals and has a voting module that answers for the height when asked without one), any number of proposal modules of each kind, any admin relation among them and outside accounts, all histories of all of them together", "why_tests_cant": "Which interleavings of nominations, withdrawals, acceptances and decisions of several DAOs end with a new admin is a statement over all histories; tests do a single handover between wallets.", "anchors": ["contracts/dao-dao-core/src/contract.rs: execute_nominate_admin; execute_accept_admin_nomination; execute_withdraw_admin_nomination; execute_admin_msgs"]}
{"id": "C136", "title": "A DAO that is a member of another DAO votes there as its own members decide", "statement": "When DAOs are members of other DAOs, whatever a DAO without an outside admin says to the core or to a proposal module of another DAO goes back to its founding or to proposals its own members have decided for, and nobody else can speak in its name. In particular what counts as its vote on a proposal of another DAO, whatever the kind of module, is what its members decided: to vote so, or to make the proposal with that vote. The one exception is a pre-propose module of the other DAO that hands in a proposal with a vote in its name. Conversely, if its members have decided that it votes, it had power when the proposal was made, the voting period is not over and it has not voted yet (or may change its vote and does), then after the execution of that decision the vote is cast and counts. What it says to another DAO is not lost on the way.", "quantifier": "any finite number of DAOs with any voting modules and any number of proposal modules of each kind, that may be members of each other in any way (also in circles); all histories of all of them together", "why_tests_cant": "Who can cause a vote in the name of a DAO, over all interleavings of what happens in any number of DAOs, is a statement over all histories; tests vote with wallets.", "anchors": ["contracts/dao-dao-core/src/contract.rs: execute_proposal_hook; execute_admin_msgs", "contracts/proposal/dao-proposal-single/src/contract.rs: execute_vote; execute_propose", "contracts/proposal/dao-proposal-multiple/src/contract.rs: execute_vote; execute_propose", "contracts/proposal/dao-proposal-condorcet/src/contract.rs: execute_vote"]}
