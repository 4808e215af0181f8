{
 "claims": [
  {
   "property": "C01",
   "status": "proved",
   "theorems": [
    "Verif.Voting.C01_pass_complete",
    "Verif.Voting.C01_pass_sound",
    "Verif.Voting.C01_pass_iff",
    "Verif.Voting.C01_pass_exact",
    "Verif.Voting.C01_fail_iff",
    "Verif.Voting.C01_majority_pass",
    "Verif.Voting.C01_majority_fail",
    "Verif.Voting.C01_no_votes"
   ],
   "note": "Exact characterisation of pass and fail for every decimal; the documented soundness, completeness and nine-decimal exactness follow."
  },
  {
   "property": "C02",
   "status": "proved",
   "theorems": [
    "Verif.Voting.C02_total",
    "Verif.Voting.C02_needs_validation"
   ],
   "note": "All validated thresholds, all 128-bit counts."
  },
  {
   "property": "C03",
   "status": "proved",
   "theorems": [
    "Verif.Single.C03_early_pass_final",
    "Verif.Single.C03_early_pass_final_status",
    "Verif.Single.C03_needs_yes"
   ],
   "note": "For every valid threshold, tally and total power: an open proposal reported passed before expiry is passed under every continuation of votes within the remaining power. C03_needs_yes records the zero-vote corner the yes hypothesis excludes."
  },
  {
   "property": "C04",
   "status": "partial",
   "theorems": [
    "Verif.Single.C04_early_reject_right",
    "Verif.Single.C04_early_reject_final_partial",
    "Verif.Single.C04_false_in_general"
   ],
   "note": "Early rejection is right (the exact rule cannot be met); it is final for thresholds with at most nine decimals. The unrestricted statement is false of the code: C04_false_in_general."
  },
  {
   "property": "C05",
   "status": "partial",
   "theorems": [
    "Verif.Single.C05_never_both_partial",
    "Verif.Single.C05_rejected_not_met",
    "Verif.Single.C05_false_in_general"
   ],
   "note": "Never both for thresholds with at most nine decimals; C05_false_in_general is a concrete counterexample for finer thresholds."
  },
  {
   "property": "C06",
   "status": "proved",
   "theorems": [
    "Verif.Single.C06_tally_is_ballot_sum",
    "Verif.Single.history_plays",
    "Verif.Single.history_reach"
   ],
   "note": "Inductive invariant over every history; ballots and tallies recomputed independently in Spec.ballotSum."
  },
  {
   "property": "C07",
   "status": "proved",
   "theorems": [
    "Verif.Single.C07_one_ballot",
    "Verif.Single.C07_ballot_permanent",
    "Verif.Single.C07_second_vote_refused",
    "Verif.Single.C07_vote_recorded",
    "Verif.Single.C07_only_the_voter",
    "Verif.Multiple.C07_one_ballot",
    "Verif.Multiple.C07_ballot_permanent",
    "Verif.Multiple.C07_second_vote_refused",
    "Verif.Multiple.C07_vote_recorded",
    "Verif.Multiple.C07_only_the_voter",
    "Verif.Single.C07_last_vote",
    "Verif.Single.C07_tally_is_last_votes",
    "Verif.Multiple.C07_last_vote",
    "Verif.Multiple.C07_tally_is_last_votes",
    "Verif.Single.history_reach",
    "Verif.Multiple.history_reach"
   ],
   "note": "One ballot per address, permanence over every continuation, refusal of a second vote, what a vote records, and who can change a ballot. Both proposal modules."
  },
  {
   "property": "C08",
   "status": "proved",
   "theorems": [
    "Verif.Single.C08_votes_within_power",
    "Verif.Single.history_stable",
    "Verif.Multiple.C08_votes_within_power",
    "Verif.Multiple.history_stable"
   ],
   "note": "Under the stated consistency of the voting module (StablePowers); history_stable is a history meeting it."
  },
  {
   "property": "C09",
   "status": "proved",
   "theorems": [
    "Verif.Single.C09_lifecycle",
    "Verif.Single.C09_reported",
    "Verif.Single.C09_final",
    "Verif.Single.history_plays",
    "Verif.Single.history_reach"
   ],
   "note": "Recorded statuses follow Spec.Edge over every history; reported statuses are at most one edge ahead; four statuses are final. A failing execution is one step (execute and its reply), so Executed -> ExecutionFailed is not a separate edge."
  },
  {
   "property": "C10",
   "status": "proved",
   "theorems": [
    "Verif.Single.C10_execute_once",
    "Verif.Single.C10_only_execute_sends",
    "Verif.Single.C10_messages_unaltered",
    "Verif.Single.C10_executed_passed",
    "Verif.Single.C10_executed_met",
    "Verif.Single.C10_pass_complete",
    "Verif.Single.C10_pass_iff",
    "Verif.Single.history_stable",
    "Verif.Single.C10_executed_nearly",
    "Verif.Single.C10_sends_what_was_proposed"
   ],
   "note": "At most one execution; only executions send messages, exactly those given when the proposal was made (C10_sends_what_was_proposed); whenever a proposal is executed its tally meets its threshold but for less than a billionth of a vote, for every threshold without exception (C10_executed_nearly), and exactly with at most nine decimals (C10_executed_met)."
  },
  {
   "property": "C100",
   "status": "proved",
   "theorems": [
    "Verif.TokenStaked.C100_hooks",
    "Verif.TokenStaked.C100_last",
    "Verif.TokenStaked.C100_can",
    "Verif.NftStaked.C100_hooks",
    "Verif.NftStaked.C100_last",
    "Verif.NftStaked.C100_can",
    "Verif.Cw20Stake.C100_hooks",
    "Verif.Cw20Stake.C100_last",
    "Verif.Cw20Stake.C100_can",
    "Verif.OnftStaked.C100_hooks",
    "Verif.OnftStaked.C100_last",
    "Verif.Roles.C100_hooks",
    "Verif.Single.C100_hooks",
    "Verif.Single.C100_last",
    "Verif.Single.C100_can",
    "Verif.Multiple.C100_hooks",
    "Verif.Multiple.C100_last",
    "Verif.Multiple.C100_can",
    "Verif.Condorcet.C100_last",
    "Verif.PrePropose.C100_hooks",
    "Verif.PrePropose.C100_last",
    "Verif.PrePropose.C100_approval_hooks",
    "Verif.PrePropose.C100_approval_last",
    "Verif.OnftStaked.C100_can",
    "Verif.Roles.C100_can",
    "Verif.PrePropose.C100_can",
    "Verif.PrePropose.C100_policy",
    "Verif.PrePropose.C100_approval_policy",
    "Verif.PrePropose.C100_policy_example"
   ],
   "note": "Spec/Settings tells receivers and values from the list of successful calls alone; Spec/SettingsOf says per contract which call does what.  Who may submit to a pre-propose module is what its DAO said last (C100_policy), and exactly which changes it can make is C100_can."
  },
  {
   "property": "C101",
   "status": "proved",
   "theorems": [
    "Verif.Single.C101_instantiate",
    "Verif.Single.C101_update",
    "Verif.Single.C101_always",
    "Verif.Single.C101_no_period",
    "Verif.Multiple.C101_instantiate",
    "Verif.Multiple.C101_update",
    "Verif.Multiple.C101_always",
    "Verif.Multiple.C101_no_period",
    "Verif.Condorcet.C101_instantiate",
    "Verif.Condorcet.C101_update",
    "Verif.Condorcet.C101_always"
   ],
   "note": "Finding: a voting period of nothing is accepted (C101_no_period): such a proposal can never be voted on. For single choice an absolute percentage below a billionth is excluded there: rounding lets it pass without a vote (C03_needs_yes)."
  },
  {
   "property": "C102",
   "status": "partial",
   "theorems": [
    "Verif.FundedDao.C102_share",
    "Verif.FundedDao.C102_fixed",
    "Verif.FundedDao.C102_solvent",
    "Verif.FundedDao.C102_claim",
    "Verif.FundedDao.C102_at_creation",
    "Verif.FundedDao.C102_exhausts",
    "Verif.FundedDao.Example.C102_example",
    "Verif.FundedDao.Example.C102_example_again",
    "Verif.FundedDao.Example.C102_future_witness",
    "Verif.FundedDao.Example.C102_totals_witness"
   ],
   "note": "Full for a distributor created for the height of its own block (C102_at_creation, C102_exhausts). In general the share is relative to the total at the height of the creation, and the height must not be in the future (C102_share); payments are covered if the totals at the distribution heights do not exceed the one at the creation (C102_solvent). Both conditions are needed: C102_future_witness (the same coins claim twice) and C102_totals_witness (one member takes all)."
  },
  {
   "property": "C103",
   "status": "proved",
   "theorems": [
    "Verif.Single.C103_proposals",
    "Verif.Single.C103_reverse",
    "Verif.Single.C103_votes",
    "Verif.Single.C103_votes_power",
    "Verif.Multiple.C103_proposals",
    "Verif.Multiple.C103_reverse",
    "Verif.Multiple.C103_votes",
    "Verif.Multiple.C103_votes_power",
    "Verif.Listings.C103_once",
    "Verif.Listings.C103_token_stakers",
    "Verif.Listings.C103_cw20_stakers",
    "Verif.Listings.C103_members",
    "Verif.Listings.C103_nfts",
    "Verif.Listings.C103_submissions",
    "Verif.Listings.C103_example",
    "Verif.Listings.C103_example_votes",
    "Verif.Listings.C103_example_stakers",
    "Verif.Listings.C103_limit_witness",
    "Verif.Listings.C103_onfts"
   ],
   "note": "A limit that is a multiple of 2^32 gives empty pages of proposals and votes, because the 64 bit limit is cut to 32 bits on the chain (C103_limit_witness): the statement leaves those limits out. Stakers who took everything out stay listed with a stake of zero (C103_example_stakers). That pages of proposals always answer uses that the voting module answers consistently.  The list of staked NFTs of dao-voting-onft-staked is C103_onfts."
  },
  {
   "property": "C104",
   "status": "proved",
   "theorems": [
    "Verif.WholeMulti.C104_never_lost",
    "Verif.WholeMulti.C104_carried_out",
    "Verif.WholeMulti.C104_vote_accepted",
    "Verif.WholeMulti.C104_unstoppable",
    "Verif.WholeMulti.C104_majority_acts",
    "Verif.WholeMulti.C104_new_total",
    "Verif.WholeMulti.C104_zero_period",
    "Verif.WholeMulti.C104_half_decides",
    "Verif.WholeMulti.C104_half_needed",
    "Verif.WholeMulti.Example.C104_example",
    "Verif.WholeMulti.Example.C104_example_unstoppable",
    "Verif.WholeMulti.Example.C104_witness_zero"
   ],
   "note": "For every voting module of C81 (Lawful), from every reachable state. Stated limits: the DAO is not paused, its proposal module stays enabled, the DAO keeps its voting module and the module its DAO, the voting period is not zero (C104_zero_period shows what happens otherwise). For a proposal made earlier: the total recorded with it is the total of its block (C81 says for which voting modules this always holds, and C104_new_total shows it for the new proposal of C104_majority_acts)."
  },
  {
   "property": "C105",
   "status": "proved",
   "theorems": [
    "Verif.WholeCondorcet.C105_never_lost",
    "Verif.WholeCondorcet.C105_carried_out",
    "Verif.WholeCondorcet.C105_decides",
    "Verif.WholeCondorcet.C105_unstoppable",
    "Verif.WholeCondorcet.C105_majority_acts",
    "Verif.WholeCondorcet.C105_new_total",
    "Verif.WholeCondorcet.C105_half_needed",
    "Verif.WholeCondorcet.C105_zero_period",
    "Verif.WholeCondorcet.Example.C105_example",
    "Verif.WholeCondorcet.Example.C105_example_unstoppable",
    "Verif.WholeCondorcet.Example.C105_witness_zero"
   ],
   "note": "For every voting module of C94 (Lawful), from every reachable state. Stated limits: the DAO is not paused, its proposal module stays enabled, the DAO keeps its voting module, the voting period is not zero (C105_zero_period shows what happens otherwise), fewer than 2^32 proposals and pairs of options. For a proposal made earlier: the total recorded with it is the total of its block (C94 says for which voting modules this always holds, and C105_new_total shows it for the new proposal of C105_majority_acts)."
  },
  {
   "property": "C106",
   "status": "proved",
   "theorems": [
    "Verif.DaoCore.C106_pause",
    "Verif.DaoCore.C106_pause_last",
    "Verif.DaoCore.C106_pause_ends",
    "Verif.DaoCore.C106_modules",
    "Verif.DaoCore.C106_active",
    "Verif.DaoCore.C106_dump",
    "Verif.DaoCore.C106_new_voting",
    "Verif.DaoCore.C106_lists",
    "Verif.DaoCore.C106_example"
   ],
   "note": "Pages are those of a client that asks until a page is empty (Spec/Listings). C106_active asks that the DAO is not paused for ever, which C106_pause_ends gives. A DAO migrated from the old version is supposed to have a voting module."
  },
  {
   "property": "C107",
   "status": "partial",
   "theorems": [
    "Verif.DaoCore.C107_balances_partial",
    "Verif.DaoCore.C107_blocked",
    "Verif.DaoCore.C107_repair",
    "Verif.DaoCore.C107_example"
   ],
   "note": "Proved while every listed token answers. Missing is that they do: with automatic adding on, any account can put itself on the list with one call, and Cw20Balances without a limit then fails (C107_blocked, for every reachable state) until the DAO takes it off (C107_repair)."
  },
  {
   "property": "C108",
   "status": "proved",
   "theorems": [
    "Verif.FundDistributor.C108_entitlements",
    "Verif.FundDistributor.C108_claim",
    "Verif.FundDistributor.C108_pool",
    "Verif.FundDistributor.C108_example",
    "Verif.FundDistributor.C43_claim_live"
   ],
   "note": "Under the same conditions on the answers of the voting module as C43 and C44; C43_claim_live says that the claim goes through once the funding period is over."
  },
  {
   "property": "C109",
   "status": "proved",
   "theorems": [
    "Verif.Owners.C109_stake",
    "Verif.Owners.C109_distributor",
    "Verif.Owners.C109_external",
    "Verif.Owners.C109_rewards",
    "Verif.Owners.C109_issuer",
    "Verif.Owners.C109_vesting",
    "Verif.Owners.C109_payroll",
    "Verif.Owners.C109_roles",
    "Verif.Owners.C109_renounced",
    "Verif.Owners.C109_nominated",
    "Verif.Owners.C109_example"
   ],
   "note": "cw_ownable is an external crate; its three actions are modelled in Base/Ownable. The code of each contract is modelled, so that no other call touches the ownership is proved of it."
  },
  {
   "property": "C11",
   "status": "proved",
   "theorems": [
    "Verif.Single.C11_execute_after_timelock",
    "Verif.Single.C11_veto_conditions",
    "Verif.Single.C11_vetoed_never_executed",
    "Verif.Single.history_plays",
    "Verif.Single.history_reach",
    "Verif.Multiple.C11_execute_after_timelock",
    "Verif.Multiple.C11_veto_conditions",
    "Verif.Multiple.C11_vetoed_never_executed"
   ],
   "note": "Over every history."
  },
  {
   "property": "C110",
   "status": "proved",
   "theorems": [
    "Verif.Owners.C110_stake",
    "Verif.Owners.C110_distributor",
    "Verif.Owners.C110_external",
    "Verif.Owners.C110_rewards",
    "Verif.Owners.C110_issuer",
    "Verif.Owners.C110_vesting",
    "Verif.Owners.C110_payroll"
   ],
   "note": "The result state is given in full, but for vests, where chain time also pays back ended unbondings. The role contracts are C67."
  },
  {
   "property": "C111",
   "status": "proved",
   "theorems": [
    "Verif.DepositDao.C111_submitted",
    "Verif.DepositDao.C111_mandate",
    "Verif.DepositDao.C111_deposit",
    "Verif.DepositDao.Example.C111_example",
    "Verif.DepositDao.C111_attached",
    "Verif.DepositDao.C111_hook_fails",
    "Verif.DepositDao.Example.C111_attached_example"
   ],
   "note": "Composition of the whole DAO of C80 with the pre-propose module of C52. The exact threshold is stated for percentages of up to nine decimals, the approximate one for all, as in C80. The messages of one transaction are separate steps of the model, see DESIGN.md."
  },
  {
   "property": "C112",
   "status": "proved",
   "theorems": [
    "Verif.DepositDao.C112_members_act",
    "Verif.DepositDao.C112_unstoppable",
    "Verif.DepositDao.Example.C112_example"
   ],
   "note": "Extends C87 to proposals through the pre-propose module. Assumes that nothing of an earlier transaction is still to be delivered, that no balance sum overflows, and that the voting period is not over already in the block it starts."
  },
  {
   "property": "C113",
   "status": "proved",
   "theorems": [
    "Verif.TwoHouses.C113_proposals",
    "Verif.TwoHouses.C113_mandate",
    "Verif.TwoHouses.Example.C113_example"
   ],
   "note": "Both DAOs are the whole DAOs of C80 (core, proposal module, any lawful voting module, see C80_token_staked and its siblings), connected by the contracts of C54 and C55. Decided is exact for thresholds of up to nine decimals and off by less than one unit of voting power otherwise, see C10."
  },
  {
   "property": "C114",
   "status": "proved",
   "theorems": [
    "Verif.TwoHouses.C114_members_act",
    "Verif.TwoHouses.Example.C114_example"
   ],
   "note": "Proposals with the default configuration of the approver (no veto configured in either DAO); the votes are cast in the block of the proposal and the execution comes after the voting period."
  },
  {
   "property": "C115",
   "status": "partial",
   "theorems": [
    "Verif.FanDao.C115_created",
    "Verif.FanDao.C115_creates_iff",
    "Verif.FanDao.C115_backed",
    "Verif.FanDao.C115_stake",
    "Verif.FanDao.C115_unstake",
    "Verif.FanDao.C115_claim",
    "Verif.FanDao.C115_supply",
    "Verif.FanDao.C115_minter",
    "Verif.FanDao.C115_ceiling",
    "Verif.FanDao.C115_active_iff",
    "Verif.FanDao.C115_can_activate_partial",
    "Verif.FanDao.Example.C115_example",
    "Verif.FanDao.Example.C115_refused",
    "Verif.FanDao.Example.C115_history",
    "Verif.FanDao.Example.C115_can_activate",
    "Verif.FanDao.Example.C115_born_locked"
   ],
   "note": "Everything stated is proved. Partial only in that one would like every accepted threshold to be reachable by the holders: false for percentages when coins are made for the DAO (C115_born_locked); C115_can_activate_partial is the rest."
  },
  {
   "property": "C116",
   "status": "proved",
   "theorems": [
    "Verif.DepositMulti.C116_submitted",
    "Verif.DepositMulti.C116_mandate",
    "Verif.DepositMulti.C116_deposit",
    "Verif.DepositMulti.C116_totals",
    "Verif.DepositMulti.C116_totals_partial",
    "Verif.DepositMulti.Example.C116_example",
    "Verif.DepositMulti.C116_attached",
    "Verif.DepositMulti.C116_hook_fails",
    "Verif.DepositMulti.Example.C116_attached_example"
   ],
   "note": "Composition of the whole DAO of C81 with the pre-propose module of C52. C116_totals: the assumption of C116_mandate on the totals always holds with the four staking modules; C116_totals_partial: with dao-voting-cw4 and dao-voting-cw721-roles if the membership does not change in the block of a proposal before it is made, without which C81 is false of the code. The exact quorum is stated for percentages of up to nine decimals, the approximate one for all, as in C81. The messages of one transaction are separate steps of the model, see DESIGN.md."
  },
  {
   "property": "C117",
   "status": "proved",
   "theorems": [
    "Verif.DepositMulti.C117_members_act",
    "Verif.DepositMulti.C117_unstoppable",
    "Verif.DepositMulti.Example.C117_example"
   ],
   "note": "Extends C104 to proposals through the pre-propose module. Assumes that nothing of an earlier transaction is still to be delivered, that no balance sum overflows, and that the voting period is not over already in the block it starts."
  },
  {
   "property": "C118",
   "status": "proved",
   "theorems": [
    "Verif.VetoDao.C118_watched",
    "Verif.VetoDao.C118_watcher",
    "Verif.VetoDao.C118_veto",
    "Verif.VetoDao.C118_executed",
    "Verif.VetoDao.C118_final",
    "Verif.VetoDao.Example.C118_example",
    "Verif.VetoDao.C118_not_dropped"
   ],
   "note": "Two whole DAOs in the sense of C80. Past: whatever happened in both before. Steady and Sole (of the vetoing DAO) as in C80: it keeps its voting module, has no outside admin and one enabled proposal module. The decision of the watched DAO is met but for less than a billionth of a vote, as in C80."
  },
  {
   "property": "C119",
   "status": "proved",
   "theorems": [
    "Verif.VetoDao.C119_members_veto",
    "Verif.VetoDao.C119_open_to_veto",
    "Verif.VetoDao.C119_waits",
    "Verif.VetoDao.C119_carried_out",
    "Verif.VetoDao.C119_in_time",
    "Verif.VetoDao.Example.C119_example",
    "Verif.VetoDao.Example.C119_example_in_time"
   ],
   "note": "For every voting module of C80 (Lawful). Stated limits as in C87: the vetoing DAO is not paused, its proposal module is enabled, lets anybody propose and has no veto of its own (C119_members_veto)."
  },
  {
   "property": "C12",
   "status": "proved",
   "theorems": [
    "Verif.Single.C12_revoting_undecided",
    "Verif.Single.C12_min_period",
    "Verif.Multiple.C12_multiple_revoting_undecided",
    "Verif.Multiple.C12_multiple_min_period",
    "Verif.Single.history_reach",
    "Verif.Multiple.history_reach"
   ],
   "note": "Revoting proposals and proposals inside the minimum voting period are never reported passed before expiry or the end of the period."
  },
  {
   "property": "C120",
   "status": "proved",
   "theorems": [
    "Verif.VetoMulti.C120_watched",
    "Verif.VetoMulti.C120_watcher",
    "Verif.VetoMulti.C120_totals",
    "Verif.VetoMulti.C120_veto",
    "Verif.VetoMulti.C120_executed",
    "Verif.VetoMulti.C120_final",
    "Verif.VetoMulti.Example.C120_example",
    "Verif.VetoMulti.C120_not_dropped"
   ],
   "note": "As C118, with the whole DAO of C81 watched. C120_executed assumes TotalsOfHeight, which C120_totals proves for the staking modules (AnswersNow, C81); with a cw4 group or cw721-roles it holds of histories in which nobody changes powers in the block of a proposal, as in C81."
  },
  {
   "property": "C121",
   "status": "proved",
   "theorems": [
    "Verif.VetoMulti.C121_members_veto",
    "Verif.VetoMulti.C121_open_to_veto",
    "Verif.VetoMulti.C121_waits",
    "Verif.VetoMulti.C121_carried_out",
    "Verif.VetoMulti.C121_in_time",
    "Verif.VetoMulti.Example.C121_example",
    "Verif.VetoMulti.Example.C121_example_in_time"
   ],
   "note": "As C119, with the whole DAO of C81 watched, and the same stated limits."
  },
  {
   "property": "C122",
   "status": "proved",
   "theorems": [
    "Verif.OwnedDao.C122_dao",
    "Verif.OwnedDao.C122_contract",
    "Verif.OwnedDao.C122_decided",
    "Verif.OwnedDao.C122_kept",
    "Verif.OwnedDao.C122_owner_acts",
    "Verif.OwnedDao.C122_vesting",
    "Verif.OwnedDao.C122_issuer",
    "Verif.OwnedDao.C122_rewards",
    "Verif.OwnedDao.C122_stake",
    "Verif.OwnedDao.C122_distributor",
    "Verif.OwnedDao.C122_external",
    "Verif.OwnedDao.C122_payroll",
    "Verif.OwnedDao.C122_roles",
    "Verif.OwnedDao.Example.C122_example",
    "Verif.OwnedDao.Example.C122_example_given_away",
    "Verif.OwnedDao.Example.C122_example_issuer",
    "Verif.OwnedDao.Example.C122_example_rewards",
    "Verif.OwnedDao.Example.C122_example_stake",
    "Verif.OwnedDao.Example.C122_example_distributor",
    "Verif.OwnedDao.Example.C122_example_external",
    "Verif.OwnedDao.Example.C122_example_payroll",
    "Verif.OwnedDao.Example.C122_example_roles",
    "Verif.OwnedDao.C122_not_dropped"
   ],
   "note": "The DAO keeps its modules and is governed by its members alone (Steady, Sole), as in C80."
  },
  {
   "property": "C123",
   "status": "proved",
   "theorems": [
    "Verif.OwnedDao.C123_carried_out",
    "Verif.OwnedDao.C123_members_use",
    "Verif.OwnedDao.C123_unstoppable",
    "Verif.OwnedDao.C123_cancel",
    "Verif.OwnedDao.C123_minter",
    "Verif.OwnedDao.Example.ready_majority",
    "Verif.OwnedDao.Example.C123_example"
   ],
   "note": "The configuration allows it: anybody may propose, no timelock, not paused, see Majority."
  },
  {
   "property": "C124",
   "status": "proved",
   "theorems": [
    "Verif.OwnRules.C124_decreed",
    "Verif.OwnRules.C124_rules",
    "Verif.OwnRules.C124_token_staked",
    "Verif.OwnRules.C124_nft_staked",
    "Verif.OwnRules.C124_onft_staked",
    "Verif.OwnRules.C124_cw20_staked",
    "Verif.OwnRules.C124_cw4",
    "Verif.OwnRules.C124_roles",
    "Verif.OwnRules.Example.C124_example_cw4",
    "Verif.OwnRules.Example.C124_example_roles",
    "Verif.OwnRules.Example.C124_example_token",
    "Verif.OwnRules.Example.C124_example_nft",
    "Verif.OwnRules.Example.C124_example_onft",
    "Verif.OwnRules.Example.C124_example_cw20",
    "Verif.OwnRules.Example.C125_example_rules"
   ],
   "note": "The DAO keeps its modules and is governed by its members alone (Steady, Sole), as in C80; what the DAO says to its modules comes off its list of messages to send (FromList)."
  },
  {
   "property": "C125",
   "status": "proved",
   "theorems": [
    "Verif.OwnRules.C125_voting",
    "Verif.OwnRules.C125_rules",
    "Verif.OwnRules.C125_members_cw4",
    "Verif.OwnRules.C125_members_roles",
    "Verif.OwnRules.Example.ready_majority",
    "Verif.OwnRules.Example.C125_example_rules",
    "Verif.OwnRules.Example.C125_example_cw4",
    "Verif.OwnRules.Example.C125_example_roles"
   ],
   "note": "The configuration allows it: anybody may propose, no timelock, not paused, see Majority of C123; the accounts that act are not the DAO itself."
  },
  {
   "property": "C126",
   "status": "partial",
   "theorems": [
    "Verif.Clock.C126_single_partial",
    "Verif.Clock.C126_multiple_partial",
    "Verif.Clock.C126_condorcet_partial",
    "Verif.Clock.C126_cw20_stake_partial",
    "Verif.Clock.C126_token_staked_partial",
    "Verif.Clock.C126_nft_staked_partial",
    "Verif.Clock.C126_onft_staked_partial",
    "Verif.Clock.C126_single_status_partial",
    "Verif.Clock.C126_multiple_status_partial",
    "Verif.Clock.C126_safe",
    "Verif.Clock.C126_live",
    "Verif.Clock.C126_reasonable",
    "Verif.Clock.C126_endless",
    "Verif.Clock.C126_frozen_witness",
    "Verif.Clock.C126_locked_witness",
    "Verif.Clock.C126_timelock_witness",
    "Verif.Clock.C126_dao_frozen",
    "Verif.Clock.Example.C126_dao_frozen_witness",
    "Verif.Clock.Example.C126_example_live",
    "Verif.Clock.Example.C126_example_frozen",
    "Verif.Clock.Example.C126_example_locked",
    "Verif.Clock.Example.C126_example_timelock"
   ],
   "note": "Exactly when the additions fit the clock, calls behave as the models of the contracts have it (the _partial theorems are equivalences); every history of the checked program is one of the model (C126_safe), and conversely when the durations fit (C126_live), as those up to 272 years do (C126_reasonable). Missing, because it is false of the code: durations are accepted without an upper bound. With 585 years nobody can propose (C126_frozen_witness), a DAO with one proposal module is stuck for ever (C126_dao_frozen, C126_dao_frozen_witness), nobody can unstake (C126_locked_witness), and a passed proposal with a veto has no status (C126_timelock_witness)."
  },
  {
   "property": "C127",
   "status": "proved",
   "theorems": [
    "Verif.Holdings.C127_dao",
    "Verif.Holdings.C127_contract",
    "Verif.Holdings.C127_decided",
    "Verif.Holdings.C127_kept",
    "Verif.Holdings.C127_owner_acts",
    "Verif.Holdings.C127_isolated",
    "Verif.Holdings.C127_carried_out",
    "Verif.Holdings.C127_members_use_single",
    "Verif.Holdings.C127_members_use_multi",
    "Verif.Holdings.C127_members_use_condorcet",
    "Verif.Holdings.Example.C127_example",
    "Verif.Holdings.Example.C127_example_due",
    "Verif.Holdings.C127_not_dropped"
   ],
   "note": "C127_dao and C127_contract project a history of the DAO with all its contracts to one of the DAO as in C95 and one of each contract, so that all that is proved of them holds. C127_decided, C127_kept and C127_owner_acts: who decides. C127_isolated: a contract nobody calls does not change. C127_carried_out and the three C127_members_use theorems: what is decided can be carried out, if the contract accepts the call. C127_example has a DAO with three modules and three contracts, one of which it gives away; C127_example_due meets the assumptions of the three theorems."
  },
  {
   "property": "C128",
   "status": "proved",
   "theorems": [
    "Verif.FullRules.C128_decreed",
    "Verif.FullRules.C128_rules",
    "Verif.FullRules.C128_token_staked",
    "Verif.FullRules.C128_nft_staked",
    "Verif.FullRules.C128_onft_staked",
    "Verif.FullRules.C128_cw20_staked",
    "Verif.FullRules.C128_cw4",
    "Verif.FullRules.C128_roles",
    "Verif.FullRules.Example.C128_example"
   ],
   "note": "The DAO keeps its voting module, has no outside admin and its modules are those it created (Steady, Governed), as in C95; totals asked for without a height are those of the height (TotalsOfHeight); what the DAO says to its modules comes off its list of messages to send (FromList)."
  },
  {
   "property": "C129",
   "status": "proved",
   "theorems": [
    "Verif.FullRules.C129_voting",
    "Verif.FullRules.C129_single",
    "Verif.FullRules.C129_multi",
    "Verif.FullRules.C129_condorcet",
    "Verif.FullRules.C129_members_cw4",
    "Verif.FullRules.C129_members_roles",
    "Verif.FullRules.Example.C129_example_single",
    "Verif.FullRules.Example.C129_example_multi",
    "Verif.FullRules.Example.C129_example_condorcet",
    "Verif.FullRules.Example.C129_example_cw4",
    "Verif.FullRules.Example.C129_example_roles"
   ],
   "note": "The proposal is decided and has no veto, the DAO is not paused, the module that decided is enabled (Passed); the account that executes is not the DAO itself. A call of the voting module is one it accepts from the DAO."
  },
  {
   "property": "C13",
   "status": "proved",
   "theorems": [
    "Verif.Single.C13_ids_consecutive",
    "Verif.Single.C13_ids_exist",
    "Verif.Multiple.C13_ids_consecutive",
    "Verif.Multiple.C13_ids_exist",
    "Verif.Single.history_reach",
    "Verif.Multiple.history_reach"
   ],
   "note": "Over every history."
  },
  {
   "property": "C130",
   "status": "proved",
   "theorems": [
    "Verif.Treasury.C130_books",
    "Verif.Treasury.C130_decided",
    "Verif.Treasury.C130_native",
    "Verif.Treasury.C130_allowance",
    "Verif.Treasury.C130_kept",
    "Verif.Treasury.Example.C130_example",
    "Verif.Treasury.Example.C130_example_kept"
   ],
   "note": "C130_books: the balance of any token over any history. C130_decided: each use goes back to a decision or the founding. C130_native and C130_allowance bound what others take. C130_kept: what nobody decided to spend only grows. The bank and cw20 contracts are modelled as documented; tokens whose issuer can seize them are left out. C130_example has a DAO with three modules that spends coins and tokens through each, and an allowance that is used."
  },
  {
   "property": "C131",
   "status": "proved",
   "theorems": [
    "Verif.Treasury.C131_spends",
    "Verif.Treasury.C131_pays",
    "Verif.Treasury.Example.C131_example"
   ],
   "note": "C131_spends: any use of coins and tokens that would succeed if done directly. C131_pays: payments to others covered by the treasury, with what everybody has afterwards. The receivers' balances must fit in 128 bits, and the receivers of messages accept them. C131_example meets the assumptions for each kind of module."
  },
  {
   "property": "C132",
   "status": "partial",
   "theorems": [
    "Verif.Versions.C132_forward",
    "Verif.Versions.C132_forward_iff",
    "Verif.Versions.C132_older_partial",
    "Verif.Versions.C132_kept",
    "Verif.Versions.C132_always",
    "Verif.Versions.C132_tenth_witness",
    "Verif.Versions.C132_example"
   ],
   "note": "Full for dao-rewards-distributor, which parses versions. For the voting modules and the token issuer only while all versions are written with the same numbers of digits (C132_older_partial): they compare versions as strings, so that 2.10.0 counts as older than 2.9.0 (C132_tenth_witness). The token swap, the admin factory, the BitSong token factory and the multiple choice module show whatever code they run (C132_always)."
  },
  {
   "property": "C133",
   "status": "proved",
   "theorems": [
    "Verif.SwapDaos.C133_dao",
    "Verif.SwapDaos.C133_swap",
    "Verif.SwapDaos.C133_decided",
    "Verif.SwapDaos.C133_outcome",
    "Verif.SwapDaos.C133_not_dropped",
    "Verif.SwapDaos.C133_provides",
    "Verif.SwapDaos.C133_withdraws",
    "Verif.SwapDaos.Example.C133_example",
    "Verif.SwapDaos.Example.C133_example_provides",
    "Verif.SwapDaos.Example.C133_example_withdraws"
   ],
   "note": "Spec: Spec/SwapDaos. History, one that completes a swap after a withdrawal, and ones that meet the hypotheses of C133_provides and C133_withdraws: Props/SwapDaosExample."
  },
  {
   "property": "C134",
   "status": "proved",
   "theorems": [
    "Verif.DaoNet.C134_dao",
    "Verif.DaoNet.C134_governed",
    "Verif.DaoNet.C134_not_dropped",
    "Verif.DaoNet.C134_admin",
    "Verif.DaoNet.C134_obeys",
    "Verif.DaoNet.C134_chain",
    "Verif.DaoNet.C134_command",
    "Verif.DaoNet.Example.C134_example",
    "Verif.DaoNet.Example.C134_example_command",
    "Verif.DaoNet.C134_sources",
    "Verif.DaoNet.C134_free",
    "Verif.DaoNet.Example.C134_example_free",
    "Verif.DaoNet.C134_reforms",
    "Verif.DaoNet.C134_unpause",
    "Verif.DaoNet.Example.C134_example_reforms",
    "Verif.DaoNet.Example.C134_example_unpause",
    "Verif.DaoNet.C134_before",
    "Verif.DaoNet.C134_sound",
    "Verif.DaoNet.Example.C134_example_before"
   ],
   "note": "That nothing said is lost, that the admin stays admin, and that orders are obeyed along chains of any length, is proved without reserve. What goes back to decisions of members does so in the sense and under the assumptions of C95 (Sound in Spec/DaoNet): voting modules are not replaced and the proposal modules keep their DAO, enabled modules are those the DAO created, totals asked for without a height are those of the height, thresholds have at most nine decimals. The examples are a chain of three DAOs, the last of them paused."
  },
  {
   "property": "C135",
   "status": "proved",
   "theorems": [
    "Verif.DaoNet.C135_nominated",
    "Verif.DaoNet.C135_consent",
    "Verif.DaoNet.C135_release",
    "Verif.DaoNet.C135_offer",
    "Verif.DaoNet.C135_accept",
    "Verif.DaoNet.Example.C135_example",
    "Verif.DaoNet.Example.C135_example_offer",
    "Verif.DaoNet.Example.C135_example_accept",
    "Verif.DaoNet.C135_joined",
    "Verif.DaoNet.Example.C135_example_joined"
   ],
   "note": "Spec/DaoNet: Said is what the core of a DAO is told on good authority, Authorised what a DAO sends on good authority, Sound the assumptions of C95. A nomination may be older than the history. Example: a DAO joins another and is let go again."
  },
  {
   "property": "C136",
   "status": "proved",
   "theorems": [
    "Verif.Federation.C136_dao",
    "Verif.Federation.C136_speaks",
    "Verif.Federation.C136_not_dropped",
    "Verif.Federation.C136_vote_single",
    "Verif.Federation.C136_vote_multi",
    "Verif.Federation.C136_vote_condorcet",
    "Verif.Federation.C136_counts_single",
    "Verif.Federation.C136_counts_multi",
    "Verif.Federation.C136_counts_condorcet",
    "Verif.Federation.C136_members_single",
    "Verif.Federation.C136_members_multi",
    "Verif.Federation.C136_members_condorcet",
    "Verif.Federation.Example.C136_example",
    "Verif.Federation.Example.C136_example_single",
    "Verif.Federation.Example.C136_example_multi",
    "Verif.Federation.Example.C136_example_condorcet",
    "Verif.Federation.Example.C136_example_members_single",
    "Verif.Federation.Example.C136_example_members_multi",
    "Verif.Federation.Example.C136_example_members_condorcet"
   ],
   "note": "Both the module in which the members decide and the one in which the DAO votes may be of any kind. How a DAO stakes in the other DAO is free in the model. A pre-propose module that names a DAO as proposer is an explicit case of the conclusion (Sponsored). The decision is executed by an account outside the federation, and nobody may veto it."
  },
  {
   "property": "C14",
   "status": "proved",
   "theorems": [
    "Verif.Single.C14_rules_fixed",
    "Verif.Single.C14_rules_of_new_proposal",
    "Verif.Single.history_plays",
    "Verif.Single.history_reach",
    "Verif.Multiple.C14_rules_fixed",
    "Verif.Multiple.C14_rules_of_new_proposal"
   ],
   "note": "Over every continuation; history changes the configuration between votes."
  },
  {
   "property": "C15",
   "status": "proved",
   "theorems": [
    "Verif.Single.C15_only_dao",
    "Verif.Multiple.C15_only_dao",
    "Verif.Single.history_reach",
    "Verif.Multiple.history_reach"
   ],
   "note": "For every state, sender and call; replies excepted as documented, and never for the configuration."
  },
  {
   "property": "C16",
   "status": "proved",
   "theorems": [
    "Verif.Reply.C16_decode_encode",
    "Verif.Reply.C16_encode_injective",
    "Verif.Reply.C16_encode_fits",
    "Verif.Reply.C16_bound_sharp"
   ],
   "note": "All five tags, all ids below 2^61; the bound is shown sharp."
  },
  {
   "property": "C17",
   "status": "partial",
   "theorems": [
    "Verif.Hooks.C17_one_failure_partial",
    "Verif.Hooks.C17_no_failure",
    "Verif.Hooks.C17_false_two_failures",
    "Verif.Hooks.C17_false_wrong_one",
    "Verif.Hooks.C17_second_removal_is_next",
    "Verif.Hooks.C17_exact",
    "Verif.Hooks.C17_iff"
   ],
   "note": "Proved for at most one failing receiver. The full claim is false of the code: two failures make the message abort or evict an innocent receiver. C17_exact says what happens for any number of failures; C17_iff that the claim holds if and only if at most one receiver fails."
  },
  {
   "property": "C18",
   "status": "proved",
   "theorems": [
    "Verif.Multiple.C18_tally_is_ballot_sum",
    "Verif.Multiple.C18_ballots_in_range",
    "Verif.Multiple.C18_shape",
    "Verif.Multiple.history_plays",
    "Verif.Multiple.history_reach"
   ],
   "note": "Inductive invariant over every history; the sums are recomputed in Spec.Multi.ballotSum."
  },
  {
   "property": "C19",
   "status": "proved",
   "theorems": [
    "Verif.Multiple.C19_pass_needs_plurality",
    "Verif.Multiple.C19_pass_iff",
    "Verif.Multiple.C19_early_win_final",
    "Verif.Multiple.C21_winner_unchanged"
   ],
   "note": "Exact characterisation of passing and finality of an early win, for every quorum, tally and total power."
  },
  {
   "property": "C20",
   "status": "proved",
   "theorems": [
    "Verif.Multiple.C20_never_both",
    "Verif.Multiple.C20_decided_at_expiry",
    "Verif.Multiple.C20_early_reject_final",
    "Verif.Multiple.C20_early_reject_iff"
   ],
   "note": "For every valid quorum decimal."
  },
  {
   "property": "C21",
   "status": "proved",
   "theorems": [
    "Verif.Multiple.C21_lifecycle",
    "Verif.Multiple.C21_reported",
    "Verif.Multiple.C21_final",
    "Verif.Multiple.C21_execute_once",
    "Verif.Multiple.C21_only_execute_sends",
    "Verif.Multiple.C21_messages_unaltered",
    "Verif.Multiple.C21_winner_messages",
    "Verif.Multiple.C21_winner_unchanged",
    "Verif.Multiple.history_plays",
    "Verif.Multiple.history_stable"
   ],
   "note": "Over every history."
  },
  {
   "property": "C22",
   "status": "proved",
   "theorems": [
    "Verif.Condorcet.C22_margins",
    "Verif.Condorcet.C22_ballots_complete",
    "Verif.Condorcet.C22_outstanding",
    "Verif.Condorcet.history_halfway"
   ],
   "note": "All matrices, all ballot sequences, all reachable states of the contract."
  },
  {
   "property": "C23",
   "status": "proved",
   "theorems": [
    "Verif.Condorcet.C23_winner_sound",
    "Verif.Condorcet.C23_winner_unique",
    "Verif.Condorcet.C23_winner_complete",
    "Verif.Condorcet.C23_undisputed_iff",
    "Verif.Condorcet.C23_C24_stay",
    "Verif.Condorcet.history_result"
   ],
   "note": "Undisputed is exactly 'wins however the outstanding power votes'."
  },
  {
   "property": "C24",
   "status": "proved",
   "theorems": [
    "Verif.Condorcet.C24_never_iff",
    "Verif.Condorcet.C23_C24_stay",
    "Verif.Condorcet.history_result"
   ],
   "note": "Never is exactly 'no way of casting the outstanding power has a winner'."
  },
  {
   "property": "C25",
   "status": "proved",
   "theorems": [
    "Verif.Condorcet.C25_one_vote",
    "Verif.Condorcet.C25_second_vote_refused",
    "Verif.Condorcet.C25_ballot_permanent",
    "Verif.Condorcet.C25_vote",
    "Verif.Condorcet.C25_proposer_member",
    "Verif.Condorcet.C25_lifecycle",
    "Verif.Condorcet.C25_final",
    "Verif.Condorcet.C25_execute",
    "Verif.Condorcet.C25_only_execute_sends",
    "Verif.Condorcet.C25_execute_once",
    "Verif.Condorcet.C25_rules_fixed",
    "Verif.Condorcet.C25_ids_consecutive",
    "Verif.Condorcet.C25_only_dao",
    "Verif.Condorcet.C25_passed_iff",
    "Verif.Condorcet.history_reach"
   ],
   "note": "Includes the exact condition for passing and that the rules of a proposal never change."
  },
  {
   "property": "C26",
   "status": "proved",
   "theorems": [
    "Verif.Cw20Stake.C26_total",
    "Verif.Cw20Stake.C26_total_at_height"
   ],
   "note": ""
  },
  {
   "property": "C27",
   "status": "proved",
   "theorems": [
    "Verif.Cw20Stake.C27_covered",
    "Verif.Cw20Stake.C27_transfers_succeed"
   ],
   "note": ""
  },
  {
   "property": "C28",
   "status": "proved",
   "theorems": [
    "Verif.Cw20Stake.C28_price_step",
    "Verif.Cw20Stake.C28_price_history",
    "Verif.Cw20Stake.C28_no_loss",
    "Verif.Cw20Stake.C28_no_gain",
    "Verif.Cw20Stake.C28_no_gain_history",
    "Verif.Cw20Stake.C28_round_trip",
    "Verif.Cw20Stake.C28_first_staker_gains",
    "Verif.Cw20Stake.C28_first_staker_history"
   ],
   "note": "No gain needs somebody else staked: C28_first_staker_gains shows that the first staker takes what was funded into an empty pool."
  },
  {
   "property": "C29",
   "status": "proved",
   "theorems": [
    "Verif.Cw20Stake.C29_origin",
    "Verif.Cw20Stake.C29_claim",
    "Verif.Cw20Stake.C29_untouched",
    "Verif.Cw20Stake.C29_claimable",
    "Verif.Cw20Stake.C29_unstakeable",
    "Verif.Cw20Stake.C29_unstake",
    "Verif.Cw20Stake.C29_config",
    "Verif.Cw20Stake.hooks_announce"
   ],
   "note": ""
  },
  {
   "property": "C30",
   "status": "proved",
   "theorems": [
    "Verif.Cw20Stake.C30_stake_history",
    "Verif.Cw20Stake.C30_stake_stable",
    "Verif.TokenStaked.C30_token_history",
    "Verif.TokenStaked.C30_token_stable",
    "Verif.NftStaked.C30_nft_history",
    "Verif.NftStaked.C30_nft_stable",
    "Verif.Roles.C30_roles_history",
    "Verif.Roles.C30_roles_stable",
    "Verif.Roles.Voting.C30_roles_voting_history",
    "Verif.Roles.Voting.C30_roles_voting_stable",
    "Verif.Cw4Voting.C30_cw4_history",
    "Verif.Cw4Voting.C30_cw4_stable",
    "Verif.Cw20Voting.C30_cw20_voting_history",
    "Verif.Cw20Voting.C30_cw20_voting_stable",
    "Verif.OnftStaked.C30_onft_history",
    "Verif.OnftStaked.C30_onft_stable"
   ],
   "note": ""
  },
  {
   "property": "C31",
   "status": "proved",
   "theorems": [
    "Verif.TokenStaked.C31_total",
    "Verif.TokenStaked.C31_total_at_height",
    "Verif.TokenStaked.C31_coins",
    "Verif.TokenStaked.C31_covered",
    "Verif.TokenStaked.C31_account",
    "Verif.TokenStaked.C31_no_overdraft",
    "Verif.TokenStaked.C31_stakeable",
    "Verif.TokenStaked.C31_unstakeable",
    "Verif.TokenStaked.C31_claimable",
    "Verif.TokenStaked.C31_claim",
    "Verif.TokenStaked.C31_claims_kept",
    "Verif.TokenStaked.C31_unstake",
    "Verif.TokenStaked.C31_admin"
   ],
   "note": ""
  },
  {
   "property": "C32",
   "status": "proved",
   "theorems": [
    "Verif.Active.C32_percentage",
    "Verif.Active.C32_reached",
    "Verif.Active.C32_exact",
    "Verif.Active.C32_absolute",
    "Verif.Active.C32_nft",
    "Verif.Active.C32_reachable",
    "Verif.Active.C32_precision_witness",
    "Verif.TokenStaked.C32_token_active",
    "Verif.TokenStaked.C32_new_token",
    "Verif.TokenStaked.C32_factory_token",
    "Verif.NftStaked.C32_nft_active",
    "Verif.OnftStaked.C32_onft_active"
   ],
   "note": ""
  },
  {
   "property": "C33",
   "status": "proved",
   "theorems": [
    "Verif.NftStaked.C33_power",
    "Verif.NftStaked.C33_total",
    "Verif.NftStaked.C33_total_at_height",
    "Verif.NftStaked.C33_once",
    "Verif.NftStaked.C33_custody",
    "Verif.NftStaked.C33_returned",
    "Verif.NftStaked.C33_stakeable",
    "Verif.NftStaked.C33_unstake",
    "Verif.NftStaked.C33_unstakeable",
    "Verif.NftStaked.C33_claimable",
    "Verif.NftStaked.C33_claim",
    "Verif.NftStaked.C33_others",
    "Verif.NftStaked.C33_admin",
    "Verif.NftStaked.C33_hooks",
    "Verif.NftStaked.C33_bounded"
   ],
   "note": "dao-voting-cw721-staked over a cw721 ownership record. The staker is whoever sent the SendNft message, which may be an approved operator and not the former owner."
  },
  {
   "property": "C34",
   "status": "proved",
   "theorems": [
    "Verif.ExternalRewards.C34_bound",
    "Verif.ExternalRewards.C34_solvent",
    "Verif.ExternalRewards.C34_claim",
    "Verif.ExternalRewards.C34_live",
    "Verif.ExternalRewards.C34_fund",
    "Verif.ExternalRewards.C34_period",
    "Verif.ExternalRewards.C34_overflow_witness",
    "Verif.ExternalRewards.C34_unhooked_witness"
   ],
   "note": "For histories in which the contract stays registered with the staking contract (C34_unhooked_witness shows why). C34_live bounds the funding by 2^256/10^39; C34_overflow_witness shows that beyond it claims and unstaking are blocked. The staking contract is its two snapshot maps (its behaviour is C26, C30)."
  },
  {
   "property": "C35",
   "status": "partial",
   "theorems": [
    "Verif.RewardDistributor.C35_amount",
    "Verif.RewardDistributor.C35_once",
    "Verif.RewardDistributor.C35_rate_partial",
    "Verif.RewardDistributor.C35_between",
    "Verif.RewardDistributor.C35_live",
    "Verif.RewardDistributor.C35_admin",
    "Verif.RewardDistributor.C35_config_drops",
    "Verif.RewardDistributor.C35_config_witness"
   ],
   "note": "The rate and balance bounds are proved for all histories. The sentence that pending rewards are not lost by a configuration update is false of the code: LAST_PAYMENT_BLOCK is saved before get_distribution_msg is called, which therefore always refuses (C35_config_drops for every update, C35_config_witness)."
  },
  {
   "property": "C36",
   "status": "proved",
   "theorems": [
    "Verif.Wormhole.C36_fold",
    "Verif.Wormhole.C36_live",
    "Verif.Wormhole.C36_none",
    "Verif.Wormhole.C36_sum",
    "Verif.Wormhole.C36_dangerous",
    "Verif.Wormhole.C36_example"
   ],
   "note": "Full: any sequence of updates in any order, any key, any read time; also when an update can fail, and the exact reach of dangerously_update."
  },
  {
   "property": "C37",
   "status": "partial",
   "theorems": [
    "Verif.StakeTracker.C37_amount_partial",
    "Verif.StakeTracker.C37_total_partial",
    "Verif.StakeTracker.C37_count_partial",
    "Verif.StakeTracker.C37_leaving_witness",
    "Verif.StakeTracker.C37_redelegate_witness",
    "Verif.StakeTracker.C37_redelegate_zero_witness",
    "Verif.StakeTracker.C37_shorter_period_witness",
    "Verif.StakeTracker.C37_unbonding_slash_witness",
    "Verif.StakeTracker.C37_example",
    "Verif.StakeTracker.C37_hypotheses",
    "Verif.StakeTracker.C37_unbonding_slash"
   ],
   "note": "The property is false of the code. Amounts and total are proved for all histories without slashes of unbonding tokens; the count is proved for regular histories (Spec.StakeTracker.Regular). The witnesses are histories on which the code violates each omitted case."
  },
  {
   "property": "C38",
   "status": "proved",
   "theorems": [
    "Verif.Vesting.C38_monotone",
    "Verif.Vesting.C38_start",
    "Verif.Vesting.C38_end",
    "Verif.Vesting.C38_at_end",
    "Verif.Vesting.C38_history",
    "Verif.Vesting.C38_example"
   ],
   "note": "For every accepted schedule (linear or piecewise) and, in C38_history, across all transactions of a history. Whether the amount can be computed is C65."
  },
  {
   "property": "C39",
   "status": "partial",
   "theorems": [
    "Verif.Vesting.C39_recipient",
    "Verif.Vesting.C39_total",
    "Verif.Vesting.C39_slashes_partial",
    "Verif.Vesting.C39_slashes_witness",
    "Verif.Vesting.C39_example"
   ],
   "note": "Payments are bounded by the vested amount and by the total in all histories. Including slashes the bound (and exact conservation) is proved for histories without unasked transfers and without slashes of unbonding tokens; C39_slashes_witness shows that it fails with unasked transfers."
  },
  {
   "property": "C40",
   "status": "proved",
   "theorems": [
    "Verif.Vesting.C40_split",
    "Verif.Vesting.C40_unfunded",
    "Verif.Vesting.C40_forever",
    "Verif.Vesting.C40_example"
   ],
   "note": "Exact split for every successful cancellation in every history; whether a cancellation succeeds is part of C41."
  },
  {
   "property": "C41",
   "status": "partial",
   "theorems": [
    "Verif.Vesting.C41_liquid_partial",
    "Verif.Vesting.C41_backed_partial",
    "Verif.Vesting.C41_slash_partial",
    "Verif.Vesting.C41_distribute_partial",
    "Verif.Vesting.C41_withdraw_partial",
    "Verif.Vesting.C41_cancel_partial",
    "Verif.Vesting.C41_donation_witness",
    "Verif.Vesting.C41_unbonding_witness",
    "Verif.Vesting.C41_overstated_witness",
    "Verif.Vesting.C41_unfunded_witness"
   ],
   "note": "Proved for histories without unasked transfers and without slashes of unbonding tokens; the property fails otherwise: an unasked transfer lets the recipient block cancellation, a truthful registration of a slash of two unbondings makes the liquid amount underflow."
  },
  {
   "property": "C42",
   "status": "proved",
   "theorems": [
    "Verif.TokenSwap.C42_account",
    "Verif.TokenSwap.C42_terms",
    "Verif.TokenSwap.C42_withdraw",
    "Verif.TokenSwap.C42_final",
    "Verif.TokenSwap.C42_once",
    "Verif.TokenSwap.C42_exact",
    "Verif.TokenSwap.C42_completes",
    "Verif.TokenSwap.exW_run",
    "Verif.TokenSwap.exW_open"
   ],
   "note": "Accounts, terms, withdrawal, exactness, completion and finality over all histories of payments, withdrawals and foreign transfers."
  },
  {
   "property": "C43",
   "status": "proved",
   "theorems": [
    "Verif.FundDistributor.C43_share",
    "Verif.FundDistributor.C43_pool_fixed",
    "Verif.FundDistributor.C43_fair",
    "Verif.FundDistributor.C43_claim_live",
    "Verif.FundDistributor.C43_query",
    "Verif.FundDistributor.exW_run",
    "Verif.FundDistributor.exW_again"
   ],
   "note": "Answers P log: the voting module gives the same answer for the distribution height throughout, as C13 and the like prove for heights in the past."
  },
  {
   "property": "C44",
   "status": "proved",
   "theorems": [
    "Verif.FundDistributor.C44_solvent",
    "Verif.FundDistributor.C44_redistribute",
    "Verif.FundDistributor.C44_heights_differ",
    "Verif.FundDistributor.C44_heights_overpay"
   ],
   "note": "Under the hypothesis named in the quantifier, that the powers at the distribution height stay within the recorded total. C44_heights_* show that the contract itself does not ensure it, because the total is read at another height."
  },
  {
   "property": "C45",
   "status": "partial",
   "theorems": [
    "Verif.DaoRewards.C45_bound_partial",
    "Verif.DaoRewards.C45_backed_partial",
    "Verif.DaoRewards.C45_balance",
    "Verif.DaoRewards.C45_example",
    "Verif.DaoRewards.C45_witness_votes",
    "Verif.DaoRewards.C45_witness_same_block"
   ],
   "note": "Proved for every history in which power changes are announced by the hook caller, the voting contract is not replaced and nothing is handed out at once in a block whose powers changed already. Without these the claim is false: the witnesses are histories of the model in which more is claimed than was funded."
  },
  {
   "property": "C46",
   "status": "partial",
   "theorems": [
    "Verif.DaoRewards.C46_share",
    "Verif.DaoRewards.C46_kept_partial",
    "Verif.DaoRewards.C46_schedule_partial",
    "Verif.DaoRewards.C46_example_kept",
    "Verif.DaoRewards.C46_example_schedule",
    "Verif.DaoRewards.C46_witness_updates",
    "Verif.DaoRewards.C46_witness_revive",
    "Verif.DaoRewards.C46_witness_votes"
   ],
   "note": "The share of the emission is proved for linear rates to within 2 tokens. What was accrued is kept unless a continuous distribution that has run out is funded again or the voting contract is replaced (witnesses show the loss). The schedule of updates matters: updates within a period lose the part of the period that has passed (witness); on whole periods it does not matter beyond rounding."
  },
  {
   "property": "C47",
   "status": "proved",
   "theorems": [
    "Verif.DaoCore.C47_conserved",
    "Verif.DaoCore.C47_who",
    "Verif.DaoCore.C47_first",
    "Verif.DaoCore.C47_traced",
    "Verif.DaoCore.C47_settings",
    "Verif.DaoCore.C47_itself",
    "Verif.DaoCore.C47_paused",
    "Verif.DaoCore.C47_example"
   ],
   "note": "Histories of calls from anyone, also while messages of the DAO are being carried out, and of the chain carrying out the DAO's messages depth first, including its messages to itself and module creation with replies."
  },
  {
   "property": "C48",
   "status": "proved",
   "theorems": [
    "Verif.DaoCore.C48_some",
    "Verif.DaoCore.C48_counts",
    "Verif.DaoCore.C48_kept",
    "Verif.DaoCore.C48_can_disable",
    "Verif.DaoCore.C48_example"
   ],
   "note": "At least one enabled module between transactions; counts right at all times. New modules have addresses no module had before, which the chain guarantees."
  },
  {
   "property": "C49",
   "status": "proved",
   "theorems": [
    "Verif.DaoCore.C49_injective",
    "Verif.DaoCore.C49_unique",
    "Verif.DaoCore.C49_example"
   ],
   "note": "All indices; and all modules of any reachable DAO, also after migration from the old version."
  },
  {
   "property": "C50",
   "status": "proved",
   "theorems": [
    "Verif.DaoCore.C50_change",
    "Verif.DaoCore.C50_nomination",
    "Verif.DaoCore.C50_pending",
    "Verif.DaoCore.C50_accepted",
    "Verif.DaoCore.C50_example"
   ],
   "note": "All histories."
  },
  {
   "property": "C51",
   "status": "proved",
   "theorems": [
    "Verif.DaoCore.C51_items",
    "Verif.DaoCore.C51_remove",
    "Verif.DaoCore.C51_cw20s",
    "Verif.DaoCore.C51_cw721s",
    "Verif.DaoCore.C51_verified",
    "Verif.DaoCore.C51_subDaos",
    "Verif.DaoCore.C51_listed",
    "Verif.DaoCore.C48_example"
   ],
   "note": "Lookups as functions of the history; the listings show the same."
  },
  {
   "property": "C52",
   "status": "proved",
   "theorems": [
    "Verif.PrePropose.C52_once",
    "Verif.PrePropose.C52_submitted",
    "Verif.PrePropose.C52_paid",
    "Verif.PrePropose.C52_only",
    "Verif.PrePropose.C52_solvent",
    "Verif.PrePropose.C52_accepted",
    "Verif.PrePropose.C52_exactly_once",
    "Verif.PrePropose.single_lawful",
    "Verif.PrePropose.multiple_lawful",
    "Verif.PrePropose.example_history",
    "Verif.PrePropose.C52_replaced_strands",
    "Verif.PrePropose.C52_withdrawn_detaches"
   ],
   "note": "For dao-pre-propose-base with dao-proposal-single and dao-proposal-multiple. At most once, exactly the deposit, to the right party under the rules at submission: unconditional. That it does come back: while the module stays attached and the DAO does not withdraw; witnesses show both are needed."
  },
  {
   "property": "C53",
   "status": "proved",
   "theorems": [
    "Verif.PrePropose.C53_submit_iff",
    "Verif.PrePropose.C53_sound",
    "Verif.PrePropose.C53_lists",
    "Verif.PrePropose.C53_only_dao",
    "Verif.PrePropose.example_history"
   ],
   "note": "Voting power is what the DAO reports now."
  },
  {
   "property": "C54",
   "status": "proved",
   "theorems": [
    "Verif.PrePropose.App.C54_once",
    "Verif.PrePropose.App.C54_by_approver",
    "Verif.PrePropose.App.C54_records",
    "Verif.PrePropose.App.C54_submitted",
    "Verif.PrePropose.App.C54_approved",
    "Verif.PrePropose.App.C54_only_approved",
    "Verif.PrePropose.App.C54_rejected",
    "Verif.PrePropose.App.C54_paid",
    "Verif.PrePropose.App.C54_told_once",
    "Verif.PrePropose.App.C54_only",
    "Verif.PrePropose.App.C54_solvent",
    "Verif.PrePropose.App.C54_can_reject",
    "Verif.PrePropose.App.C54_example"
   ],
   "note": "Any lawful proposal module (single and multiple are); while the contract is attached, proposals are made by approvals only. Deposits stay covered unless the DAO withdraws them."
  },
  {
   "property": "C55",
   "status": "partial",
   "theorems": [
    "Verif.PrePropose.Approve.C55_outcome",
    "Verif.PrePropose.Approve.C55_decided_partial",
    "Verif.PrePropose.Approve.C55_mirrored",
    "Verif.PrePropose.Approve.C55_mirror_contents",
    "Verif.PrePropose.Approve.C55_accepted_iff",
    "Verif.PrePropose.Approve.C55_only",
    "Verif.PrePropose.Approve.C55_example",
    "Verif.PrePropose.Approve.C55_veto_strands",
    "Verif.PrePropose.Approve.C55_earlier_proposal_strands",
    "Verif.PrePropose.Approve.C55_no_messages"
   ],
   "note": "Proved for any lawful proposal modules (single and multiple are) in both DAOs. Missing: the code leaves the submission undecided when the mirror is vetoed, and after a completion the approver contract refuses, since then it is detached; both shown as reachable histories."
  },
  {
   "property": "C56",
   "status": "proved",
   "theorems": [
    "Verif.Issuer.C56_mint",
    "Verif.Issuer.C56_mint_le",
    "Verif.Issuer.C56_burn",
    "Verif.Issuer.C56_burn_le",
    "Verif.Issuer.C56_only_owner",
    "Verif.Issuer.C56_mint_effect",
    "Verif.Issuer.C56_burn_effect",
    "Verif.Issuer.C56_supply",
    "Verif.Issuer.C56_can_mint",
    "Verif.Issuer.C56_example"
   ],
   "note": "Token factory and bank modules modelled as far as the contract's messages use them, for both flavours of burning."
  },
  {
   "property": "C57",
   "status": "proved",
   "theorems": [
    "Verif.Issuer.C57_answers",
    "Verif.Issuer.C57_transfer",
    "Verif.Issuer.C57_transfer_iff",
    "Verif.Issuer.C57_mint",
    "Verif.Issuer.C57_force",
    "Verif.Issuer.C57_never_self",
    "Verif.Issuer.C57_owner",
    "Verif.Issuer.C57_listener",
    "Verif.Issuer.C56_example",
    "Verif.Issuer.C57_without_listener"
   ],
   "note": "The hook is what the property speaks of; that the chain asks it is a hypothesis, which C57_listener discharges for a token the contract created and still administers."
  },
  {
   "property": "C58",
   "status": "partial",
   "theorems": [
    "Verif.Roles.C58_total",
    "Verif.Roles.C58_total_at_height",
    "Verif.Roles.C58_member",
    "Verif.Roles.C58_member_partial",
    "Verif.Roles.C58_transfer_keeps_weight",
    "Verif.Roles.C58_transfer_witness",
    "Verif.Roles.C58_count",
    "Verif.Roles.C58_example",
    "Verif.Roles.Voting.C58_created"
   ],
   "note": "The total is the sum of the member weights and of the token weights in every history, and at every height. A member's weight is the sum of its tokens' weights in histories in which no token moves into other hands (C58_member_partial); in general C58_member accounts for the difference exactly. With transfers the claim is false of the code: TransferNft and SendNft leave all weights where they were (C58_transfer_keeps_weight, C58_transfer_witness)."
  },
  {
   "property": "C59",
   "status": "proved",
   "theorems": [
    "Verif.Paginate.C59_map",
    "Verif.Paginate.C59_keys",
    "Verif.Paginate.C59_unlimited",
    "Verif.Paginate.C59_listing",
    "Verif.Paginate.C59_qualifying",
    "Verif.Paginate.C59_zero",
    "Verif.Paginate.C59_example"
   ],
   "note": "Every positive page size, both orders, any map; also the listings with default and largest limits and the filtered listing of enabled proposal modules. Page size 0 shows nothing."
  },
  {
   "property": "C60",
   "status": "proved",
   "theorems": [
    "Verif.Hooks.C60_add",
    "Verif.Hooks.C60_remove",
    "Verif.Hooks.C60_remove_exact",
    "Verif.Hooks.C60_notified_in_order",
    "Verif.Single.C60_no_duplicates",
    "Verif.Single.history_reach",
    "Verif.Multiple.history_reach",
    "Verif.TokenStaked.C60_listeners",
    "Verif.Cw20Stake.C60_listeners",
    "Verif.NftStaked.C60_listeners",
    "Verif.OnftStaked.C60_listeners",
    "Verif.Roles.C60_listeners",
    "Verif.TokenStaked.C60_listeners_example"
   ],
   "note": "List operations exactly, and no duplicates in every reachable state of dao-proposal-single. In the staking and role contracts the listeners and what each is told are given for every history; for proposal and pre-propose modules the lists are C100."
  },
  {
   "property": "C61",
   "status": "proved",
   "theorems": [
    "Verif.Single.C61_status_total",
    "Verif.Single.C61_expired_decided",
    "Verif.Single.C61_vote_accepted",
    "Verif.Single.C61_passed_executable",
    "Verif.Single.C61_members_only",
    "Verif.Single.C61_rejected_closable",
    "Verif.Multiple.C61_status_total",
    "Verif.Multiple.C61_expired_decided",
    "Verif.Multiple.C61_vote_accepted",
    "Verif.Multiple.C61_passed_executable",
    "Verif.Multiple.C61_members_only",
    "Verif.Multiple.C61_rejected_closable",
    "Verif.Condorcet.C61_vote_accepted",
    "Verif.Condorcet.C61_passed_executable",
    "Verif.Condorcet.C61_rejected_closable",
    "Verif.Condorcet.C61_expired_decided",
    "Verif.Single.history_reach",
    "Verif.Multiple.history_reach"
   ],
   "note": "dao-proposal-single. And dao-proposal-multiple."
  },
  {
   "property": "C62",
   "status": "partial",
   "theorems": [
    "Verif.Single.C62_announced_partial",
    "Verif.Single.C62_vote",
    "Verif.Single.C62_false_on_failure",
    "Verif.Single.failing_execution_exists",
    "Verif.Multiple.C62_announced_partial",
    "Verif.Multiple.C62_vote",
    "Verif.Multiple.C62_false_on_failure",
    "Verif.Multiple.failing_execution_exists",
    "Verif.Single.history_reach",
    "Verif.Multiple.history_reach"
   ],
   "note": "Proved for votes, vetoes, closings and executions that succeed. False for an execution whose messages fail: hooks are told 'executed' while 'execution failed' is recorded; proved as C62_false_on_failure."
  },
  {
   "property": "C63",
   "status": "proved",
   "theorems": [
    "Verif.ExternalRewards.C63_share",
    "Verif.ExternalRewards.C34_others"
   ],
   "note": "Same setting as C34."
  },
  {
   "property": "C64",
   "status": "proved",
   "theorems": [
    "Verif.Vesting.C64_cancel",
    "Verif.Vesting.C64_slash",
    "Verif.Vesting.C64_delegate",
    "Verif.Vesting.C64_redelegate",
    "Verif.Vesting.C64_undelegate",
    "Verif.Vesting.C64_owner_paid",
    "Verif.Vesting.C64_owner_kept",
    "Verif.Vesting.C39_example",
    "Verif.Vesting.C40_example",
    "Verif.Vesting.C64_withdraw_address"
   ],
   "note": "All transactions and histories."
  },
  {
   "property": "C65",
   "status": "partial",
   "theorems": [
    "Verif.Vesting.C65_defined_partial",
    "Verif.Vesting.C65_overflow_witness"
   ],
   "note": "Proved whenever total times elapsed seconds is below 2^128; C65_overflow_witness shows an accepted schedule for which it fails."
  },
  {
   "property": "C66",
   "status": "proved",
   "theorems": [
    "Verif.DaoRewards.C66_settings",
    "Verif.DaoRewards.C66_payments",
    "Verif.DaoRewards.C66_funding",
    "Verif.DaoRewards.C66_example"
   ],
   "note": "Over all histories of the model, hook announcements and changes of power included."
  },
  {
   "property": "C67",
   "status": "partial",
   "theorems": [
    "Verif.Roles.C67_only_owner",
    "Verif.Roles.C67_never_handed_over",
    "Verif.Roles.C67_accept_refused",
    "Verif.Roles.C67_witness",
    "Verif.Roles.Voting.C67_created_frozen"
   ],
   "note": "The first sentence is proved. The second is false of the code: execute checks the owner before it looks at the message, so nobody but the owner can accept ownership (C67_never_handed_over for every history), and a role contract created by the voting module, which never sends a message again, refuses every message for ever (C67_created_frozen)."
  },
  {
   "property": "C68",
   "status": "partial",
   "theorems": [
    "Verif.Roles.C68_hooks_partial",
    "Verif.Roles.C68_others",
    "Verif.Roles.C68_lowered",
    "Verif.Roles.C68_lowered_witness"
   ],
   "note": "Proved for all steps but those that lower the weight of a token: there every listener is told of no weight before and none after (C68_lowered for every such step)."
  },
  {
   "property": "C69",
   "status": "partial",
   "theorems": [
    "Verif.Roles.C69_mint_iff",
    "Verif.Roles.C69_burn_iff",
    "Verif.Roles.C69_weight_iff",
    "Verif.Roles.C69_revocable_partial",
    "Verif.Roles.C69_moved_witness",
    "Verif.Roles.C69_weightless_witness",
    "Verif.Roles.C69_effect"
   ],
   "note": "Exact conditions for minting, burning and reweighing in every reachable state. Burning and lowering are always possible for tokens with weight in histories without moves into other hands; otherwise they can be refused (C69_moved_witness, C69_weightless_witness)."
  },
  {
   "property": "C70",
   "status": "partial",
   "theorems": [
    "Verif.TokenStaked.C70_token",
    "Verif.NftStaked.C70_nft",
    "Verif.Cw20Voting.C70_cw20",
    "Verif.Cw4Voting.C70_cw4_partial",
    "Verif.Cw4Voting.C70_cw4_witness",
    "Verif.Roles.Voting.C70_roles_partial",
    "Verif.Roles.Voting.C70_roles_witness",
    "Verif.TokenStaked.C70_token_example",
    "Verif.OnftStaked.C70_onft"
   ],
   "note": "Proved for the token, NFT and cw20 modules. False of the code for cw4 and role NFTs when weights changed earlier in the same block (witnesses): they pass no height on and so report the newest weight with the current height. Proved for these if nothing was called yet in the block."
  },
  {
   "property": "C71",
   "status": "proved",
   "theorems": [
    "Verif.Cw4Voting.C30_cw4_history",
    "Verif.Cw4Voting.C30_cw4_stable",
    "Verif.Cw4Voting.C71_total",
    "Verif.Cw4Voting.C71_new_iff",
    "Verif.Cw4Voting.C71_new",
    "Verif.Cw4Voting.C71_only_admin",
    "Verif.Cw4Voting.C71_update",
    "Verif.Cw4Voting.C71_admin_can",
    "Verif.Cw4Voting.C71_frozen",
    "Verif.Cw4Voting.C71_example",
    "Verif.Cw4Voting.C71_existing_witness",
    "Verif.Cw4Voting.C71_existing"
   ],
   "note": "cw4-group is an external crate and modelled from its documented behaviour. The witness shows that an existing group with no weight at all is accepted, unlike a new one."
  },
  {
   "property": "C72",
   "status": "proved",
   "theorems": [
    "Verif.Cw20Voting.C30_cw20_voting_history",
    "Verif.Cw20Voting.C30_cw20_voting_stable",
    "Verif.Cw20Voting.C72_total",
    "Verif.Cw20Voting.C72_token",
    "Verif.Cw20Voting.C72_new_token",
    "Verif.Cw20Voting.C72_created",
    "Verif.Cw20Voting.C72_update_iff",
    "Verif.Cw20Voting.C72_update_only",
    "Verif.Cw20Voting.C72_threshold",
    "Verif.Cw20Voting.C72_active",
    "Verif.Cw20Voting.C72_example",
    "Verif.Cw20Voting.C72_update_example",
    "Verif.Cw20Voting.C72_new_iff",
    "Verif.Cw20Voting.C72_over_iff"
   ],
   "note": "Over the full model of cw20-stake and its token."
  },
  {
   "property": "C73",
   "status": "partial",
   "theorems": [
    "Verif.TokenStaked.C73_token_full",
    "Verif.NftStaked.C73_nft_full",
    "Verif.Cw20Voting.C73_cw20_full_partial",
    "Verif.Cw20Voting.C73_cw20_locked",
    "Verif.Cw20Voting.C73_cw20_witness",
    "Verif.TokenStaked.C73_token_example",
    "Verif.NftStaked.C73_nft_example",
    "Verif.OnftStaked.C73_onft_full",
    "Verif.OnftStaked.C73_onft_example"
   ],
   "note": "Proved for staked tokens and NFTs. For cw20-stake only if nobody funded the pool: whoever stakes one unit first and funds the pool raises the price of a share, so that power falls short of the supply even with everything in the pool; the witness shows it and C73_cw20_locked that it stays so while that share is held."
  },
  {
   "property": "C74",
   "status": "partial",
   "theorems": [
    "Verif.OnftStaked.C74_total_at_height",
    "Verif.OnftStaked.C74_listed_counts",
    "Verif.OnftStaked.C74_power_partial",
    "Verif.OnftStaked.C74_once_partial",
    "Verif.OnftStaked.C74_bounded_partial",
    "Verif.OnftStaked.C74_returned_partial",
    "Verif.OnftStaked.C74_unstake",
    "Verif.OnftStaked.C74_unstakeable_partial",
    "Verif.OnftStaked.C74_claimable_partial",
    "Verif.OnftStaked.C74_claim",
    "Verif.OnftStaked.C74_others",
    "Verif.OnftStaked.C74_admin",
    "Verif.OnftStaked.C74_hooks",
    "Verif.OnftStaked.C74_example",
    "Verif.OnftStaked.C74_double_witness"
   ],
   "note": "Totals, unstaking, claiming and that nobody else changes an address's stake hold in every history. That powers count NFTs once and that NFTs are returned holds as long as the DAO does not cancel the stake of an NFT the contract keeps for somebody; C74_double_witness shows that it fails otherwise."
  },
  {
   "property": "C75",
   "status": "proved",
   "theorems": [
    "Verif.OnftStaked.C75_prepare",
    "Verif.OnftStaked.C75_confirm",
    "Verif.OnftStaked.C75_confirmable",
    "Verif.OnftStaked.C75_rise",
    "Verif.OnftStaked.C75_cancel",
    "Verif.OnftStaked.C75_leaves",
    "Verif.OnftStaked.C75_recover",
    "Verif.OnftStaked.C75_dao",
    "Verif.OnftStaked.C75_stale_witness",
    "Verif.OnftStaked.C74_example"
   ],
   "note": "In every history. C75_stale_witness shows what the statement leaves open: a preparation by an earlier owner stays good."
  },
  {
   "property": "C76",
   "status": "partial",
   "theorems": [
    "Verif.PayrollFactory.C76_registry",
    "Verif.PayrollFactory.C76_kept",
    "Verif.PayrollFactory.C76_pages",
    "Verif.PayrollFactory.C76_owner_partial",
    "Verif.PayrollFactory.C76_control",
    "Verif.PayrollFactory.C76_forged_witness"
   ],
   "note": "Registry, pages and control in every history. The owner rule and the listed instantiator hold for every call except Receive called directly by something that is no token; C76_forged_witness shows that such a call passes the owner check and lies about the instantiator."
  },
  {
   "property": "C77",
   "status": "partial",
   "theorems": [
    "Verif.PayrollFactory.C77_balance",
    "Verif.PayrollFactory.C77_funded",
    "Verif.PayrollFactory.C77_vesting",
    "Verif.PayrollFactory.C77_passes_partial",
    "Verif.PayrollFactory.C77_native_kept",
    "Verif.PayrollFactory.C77_clean",
    "Verif.PayrollFactory.C77_live_native",
    "Verif.PayrollFactory.C77_live_cw20",
    "Verif.PayrollFactory.C77_example",
    "Verif.PayrollFactory.C77_taken_witness",
    "Verif.PayrollFactory.C77_stranded_witness"
   ],
   "note": "Funding is exact in every history, for native coins and standard cw20 tokens. That the asker paid in the same token, and that nothing stays behind, is false when tokens lie in the factory (C77_taken_witness, C77_stranded_witness); C77_clean proves it for histories without stray transfers."
  },
  {
   "property": "C78",
   "status": "partial",
   "theorems": [
    "Verif.AdminFactory.C78_self",
    "Verif.AdminFactory.C78_admin",
    "Verif.AdminFactory.C78_expect_cleared",
    "Verif.AdminFactory.C78_expect_partial",
    "Verif.AdminFactory.C78_inner_blocked",
    "Verif.AdminFactory.C78_funds",
    "Verif.AdminFactory.C78_live",
    "Verif.AdminFactory.C78_example",
    "Verif.AdminFactory.C78_expect_witness",
    "Verif.AdminFactory.C78_blocked_witness"
   ],
   "note": "All but the expected address in every history with any nesting. The expected address is enforced unless another Instantiate2 is requested from the factory meanwhile; C78_expect_witness shows it skipped, C78_inner_blocked a wrong refusal."
  },
  {
   "property": "C79",
   "status": "proved",
   "theorems": [
    "Verif.FanToken.C79_issued",
    "Verif.FanToken.C79_clean",
    "Verif.FanToken.C79_exact",
    "Verif.FanToken.C79_example",
    "Verif.FanToken.C79_empty_witness",
    "Verif.FanToken.C79_control",
    "Verif.FanToken.C79_control_does"
   ],
   "note": "Over a model of x/fantoken. C79_empty_witness: an empty list of balances is accepted although the interface says it cannot be empty."
  },
  {
   "property": "C80",
   "status": "proved",
   "theorems": [
    "Verif.WholeDao.C80_once",
    "Verif.WholeDao.C80_decided",
    "Verif.WholeDao.C80_mandate",
    "Verif.WholeDao.C80_weights",
    "Verif.WholeDao.C80_sole",
    "Verif.WholeDao.C80_carried_out",
    "Verif.WholeDao.C80_token_staked",
    "Verif.WholeDao.C80_nft_staked",
    "Verif.WholeDao.C80_cw20_staked",
    "Verif.WholeDao.C80_cw4",
    "Verif.WholeDao.C80_onft_staked",
    "Verif.WholeDao.C80_roles",
    "Verif.WholeDao.Example.C80_example",
    "Verif.WholeDao.Example.C80_example_due",
    "Verif.WholeDao.C80_nearly_decided"
   ],
   "note": "The models of core, proposal module and voting module wired together; C80_token_staked and the five after it show that each voting module is Lawful, which the others assume. Decided assumes percentages of at most nine decimals (see C03). Steady: the DAO keeps its voting module and the proposal module keeps its DAO. C80_carried_out: no veto, DAO not paused, module enabled. C80_nearly_decided: for thresholds of any number of decimals, up to a billionth of a vote."
  },
  {
   "property": "C81",
   "status": "partial",
   "theorems": [
    "Verif.WholeMulti.C81_once",
    "Verif.WholeMulti.C81_decided",
    "Verif.WholeMulti.C81_mandate",
    "Verif.WholeMulti.C81_weights",
    "Verif.WholeMulti.C81_sole",
    "Verif.WholeMulti.C81_carried_out",
    "Verif.WholeMulti.C81_totals",
    "Verif.WholeMulti.C81_token_staked",
    "Verif.WholeMulti.C81_nft_staked",
    "Verif.WholeMulti.C81_cw20_staked",
    "Verif.WholeMulti.C81_onft_staked",
    "Verif.WholeMulti.C81_cw4_partial",
    "Verif.WholeMulti.C81_roles_partial",
    "Verif.WholeMulti.Example.C81_cw4_witness",
    "Verif.WholeMulti.Example.C81_roles_witness",
    "Verif.WholeMulti.Example.C81_example",
    "Verif.WholeMulti.Example.C81_example_due",
    "Verif.WholeMulti.Example.C81_cw4_example",
    "Verif.WholeMulti.C81_passed_decided_one",
    "Verif.WholeMulti.C81_carried_out_one",
    "Verif.WholeMulti.C81_nearly_decided"
   ],
   "note": "Proved for the four staking modules. With dao-voting-cw4 and dao-voting-cw721-roles it is false of the code: the module asks for the total without a height and gets the newest one, while votes count with the powers from before the block, so a member removed in the block of the proposal is missing from the total (the witnesses: 10 of 100 decide alone); proved if the membership does not change in the block of a proposal before it is made. Decided assumes percentages of at most nine decimals (see C03). Steady: the DAO keeps its voting module and the proposal module keeps its DAO. C81_carried_out: no veto, DAO not paused, module enabled. The _one theorems suppose only of the proposal in question, not of the whole history, that its recorded total is that of its block. C81_nearly_decided: for quorums of any number of decimals, up to a billionth of a vote."
  },
  {
   "property": "C82",
   "status": "partial",
   "theorems": [
    "Verif.SingleUpgrade.C82_kept",
    "Verif.SingleUpgrade.C82_accepted",
    "Verif.SingleUpgrade.C82_continues",
    "Verif.SingleUpgrade.C82_execute_once_partial",
    "Verif.SingleUpgrade.C82_final_partial",
    "Verif.SingleUpgrade.C82_tally_partial",
    "Verif.SingleUpgrade.C82_again",
    "Verif.SingleUpgrade.C82_compatible",
    "Verif.SingleUpgrade.Example.C82_example",
    "Verif.SingleUpgrade.Example.C82_again_witness",
    "Verif.SingleUpgrade.Example.C82_example_refused"
   ],
   "note": "Proved for one upgrade and for histories in which the upgrade from version 1 is not made twice. The code does not prevent the second one (only the version string is compared, and the storage of version 1 stays): C82_again and C82_again_witness show an executed proposal executed again and a tally that forgets a ballot. C82_compatible: FromCompatible on a module of version 1 makes all calls fail. That the state of version 1 obeys the rules of proposals is a hypothesis (Single.Reach), since that code is not in /repo."
  },
  {
   "property": "C83",
   "status": "proved",
   "theorems": [
    "Verif.Migrator.C83_complete",
    "Verif.Migrator.C83_accepted",
    "Verif.Migrator.C83_only_core",
    "Verif.Migrator.C83_continues",
    "Verif.Migrator.C83_blocked",
    "Verif.Migrator.Example.C83_example",
    "Verif.Migrator.Example.C83_example_blocked"
   ],
   "note": "Hypotheses: the four code ids of version 1 differ (Different), the migrator is a new contract (New), the DAO is stored as version 1 stores it (OldDao). What voting modules report and whether the staking contract accepts the upgrade are oracles of the environment."
  },
  {
   "property": "C84",
   "status": "partial",
   "theorems": [
    "Verif.StakingUpgrade.C84_accepted",
    "Verif.StakingUpgrade.C84_not_twice",
    "Verif.StakingUpgrade.C84_before",
    "Verif.StakingUpgrade.C84_stake_kept",
    "Verif.StakingUpgrade.C84_rewards_kept",
    "Verif.StakingUpgrade.C84_distributor_kept",
    "Verif.StakingUpgrade.C84_stake_partial",
    "Verif.StakingUpgrade.C84_rewards_partial",
    "Verif.StakingUpgrade.C84_distributor_partial",
    "Verif.StakingUpgrade.C84_stake_again",
    "Verif.StakingUpgrade.C84_rewards_again",
    "Verif.StakingUpgrade.C84_distributor_again",
    "Verif.StakingUpgrade.C84_core_accepted",
    "Verif.StakingUpgrade.C84_core_not_twice",
    "Verif.StakingUpgrade.C84_core_kept",
    "Verif.StakingUpgrade.C84_core_partial",
    "Verif.StakingUpgrade.C84_core_again",
    "Verif.StakingUpgrade.C84_core_example",
    "Verif.StakingUpgrade.C84_core_witness",
    "Verif.StakingUpgrade.Example.C84_stake_example",
    "Verif.StakingUpgrade.Example.C84_again_witness",
    "Verif.StakingUpgrade.Example.C84_rewards_example",
    "Verif.StakingUpgrade.Example.C84_distributor_example"
   ],
   "note": "Proved for histories with one upgrade. The last sentence is false of the code: FromV1 can be sent again with every later release, and puts back owner and settings of version 1 (C84_again_witness), enables disabled proposal modules, and makes counts wrong and prefixes double (C84_core_witness); exactly what it does is proved (C84_*_again)."
  },
  {
   "property": "C85",
   "status": "proved",
   "theorems": [
    "Verif.PreProposeUpgrade.C85_accepted",
    "Verif.PreProposeUpgrade.C85_rules",
    "Verif.PreProposeUpgrade.C85_approval_rules",
    "Verif.PreProposeUpgrade.C85_continues",
    "Verif.PreProposeUpgrade.C85_approval_continues",
    "Verif.PreProposeUpgrade.C85_once",
    "Verif.PreProposeUpgrade.Example.C85_example"
   ],
   "note": "C85_accepted: exactly when an upgrade goes through. C85_rules, C85_approval_rules: what it keeps and who may propose. C85_continues, C85_approval_continues: every history with the upgrade is, after it, a history of version 2.5 (whose theorems apply) in which at most one update of the policy is inserted. C85_once: no second upgrade. Versions with a suffix and the code of version 2.4 are not modelled."
  },
  {
   "property": "C86",
   "status": "partial",
   "theorems": [
    "Verif.RewardedDao.C86_bound_partial",
    "Verif.RewardedDao.C86_backed_partial",
    "Verif.RewardedDao.C86_share",
    "Verif.RewardedDao.C86_token_staked",
    "Verif.RewardedDao.C86_nft_staked",
    "Verif.RewardedDao.C86_onft_staked",
    "Verif.RewardedDao.C86_cw20_staked",
    "Verif.RewardedDao.C86_roles",
    "Verif.RewardedDao.C86_modules",
    "Verif.RewardedDao.C86_locked",
    "Verif.RewardedDao.C86_example",
    "Verif.RewardedDao.C86_example_share",
    "Verif.RewardedDao.C86_witness_same_block",
    "Verif.RewardedDao.C86_witness_deaf",
    "Verif.RewardedDao.C86_witness_locked"
   ],
   "note": "Proved for histories in which the distributor listens, the owner gives the distribution no other voting contract and nothing is handed out at once in a block in which the voting contract was called before (Regular). Missing: the other histories, in which the claim is false (C86_witness_same_block, C86_witness_deaf, C45_witness_votes)."
  },
  {
   "property": "C87",
   "status": "proved",
   "theorems": [
    "Verif.WholeDao.C87_majority_acts",
    "Verif.WholeDao.C87_unstoppable",
    "Verif.WholeDao.C87_carried_out",
    "Verif.WholeDao.C87_never_lost",
    "Verif.WholeDao.C87_vote_accepted",
    "Verif.WholeDao.C87_half_decides",
    "Verif.WholeDao.C87_half_decides_quorum",
    "Verif.WholeDao.C87_zero_period",
    "Verif.WholeDao.Example.C87_example",
    "Verif.WholeDao.Example.C87_example_unstoppable",
    "Verif.WholeDao.Example.C87_witness_zero"
   ],
   "note": "For every voting module of C80 (Lawful). Stated limits: the DAO is not paused, its proposal module stays enabled, the DAO keeps its voting module, the voting period is not zero (C87_zero_period shows what happens otherwise)."
  },
  {
   "property": "C88",
   "status": "proved",
   "theorems": [
    "Verif.TokenDao.C88_created",
    "Verif.TokenDao.C88_creates_iff",
    "Verif.TokenDao.C88_replaced",
    "Verif.TokenDao.C88_untouched",
    "Verif.TokenDao.C88_waiting",
    "Verif.TokenDao.C88_accepts",
    "Verif.TokenDao.C88_replaced_witness"
   ],
   "note": "Creation by a new DAO and by a DAO that replaces its module, over module, issuer and chain; the joint histories afterwards."
  },
  {
   "property": "C89",
   "status": "proved",
   "theorems": [
    "Verif.TokenDao.C89_backed",
    "Verif.TokenDao.C89_seizers",
    "Verif.TokenDao.C89_powers_stay",
    "Verif.TokenDao.C89_unstakeable",
    "Verif.TokenDao.C89_claimable",
    "Verif.TokenDao.C89_safe",
    "Verif.TokenDao.C89_lawful",
    "Verif.TokenDao.C89_seizure_witness",
    "Verif.TokenDao.C89_freeze_witness"
   ],
   "note": "Joint histories of module, issuer and chain. The witnesses show what the owner of the token can do."
  },
  {
   "property": "C90",
   "status": "partial",
   "theorems": [
    "Verif.TokenDao.C90_active_iff",
    "Verif.TokenDao.C90_can_activate_partial",
    "Verif.TokenDao.C90_ceiling",
    "Verif.TokenDao.C90_locked",
    "Verif.TokenDao.C90_born_locked",
    "Verif.TokenDao.C90_listed_locked"
   ],
   "note": "The unconditional statement is false: the creation accepts percentage thresholds that only coins of the DAO itself could meet (C90_born_locked), and counts that only coins listed for it could meet (C90_listed_locked). C90_active_iff says exactly when the holders can."
  },
  {
   "property": "C91",
   "status": "proved",
   "theorems": [
    "Verif.NftDao.C91_creates_iff",
    "Verif.NftDao.C91_created",
    "Verif.NftDao.C91_any",
    "Verif.NftDao.C91_replaced",
    "Verif.NftDao.C91_mints",
    "Verif.NftDao.C91_silent",
    "Verif.NftDao.C91_minting",
    "Verif.NftDao.C91_waiting",
    "Verif.NftDao.C91_replaced_witness"
   ],
   "note": "The collection is cw721-base, modelled after its published interface as it is not in the repository."
  },
  {
   "property": "C92",
   "status": "proved",
   "theorems": [
    "Verif.NftDao.C92_custody",
    "Verif.NftDao.C92_held",
    "Verif.NftDao.C92_power",
    "Verif.NftDao.C92_returned",
    "Verif.NftDao.C92_stakeable",
    "Verif.NftDao.C92_unstakeable",
    "Verif.NftDao.C92_claimable",
    "Verif.NftDao.C92_lawful",
    "Verif.NftDao.C92_operator_takes",
    "Verif.NftDao.C92_operator_votes",
    "Verif.NftDao.C92_taken_witness",
    "Verif.NftDao.C92_votes_witness",
    "Verif.NftDao.C92_approve",
    "Verif.NftDao.C92_revoke"
   ],
   "note": "C92_lawful holds for any list of messages: C80 and C87 apply to the joint system. The condition on the list is needed: C92_operator_takes, C92_operator_votes."
  },
  {
   "property": "C93",
   "status": "partial",
   "theorems": [
    "Verif.NftDao.C93_can_activate_partial",
    "Verif.NftDao.C93_count",
    "Verif.NftDao.C93_ceiling",
    "Verif.NftDao.C93_locked",
    "Verif.NftDao.C93_locked_percentage",
    "Verif.NftDao.C93_born_locked",
    "Verif.NftDao.C93_burnt_locked",
    "Verif.NftDao.C93_percentage_locked",
    "Verif.NftDao.C93_burn_wakes"
   ],
   "note": "The unconditional statement is false: the creation accepts thresholds that only NFTs of the DAO itself could meet (C93_born_locked), and holders can end a DAO by burning their NFTs (C93_burnt_locked). C93_count says exactly when holders can make a DAO with a count active; for percentages the converse needs that nobody burns (C93_burn_wakes)."
  },
  {
   "property": "C94",
   "status": "partial",
   "theorems": [
    "Verif.WholeCondorcet.C94_once",
    "Verif.WholeCondorcet.C94_decided",
    "Verif.WholeCondorcet.C94_mandate",
    "Verif.WholeCondorcet.C94_weights",
    "Verif.WholeCondorcet.C94_sole",
    "Verif.WholeCondorcet.C94_carried_out",
    "Verif.WholeCondorcet.C94_vote_accepted",
    "Verif.WholeCondorcet.C94_totals",
    "Verif.WholeCondorcet.C94_proposer",
    "Verif.WholeCondorcet.C94_token_staked",
    "Verif.WholeCondorcet.C94_nft_staked",
    "Verif.WholeCondorcet.C94_cw20_staked",
    "Verif.WholeCondorcet.C94_onft_staked",
    "Verif.WholeCondorcet.C94_cw4_partial",
    "Verif.WholeCondorcet.C94_roles_partial",
    "Verif.WholeCondorcet.Example.C94_cw4_witness",
    "Verif.WholeCondorcet.Example.C94_roles_witness",
    "Verif.WholeCondorcet.Example.C94_example",
    "Verif.WholeCondorcet.Example.C94_example_due",
    "Verif.WholeCondorcet.Example.C94_cw4_example",
    "Verif.WholeCondorcet.C94_passed_decided_one",
    "Verif.WholeCondorcet.C94_carried_out_one",
    "Verif.WholeCondorcet.C94_vote_accepted_one",
    "Verif.WholeCondorcet.C94_nearly_decided"
   ],
   "note": "Proved for the four staking modules. With dao-voting-cw4 and dao-voting-cw721-roles it is false of the code: the module asks for the total without a height and gets the newest one, while votes count with the powers from before the block, so a member removed in the block of the proposal is missing from the total (the witnesses: 10 of 100 decide alone, and the vote of the other 90 is rejected because it exceeds what is left of the total); proved if the membership does not change in the block of a proposal before it is made. Decided assumes a quorum of at most nine decimals (see C03). Steady: the DAO keeps its voting module. C94_carried_out: DAO not paused, module enabled. The _one theorems suppose only of the proposal in question, not of the whole history, that its recorded total is that of its block. C94_nearly_decided: for quorums of any number of decimals, up to a billionth of a vote."
  },
  {
   "property": "C95",
   "status": "partial",
   "theorems": [
    "Verif.FullDao.C95_once",
    "Verif.FullDao.C95_decided",
    "Verif.FullDao.C95_mandate",
    "Verif.FullDao.C95_governed",
    "Verif.FullDao.C95_weights",
    "Verif.FullDao.C95_totals",
    "Verif.FullDao.C95_totals_partial",
    "Verif.FullDao.C95_carried_out_single",
    "Verif.FullDao.C95_carried_out_multi",
    "Verif.FullDao.C95_carried_out_condorcet",
    "Verif.FullDao.C95_isolated",
    "Verif.FullDao.C95_disabled",
    "Verif.FullDao.Example.C95_example",
    "Verif.FullDao.Example.C95_example_due"
   ],
   "note": "Full for the voting modules that answer for the current height when asked without one (token-staked, cw20-staked, cw721-staked, onft-staked: C94_token_staked etc.). For cw4 and cw721-roles the total of proposals in multiple-choice and condorcet modules is that of the height only if membership does not change in the block of a proposal before it is made (C95_totals_partial); otherwise C81_cw4_witness, C81_roles_witness, C94_cw4_witness, C94_roles_witness show that the claim is false of the code. Single-choice modules need no such condition."
  },
  {
   "property": "C96",
   "status": "partial",
   "theorems": [
    "Verif.SubDao.C96_parent",
    "Verif.SubDao.C96_child",
    "Verif.SubDao.C96_admin",
    "Verif.SubDao.C96_told",
    "Verif.FullDao.C96_outside",
    "Verif.SubDao.C96_governed",
    "Verif.SubDao.C96_obeys",
    "Verif.SubDao.C96_unpause",
    "Verif.SubDao.C96_takeover",
    "Verif.SubDao.C96_released",
    "Verif.SubDao.Example.C96_example",
    "Verif.SubDao.Example.C96_example_due",
    "Verif.SubDao.C96_reaches",
    "Verif.SubDao.C96_not_dropped"
   ],
   "note": "That the parent stays the admin, and that the SubDAO obeys it, is proved without reserve. What goes back to proposals is decided by the members in the sense of C95, and under the assumptions of C95: voting modules are not replaced and the proposal modules keep their DAO, enabled modules are those the DAO created, totals asked for without a height are those of the height, thresholds have at most nine decimals."
  },
  {
   "property": "C97",
   "status": "partial",
   "theorems": [
    "Verif.Farms.C97_stake",
    "Verif.Farms.C97_stakers",
    "Verif.Farms.C97_pool",
    "Verif.Farms.C97_bound",
    "Verif.Farms.C97_solvent",
    "Verif.Farms.C97_share",
    "Verif.Farms.C97_claim",
    "Verif.Farms.C97_others",
    "Verif.Farms.C97_live",
    "Verif.Farms.C97_unblocked",
    "Verif.Farms.C97_trap",
    "Verif.Farms.Example.C97_example",
    "Verif.Farms.Example.C97_unregistered_witness",
    "Verif.Farms.Example.C97_trap_witness"
   ],
   "note": "Proved for reward contracts that are registered in time (without it the accounting is wrong: C97_unregistered_witness) and, for liveness, funded with less than about 10^38 units; C97_trap and its witness show that an overfunded registered reward contract blocks all staking and unstaking until the owner of the staking contract removes it, so the last sentence of the property is false of the code without that bound."
  },
  {
   "property": "C98",
   "status": "partial",
   "theorems": [
    "Verif.Cw20Stake.C98_value",
    "Verif.Cw20Stake.C98_sum",
    "Verif.Cw20Stake.C98_answers_partial",
    "Verif.Cw20Stake.C98_stakeable",
    "Verif.Cw20Stake.C98_rounding",
    "Verif.Cw20Stake.C98_rounding_witness",
    "Verif.Cw20Stake.C98_answers_witness",
    "Verif.Cw20Stake.C98_example"
   ],
   "note": "All but one part is proved. The value is not always answered: the query multiplies in 128 bits, C98_answers_partial assumes the product fits and C98_answers_witness is a stake of 2^64 units that unstakes but whose value query fails. C98_rounding_witness shows that one share can be made worth a lot (a first staker's inflation attack)."
  },
  {
   "property": "C99",
   "status": "partial",
   "theorems": [
    "Verif.DaoRewards.C99_lasts",
    "Verif.DaoRewards.C99_fund",
    "Verif.DaoRewards.C99_update",
    "Verif.DaoRewards.C99_fundable",
    "Verif.DaoRewards.C99_claim",
    "Verif.DaoRewards.C99_claims",
    "Verif.DaoRewards.C99_claims_partial",
    "Verif.DaoRewards.C99_example",
    "Verif.DaoRewards.C99_example_edge",
    "Verif.DaoRewards.C99_example_limit"
   ],
   "note": "Everything but the last clause holds in every history. That the contract still has what it shows (C99_claims_partial) needs the conditions of C45, whose witnesses show that without them it may not. Times beyond 64 bits of nanoseconds are not modelled."
  }
 ]
}
