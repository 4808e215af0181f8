# Axioms of the theorems in the manifest

As reported by `#print axioms`.

| Property | Theorem | Axioms |
| --- | --- | --- |
| C01 | `Verif.Voting.C01_pass_complete` | propext, Quot.sound |
| C01 | `Verif.Voting.C01_pass_sound` | propext, Quot.sound |
| C01 | `Verif.Voting.C01_pass_iff` | propext, Classical.choice, Quot.sound |
| C01 | `Verif.Voting.C01_pass_exact` | propext, Classical.choice, Quot.sound |
| C01 | `Verif.Voting.C01_fail_iff` | propext, Quot.sound |
| C01 | `Verif.Voting.C01_majority_pass` | propext, Classical.choice, Quot.sound |
| C01 | `Verif.Voting.C01_majority_fail` | propext, Quot.sound |
| C01 | `Verif.Voting.C01_no_votes` | none |
| C02 | `Verif.Voting.C02_total` | propext, Quot.sound |
| C02 | `Verif.Voting.C02_needs_validation` | propext |
| C03 | `Verif.Single.C03_early_pass_final` | propext, Classical.choice, Quot.sound |
| C03 | `Verif.Single.C03_early_pass_final_status` | propext, Classical.choice, Quot.sound |
| C03 | `Verif.Single.C03_needs_yes` | propext |
| C04 | `Verif.Single.C04_early_reject_right` | propext, Classical.choice, Quot.sound |
| C04 | `Verif.Single.C04_early_reject_final_partial` | propext, Classical.choice, Quot.sound |
| C04 | `Verif.Single.C04_false_in_general` | propext |
| C05 | `Verif.Single.C05_never_both_partial` | propext, Classical.choice, Quot.sound |
| C05 | `Verif.Single.C05_rejected_not_met` | propext, Classical.choice, Quot.sound |
| C05 | `Verif.Single.C05_false_in_general` | propext |
| C06 | `Verif.Single.C06_tally_is_ballot_sum` | propext, Classical.choice, Quot.sound |
| C06 | `Verif.Single.history_plays` | propext |
| C06 | `Verif.Single.history_reach` | propext |
| C07 | `Verif.Single.C07_one_ballot` | propext, Classical.choice, Quot.sound |
| C07 | `Verif.Single.C07_ballot_permanent` | propext, Classical.choice, Quot.sound |
| C07 | `Verif.Single.C07_second_vote_refused` | propext, Quot.sound |
| C07 | `Verif.Single.C07_vote_recorded` | propext, Quot.sound |
| C07 | `Verif.Single.C07_only_the_voter` | propext, Quot.sound |
| C07 | `Verif.Multiple.C07_one_ballot` | propext, Classical.choice, Quot.sound |
| C07 | `Verif.Multiple.C07_ballot_permanent` | propext, Classical.choice, Quot.sound |
| C07 | `Verif.Multiple.C07_second_vote_refused` | propext, Quot.sound |
| C07 | `Verif.Multiple.C07_vote_recorded` | propext, Quot.sound |
| C07 | `Verif.Multiple.C07_only_the_voter` | propext, Quot.sound |
| C07 | `Verif.Single.C07_last_vote` | propext, Quot.sound |
| C07 | `Verif.Single.C07_tally_is_last_votes` | propext, Classical.choice, Quot.sound |
| C07 | `Verif.Multiple.C07_last_vote` | propext, Quot.sound |
| C07 | `Verif.Multiple.C07_tally_is_last_votes` | propext, Classical.choice, Quot.sound |
| C07 | `Verif.Multiple.history_reach` | propext |
| C08 | `Verif.Single.C08_votes_within_power` | propext, Classical.choice, Quot.sound |
| C08 | `Verif.Single.history_stable` | propext, Quot.sound |
| C08 | `Verif.Multiple.C08_votes_within_power` | propext, Classical.choice, Quot.sound |
| C08 | `Verif.Multiple.history_stable` | propext, Quot.sound |
| C09 | `Verif.Single.C09_lifecycle` | propext, Classical.choice, Quot.sound |
| C09 | `Verif.Single.C09_reported` | propext, Quot.sound |
| C09 | `Verif.Single.C09_final` | propext, Classical.choice, Quot.sound |
| C10 | `Verif.Single.C10_execute_once` | propext, Classical.choice, Quot.sound |
| C10 | `Verif.Single.C10_only_execute_sends` | propext, Classical.choice, Quot.sound |
| C10 | `Verif.Single.C10_messages_unaltered` | propext, Classical.choice, Quot.sound |
| C10 | `Verif.Single.C10_executed_passed` | propext, Classical.choice, Quot.sound |
| C10 | `Verif.Single.C10_executed_met` | propext, Classical.choice, Quot.sound |
| C10 | `Verif.Single.C10_pass_complete` | propext, Classical.choice, Quot.sound |
| C10 | `Verif.Single.C10_pass_iff` | propext, Classical.choice, Quot.sound |
| C10 | `Verif.Single.C10_executed_nearly` | propext, Classical.choice, Quot.sound |
| C10 | `Verif.Single.C10_sends_what_was_proposed` | propext, Classical.choice, Quot.sound |
| C100 | `Verif.TokenStaked.C100_hooks` | propext, Classical.choice, Quot.sound |
| C100 | `Verif.TokenStaked.C100_last` | propext, Classical.choice, Quot.sound |
| C100 | `Verif.TokenStaked.C100_can` | propext, Classical.choice, Quot.sound |
| C100 | `Verif.NftStaked.C100_hooks` | propext, Classical.choice, Quot.sound |
| C100 | `Verif.NftStaked.C100_last` | propext, Classical.choice, Quot.sound |
| C100 | `Verif.NftStaked.C100_can` | propext, Classical.choice, Quot.sound |
| C100 | `Verif.Cw20Stake.C100_hooks` | propext, Classical.choice, Quot.sound |
| C100 | `Verif.Cw20Stake.C100_last` | propext, Classical.choice, Quot.sound |
| C100 | `Verif.Cw20Stake.C100_can` | propext, Classical.choice, Quot.sound |
| C100 | `Verif.OnftStaked.C100_hooks` | propext, Classical.choice, Quot.sound |
| C100 | `Verif.OnftStaked.C100_last` | propext, Classical.choice, Quot.sound |
| C100 | `Verif.Roles.C100_hooks` | propext, Classical.choice, Quot.sound |
| C100 | `Verif.Single.C100_hooks` | propext, Classical.choice, Quot.sound |
| C100 | `Verif.Single.C100_last` | propext, Classical.choice, Quot.sound |
| C100 | `Verif.Single.C100_can` | propext, Classical.choice, Quot.sound |
| C100 | `Verif.Multiple.C100_hooks` | propext, Classical.choice, Quot.sound |
| C100 | `Verif.Multiple.C100_last` | propext, Classical.choice, Quot.sound |
| C100 | `Verif.Multiple.C100_can` | propext, Classical.choice, Quot.sound |
| C100 | `Verif.Condorcet.C100_last` | propext, Quot.sound |
| C100 | `Verif.PrePropose.C100_hooks` | propext, Classical.choice, Quot.sound |
| C100 | `Verif.PrePropose.C100_last` | propext, Classical.choice, Quot.sound |
| C100 | `Verif.PrePropose.C100_approval_hooks` | propext, Classical.choice, Quot.sound |
| C100 | `Verif.PrePropose.C100_approval_last` | propext, Classical.choice, Quot.sound |
| C100 | `Verif.OnftStaked.C100_can` | propext, Classical.choice, Quot.sound |
| C100 | `Verif.Roles.C100_can` | propext, Classical.choice, Quot.sound |
| C100 | `Verif.PrePropose.C100_can` | propext, Classical.choice, Quot.sound |
| C100 | `Verif.PrePropose.C100_policy` | propext, Quot.sound |
| C100 | `Verif.PrePropose.C100_approval_policy` | propext, Quot.sound |
| C100 | `Verif.PrePropose.C100_policy_example` | propext, Classical.choice, Quot.sound |
| C101 | `Verif.Single.C101_instantiate` | propext, Classical.choice, Quot.sound |
| C101 | `Verif.Single.C101_update` | propext, Classical.choice, Quot.sound |
| C101 | `Verif.Single.C101_always` | propext, Classical.choice, Quot.sound |
| C101 | `Verif.Single.C101_no_period` | propext, Classical.choice, Quot.sound |
| C101 | `Verif.Multiple.C101_instantiate` | propext, Quot.sound |
| C101 | `Verif.Multiple.C101_update` | propext, Quot.sound |
| C101 | `Verif.Multiple.C101_always` | propext, Classical.choice, Quot.sound |
| C101 | `Verif.Multiple.C101_no_period` | propext, Classical.choice, Quot.sound |
| C101 | `Verif.Condorcet.C101_instantiate` | propext, Quot.sound |
| C101 | `Verif.Condorcet.C101_update` | propext, Quot.sound |
| C101 | `Verif.Condorcet.C101_always` | propext, Quot.sound |
| C102 | `Verif.FundedDao.C102_share` | propext, Classical.choice, Quot.sound |
| C102 | `Verif.FundedDao.C102_fixed` | propext, Quot.sound |
| C102 | `Verif.FundedDao.C102_solvent` | propext, Classical.choice, Quot.sound |
| C102 | `Verif.FundedDao.C102_claim` | propext, Classical.choice, Quot.sound |
| C102 | `Verif.FundedDao.C102_at_creation` | propext, Classical.choice, Quot.sound |
| C102 | `Verif.FundedDao.C102_exhausts` | propext, Classical.choice, Quot.sound |
| C102 | `Verif.FundedDao.Example.C102_example` | propext, Quot.sound |
| C102 | `Verif.FundedDao.Example.C102_example_again` | propext, Quot.sound |
| C102 | `Verif.FundedDao.Example.C102_future_witness` | propext, Quot.sound |
| C102 | `Verif.FundedDao.Example.C102_totals_witness` | propext, Quot.sound |
| C103 | `Verif.Single.C103_proposals` | propext, Classical.choice, Quot.sound |
| C103 | `Verif.Single.C103_reverse` | propext, Classical.choice, Quot.sound |
| C103 | `Verif.Single.C103_votes` | propext, Classical.choice, Quot.sound |
| C103 | `Verif.Single.C103_votes_power` | propext, Classical.choice, Quot.sound |
| C103 | `Verif.Multiple.C103_proposals` | propext, Classical.choice, Quot.sound |
| C103 | `Verif.Multiple.C103_reverse` | propext, Classical.choice, Quot.sound |
| C103 | `Verif.Multiple.C103_votes` | propext, Classical.choice, Quot.sound |
| C103 | `Verif.Multiple.C103_votes_power` | propext, Classical.choice, Quot.sound |
| C103 | `Verif.Listings.C103_once` | propext |
| C103 | `Verif.Listings.C103_token_stakers` | propext, Classical.choice, Quot.sound |
| C103 | `Verif.Listings.C103_cw20_stakers` | propext, Classical.choice, Quot.sound |
| C103 | `Verif.Listings.C103_members` | propext, Classical.choice, Quot.sound |
| C103 | `Verif.Listings.C103_nfts` | propext, Classical.choice, Quot.sound |
| C103 | `Verif.Listings.C103_submissions` | propext, Classical.choice, Quot.sound |
| C103 | `Verif.Listings.C103_example` | propext |
| C103 | `Verif.Listings.C103_example_votes` | propext |
| C103 | `Verif.Listings.C103_example_stakers` | propext |
| C103 | `Verif.Listings.C103_limit_witness` | propext |
| C103 | `Verif.Listings.C103_onfts` | propext, Classical.choice, Quot.sound |
| C104 | `Verif.WholeMulti.C104_never_lost` | propext, Classical.choice, Quot.sound |
| C104 | `Verif.WholeMulti.C104_carried_out` | propext, Classical.choice, Quot.sound |
| C104 | `Verif.WholeMulti.C104_vote_accepted` | propext, Classical.choice, Quot.sound |
| C104 | `Verif.WholeMulti.C104_unstoppable` | propext, Classical.choice, Quot.sound |
| C104 | `Verif.WholeMulti.C104_majority_acts` | propext, Classical.choice, Quot.sound |
| C104 | `Verif.WholeMulti.C104_new_total` | propext, Classical.choice, Quot.sound |
| C104 | `Verif.WholeMulti.C104_zero_period` | propext, Classical.choice, Quot.sound |
| C104 | `Verif.WholeMulti.C104_half_decides` | propext, Classical.choice, Quot.sound |
| C104 | `Verif.WholeMulti.C104_half_needed` | propext, Quot.sound |
| C104 | `Verif.WholeMulti.Example.C104_example` | propext, Classical.choice, Quot.sound |
| C104 | `Verif.WholeMulti.Example.C104_example_unstoppable` | propext, Classical.choice, Quot.sound |
| C104 | `Verif.WholeMulti.Example.C104_witness_zero` | propext, Classical.choice, Quot.sound |
| C105 | `Verif.WholeCondorcet.C105_never_lost` | propext, Classical.choice, Quot.sound |
| C105 | `Verif.WholeCondorcet.C105_carried_out` | propext, Classical.choice, Quot.sound |
| C105 | `Verif.WholeCondorcet.C105_decides` | propext, Classical.choice, Quot.sound |
| C105 | `Verif.WholeCondorcet.C105_unstoppable` | propext, Classical.choice, Quot.sound |
| C105 | `Verif.WholeCondorcet.C105_majority_acts` | propext, Classical.choice, Quot.sound |
| C105 | `Verif.WholeCondorcet.C105_new_total` | propext, Classical.choice, Quot.sound |
| C105 | `Verif.WholeCondorcet.C105_half_needed` | propext, Classical.choice, Quot.sound |
| C105 | `Verif.WholeCondorcet.C105_zero_period` | propext, Classical.choice, Quot.sound |
| C105 | `Verif.WholeCondorcet.Example.C105_example` | propext, Classical.choice, Quot.sound |
| C105 | `Verif.WholeCondorcet.Example.C105_example_unstoppable` | propext, Quot.sound |
| C105 | `Verif.WholeCondorcet.Example.C105_witness_zero` | propext, Classical.choice, Quot.sound |
| C106 | `Verif.DaoCore.C106_pause` | propext, Classical.choice, Quot.sound |
| C106 | `Verif.DaoCore.C106_pause_last` | propext, Quot.sound |
| C106 | `Verif.DaoCore.C106_pause_ends` | propext, Quot.sound |
| C106 | `Verif.DaoCore.C106_modules` | propext, Classical.choice, Quot.sound |
| C106 | `Verif.DaoCore.C106_active` | propext, Classical.choice, Quot.sound |
| C106 | `Verif.DaoCore.C106_dump` | propext, Classical.choice, Quot.sound |
| C106 | `Verif.DaoCore.C106_new_voting` | propext, Quot.sound |
| C106 | `Verif.DaoCore.C106_lists` | propext, Classical.choice, Quot.sound |
| C106 | `Verif.DaoCore.C106_example` | propext |
| C107 | `Verif.DaoCore.C107_balances_partial` | propext, Classical.choice, Quot.sound |
| C107 | `Verif.DaoCore.C107_blocked` | propext, Quot.sound |
| C107 | `Verif.DaoCore.C107_repair` | propext, Quot.sound |
| C107 | `Verif.DaoCore.C107_example` | propext |
| C108 | `Verif.FundDistributor.C108_entitlements` | propext, Classical.choice, Quot.sound |
| C108 | `Verif.FundDistributor.C108_claim` | propext, Classical.choice, Quot.sound |
| C108 | `Verif.FundDistributor.C108_pool` | propext, Classical.choice, Quot.sound |
| C108 | `Verif.FundDistributor.C108_example` | propext |
| C108 | `Verif.FundDistributor.C43_claim_live` | propext, Classical.choice, Quot.sound |
| C109 | `Verif.Owners.C109_stake` | propext, Quot.sound |
| C109 | `Verif.Owners.C109_distributor` | propext, Quot.sound |
| C109 | `Verif.Owners.C109_external` | propext, Quot.sound |
| C109 | `Verif.Owners.C109_rewards` | propext, Quot.sound |
| C109 | `Verif.Owners.C109_issuer` | propext, Quot.sound |
| C109 | `Verif.Owners.C109_vesting` | propext, Quot.sound |
| C109 | `Verif.Owners.C109_payroll` | propext, Quot.sound |
| C109 | `Verif.Owners.C109_roles` | propext, Quot.sound |
| C109 | `Verif.Owners.C109_renounced` | propext |
| C109 | `Verif.Owners.C109_nominated` | propext |
| C109 | `Verif.Owners.C109_example` | propext |
| C11 | `Verif.Single.C11_execute_after_timelock` | propext, Classical.choice, Quot.sound |
| C11 | `Verif.Single.C11_veto_conditions` | propext, Quot.sound |
| C11 | `Verif.Single.C11_vetoed_never_executed` | propext, Classical.choice, Quot.sound |
| C11 | `Verif.Multiple.C11_execute_after_timelock` | propext, Classical.choice, Quot.sound |
| C11 | `Verif.Multiple.C11_veto_conditions` | propext, Quot.sound |
| C11 | `Verif.Multiple.C11_vetoed_never_executed` | propext, Classical.choice, Quot.sound |
| C110 | `Verif.Owners.C110_stake` | propext, Quot.sound |
| C110 | `Verif.Owners.C110_distributor` | propext, Quot.sound |
| C110 | `Verif.Owners.C110_external` | propext, Quot.sound |
| C110 | `Verif.Owners.C110_rewards` | propext, Quot.sound |
| C110 | `Verif.Owners.C110_issuer` | propext, Quot.sound |
| C110 | `Verif.Owners.C110_vesting` | propext, Quot.sound |
| C110 | `Verif.Owners.C110_payroll` | propext, Quot.sound |
| C111 | `Verif.DepositDao.C111_submitted` | propext, Classical.choice, Quot.sound |
| C111 | `Verif.DepositDao.C111_mandate` | propext, Classical.choice, Quot.sound |
| C111 | `Verif.DepositDao.C111_deposit` | propext, Classical.choice, Quot.sound |
| C111 | `Verif.DepositDao.Example.C111_example` | propext, Quot.sound |
| C111 | `Verif.DepositDao.C111_attached` | propext, Classical.choice, Quot.sound |
| C111 | `Verif.DepositDao.C111_hook_fails` | propext, Classical.choice, Quot.sound |
| C111 | `Verif.DepositDao.Example.C111_attached_example` | propext |
| C112 | `Verif.DepositDao.C112_members_act` | propext, Classical.choice, Quot.sound |
| C112 | `Verif.DepositDao.C112_unstoppable` | propext, Classical.choice, Quot.sound |
| C112 | `Verif.DepositDao.Example.C112_example` | propext, Classical.choice, Quot.sound |
| C113 | `Verif.TwoHouses.C113_proposals` | propext, Classical.choice, Quot.sound |
| C113 | `Verif.TwoHouses.C113_mandate` | propext, Classical.choice, Quot.sound |
| C113 | `Verif.TwoHouses.Example.C113_example` | propext, Quot.sound |
| C114 | `Verif.TwoHouses.C114_members_act` | propext, Classical.choice, Quot.sound |
| C114 | `Verif.TwoHouses.Example.C114_example` | propext, Classical.choice, Quot.sound |
| C115 | `Verif.FanDao.C115_created` | propext, Quot.sound |
| C115 | `Verif.FanDao.C115_creates_iff` | propext, Classical.choice, Quot.sound |
| C115 | `Verif.FanDao.C115_backed` | propext, Classical.choice, Quot.sound |
| C115 | `Verif.FanDao.C115_stake` | propext, Classical.choice, Quot.sound |
| C115 | `Verif.FanDao.C115_unstake` | propext, Classical.choice, Quot.sound |
| C115 | `Verif.FanDao.C115_claim` | propext, Classical.choice, Quot.sound |
| C115 | `Verif.FanDao.C115_supply` | propext, Classical.choice, Quot.sound |
| C115 | `Verif.FanDao.C115_minter` | propext, Classical.choice, Quot.sound |
| C115 | `Verif.FanDao.C115_ceiling` | propext, Classical.choice, Quot.sound |
| C115 | `Verif.FanDao.C115_active_iff` | propext, Classical.choice, Quot.sound |
| C115 | `Verif.FanDao.C115_can_activate_partial` | propext, Classical.choice, Quot.sound |
| C115 | `Verif.FanDao.Example.C115_example` | propext |
| C115 | `Verif.FanDao.Example.C115_refused` | propext |
| C115 | `Verif.FanDao.Example.C115_history` | propext |
| C115 | `Verif.FanDao.Example.C115_can_activate` | propext, Classical.choice, Quot.sound |
| C115 | `Verif.FanDao.Example.C115_born_locked` | propext, Classical.choice, Quot.sound |
| C116 | `Verif.DepositMulti.C116_submitted` | propext, Classical.choice, Quot.sound |
| C116 | `Verif.DepositMulti.C116_mandate` | propext, Classical.choice, Quot.sound |
| C116 | `Verif.DepositMulti.C116_deposit` | propext, Classical.choice, Quot.sound |
| C116 | `Verif.DepositMulti.C116_totals` | propext, Classical.choice, Quot.sound |
| C116 | `Verif.DepositMulti.C116_totals_partial` | propext, Classical.choice, Quot.sound |
| C116 | `Verif.DepositMulti.Example.C116_example` | propext, Classical.choice, Quot.sound |
| C116 | `Verif.DepositMulti.C116_attached` | propext, Classical.choice, Quot.sound |
| C116 | `Verif.DepositMulti.C116_hook_fails` | propext, Classical.choice, Quot.sound |
| C116 | `Verif.DepositMulti.Example.C116_attached_example` | propext |
| C117 | `Verif.DepositMulti.C117_members_act` | propext, Classical.choice, Quot.sound |
| C117 | `Verif.DepositMulti.C117_unstoppable` | propext, Classical.choice, Quot.sound |
| C117 | `Verif.DepositMulti.Example.C117_example` | propext, Classical.choice, Quot.sound |
| C118 | `Verif.VetoDao.C118_watched` | propext, Quot.sound |
| C118 | `Verif.VetoDao.C118_watcher` | propext, Quot.sound |
| C118 | `Verif.VetoDao.C118_veto` | propext, Classical.choice, Quot.sound |
| C118 | `Verif.VetoDao.C118_executed` | propext, Classical.choice, Quot.sound |
| C118 | `Verif.VetoDao.C118_final` | propext, Classical.choice, Quot.sound |
| C118 | `Verif.VetoDao.Example.C118_example` | propext, Quot.sound |
| C118 | `Verif.VetoDao.C118_not_dropped` | propext |
| C119 | `Verif.VetoDao.C119_members_veto` | propext, Classical.choice, Quot.sound |
| C119 | `Verif.VetoDao.C119_open_to_veto` | propext, Classical.choice, Quot.sound |
| C119 | `Verif.VetoDao.C119_waits` | propext, Classical.choice, Quot.sound |
| C119 | `Verif.VetoDao.C119_carried_out` | propext, Quot.sound |
| C119 | `Verif.VetoDao.C119_in_time` | propext, Classical.choice, Quot.sound |
| C119 | `Verif.VetoDao.Example.C119_example` | propext, Classical.choice, Quot.sound |
| C119 | `Verif.VetoDao.Example.C119_example_in_time` | propext, Classical.choice, Quot.sound |
| C12 | `Verif.Single.C12_revoting_undecided` | propext, Quot.sound |
| C12 | `Verif.Single.C12_min_period` | propext, Quot.sound |
| C12 | `Verif.Multiple.C12_multiple_revoting_undecided` | propext, Quot.sound |
| C12 | `Verif.Multiple.C12_multiple_min_period` | propext |
| C120 | `Verif.VetoMulti.C120_watched` | propext, Quot.sound |
| C120 | `Verif.VetoMulti.C120_watcher` | propext, Quot.sound |
| C120 | `Verif.VetoMulti.C120_totals` | propext, Classical.choice, Quot.sound |
| C120 | `Verif.VetoMulti.C120_veto` | propext, Classical.choice, Quot.sound |
| C120 | `Verif.VetoMulti.C120_executed` | propext, Classical.choice, Quot.sound |
| C120 | `Verif.VetoMulti.C120_final` | propext, Classical.choice, Quot.sound |
| C120 | `Verif.VetoMulti.Example.C120_example` | propext, Classical.choice, Quot.sound |
| C120 | `Verif.VetoMulti.C120_not_dropped` | propext |
| C121 | `Verif.VetoMulti.C121_members_veto` | propext, Classical.choice, Quot.sound |
| C121 | `Verif.VetoMulti.C121_open_to_veto` | propext, Classical.choice, Quot.sound |
| C121 | `Verif.VetoMulti.C121_waits` | propext, Classical.choice, Quot.sound |
| C121 | `Verif.VetoMulti.C121_carried_out` | propext, Quot.sound |
| C121 | `Verif.VetoMulti.C121_in_time` | propext, Classical.choice, Quot.sound |
| C121 | `Verif.VetoMulti.Example.C121_example` | propext, Classical.choice, Quot.sound |
| C121 | `Verif.VetoMulti.Example.C121_example_in_time` | propext, Classical.choice, Quot.sound |
| C122 | `Verif.OwnedDao.C122_dao` | propext, Quot.sound |
| C122 | `Verif.OwnedDao.C122_contract` | propext, Quot.sound |
| C122 | `Verif.OwnedDao.C122_decided` | propext, Classical.choice, Quot.sound |
| C122 | `Verif.OwnedDao.C122_kept` | propext, Classical.choice, Quot.sound |
| C122 | `Verif.OwnedDao.C122_owner_acts` | propext, Classical.choice, Quot.sound |
| C122 | `Verif.OwnedDao.C122_vesting` | propext, Classical.choice, Quot.sound |
| C122 | `Verif.OwnedDao.C122_issuer` | propext, Classical.choice, Quot.sound |
| C122 | `Verif.OwnedDao.C122_rewards` | propext, Classical.choice, Quot.sound |
| C122 | `Verif.OwnedDao.C122_stake` | propext, Classical.choice, Quot.sound |
| C122 | `Verif.OwnedDao.C122_distributor` | propext, Classical.choice, Quot.sound |
| C122 | `Verif.OwnedDao.C122_external` | propext, Classical.choice, Quot.sound |
| C122 | `Verif.OwnedDao.C122_payroll` | propext, Classical.choice, Quot.sound |
| C122 | `Verif.OwnedDao.C122_roles` | propext, Classical.choice, Quot.sound |
| C122 | `Verif.OwnedDao.Example.C122_example` | propext, Quot.sound |
| C122 | `Verif.OwnedDao.Example.C122_example_given_away` | propext, Quot.sound |
| C122 | `Verif.OwnedDao.Example.C122_example_issuer` | propext, Quot.sound |
| C122 | `Verif.OwnedDao.Example.C122_example_rewards` | propext, Quot.sound |
| C122 | `Verif.OwnedDao.Example.C122_example_stake` | propext, Quot.sound |
| C122 | `Verif.OwnedDao.Example.C122_example_distributor` | propext, Quot.sound |
| C122 | `Verif.OwnedDao.Example.C122_example_external` | propext, Quot.sound |
| C122 | `Verif.OwnedDao.Example.C122_example_payroll` | propext, Quot.sound |
| C122 | `Verif.OwnedDao.Example.C122_example_roles` | propext, Quot.sound |
| C122 | `Verif.OwnedDao.C122_not_dropped` | propext, Quot.sound |
| C123 | `Verif.OwnedDao.C123_carried_out` | propext, Quot.sound |
| C123 | `Verif.OwnedDao.C123_members_use` | propext, Classical.choice, Quot.sound |
| C123 | `Verif.OwnedDao.C123_unstoppable` | propext, Classical.choice, Quot.sound |
| C123 | `Verif.OwnedDao.C123_cancel` | propext, Classical.choice, Quot.sound |
| C123 | `Verif.OwnedDao.C123_minter` | propext, Classical.choice, Quot.sound |
| C123 | `Verif.OwnedDao.Example.ready_majority` | propext, Quot.sound |
| C123 | `Verif.OwnedDao.Example.C123_example` | propext, Classical.choice, Quot.sound |
| C124 | `Verif.OwnRules.C124_decreed` | propext, Classical.choice, Quot.sound |
| C124 | `Verif.OwnRules.C124_rules` | propext, Classical.choice, Quot.sound |
| C124 | `Verif.OwnRules.C124_token_staked` | propext, Classical.choice, Quot.sound |
| C124 | `Verif.OwnRules.C124_nft_staked` | propext, Classical.choice, Quot.sound |
| C124 | `Verif.OwnRules.C124_onft_staked` | propext, Classical.choice, Quot.sound |
| C124 | `Verif.OwnRules.C124_cw20_staked` | propext, Classical.choice, Quot.sound |
| C124 | `Verif.OwnRules.C124_cw4` | propext, Classical.choice, Quot.sound |
| C124 | `Verif.OwnRules.C124_roles` | propext, Classical.choice, Quot.sound |
| C124 | `Verif.OwnRules.Example.C124_example_cw4` | propext, Quot.sound |
| C124 | `Verif.OwnRules.Example.C124_example_roles` | propext, Quot.sound |
| C124 | `Verif.OwnRules.Example.C124_example_token` | propext, Quot.sound |
| C124 | `Verif.OwnRules.Example.C124_example_nft` | propext, Quot.sound |
| C124 | `Verif.OwnRules.Example.C124_example_onft` | propext, Quot.sound |
| C124 | `Verif.OwnRules.Example.C124_example_cw20` | propext, Quot.sound |
| C124 | `Verif.OwnRules.Example.C125_example_rules` | propext, Classical.choice, Quot.sound |
| C125 | `Verif.OwnRules.C125_voting` | propext, Classical.choice, Quot.sound |
| C125 | `Verif.OwnRules.C125_rules` | propext, Classical.choice, Quot.sound |
| C125 | `Verif.OwnRules.C125_members_cw4` | propext, Classical.choice, Quot.sound |
| C125 | `Verif.OwnRules.C125_members_roles` | propext, Classical.choice, Quot.sound |
| C125 | `Verif.OwnRules.Example.ready_majority` | propext, Quot.sound |
| C125 | `Verif.OwnRules.Example.C125_example_cw4` | propext, Classical.choice, Quot.sound |
| C125 | `Verif.OwnRules.Example.C125_example_roles` | propext, Classical.choice, Quot.sound |
| C126 | `Verif.Clock.C126_single_partial` | propext, Quot.sound |
| C126 | `Verif.Clock.C126_multiple_partial` | propext, Quot.sound |
| C126 | `Verif.Clock.C126_condorcet_partial` | propext, Quot.sound |
| C126 | `Verif.Clock.C126_cw20_stake_partial` | propext, Quot.sound |
| C126 | `Verif.Clock.C126_token_staked_partial` | propext, Quot.sound |
| C126 | `Verif.Clock.C126_nft_staked_partial` | propext, Quot.sound |
| C126 | `Verif.Clock.C126_onft_staked_partial` | propext, Quot.sound |
| C126 | `Verif.Clock.C126_single_status_partial` | propext, Quot.sound |
| C126 | `Verif.Clock.C126_multiple_status_partial` | propext, Quot.sound |
| C126 | `Verif.Clock.C126_safe` | propext, Quot.sound |
| C126 | `Verif.Clock.C126_live` | propext, Quot.sound |
| C126 | `Verif.Clock.C126_reasonable` | propext, Quot.sound |
| C126 | `Verif.Clock.C126_endless` | propext, Quot.sound |
| C126 | `Verif.Clock.C126_frozen_witness` | propext, Quot.sound |
| C126 | `Verif.Clock.C126_locked_witness` | propext, Quot.sound |
| C126 | `Verif.Clock.C126_timelock_witness` | propext, Quot.sound |
| C126 | `Verif.Clock.C126_dao_frozen` | propext, Classical.choice, Quot.sound |
| C126 | `Verif.Clock.Example.C126_dao_frozen_witness` | propext, Classical.choice, Quot.sound |
| C126 | `Verif.Clock.Example.C126_example_live` | propext, Quot.sound |
| C126 | `Verif.Clock.Example.C126_example_frozen` | propext, Quot.sound |
| C126 | `Verif.Clock.Example.C126_example_locked` | propext, Quot.sound |
| C126 | `Verif.Clock.Example.C126_example_timelock` | propext, Quot.sound |
| C127 | `Verif.Holdings.C127_dao` | propext, Quot.sound |
| C127 | `Verif.Holdings.C127_contract` | propext, Quot.sound |
| C127 | `Verif.Holdings.C127_decided` | propext, Classical.choice, Quot.sound |
| C127 | `Verif.Holdings.C127_kept` | propext, Classical.choice, Quot.sound |
| C127 | `Verif.Holdings.C127_owner_acts` | propext, Classical.choice, Quot.sound |
| C127 | `Verif.Holdings.C127_isolated` | propext, Quot.sound |
| C127 | `Verif.Holdings.C127_carried_out` | propext, Quot.sound |
| C127 | `Verif.Holdings.C127_members_use_single` | propext, Classical.choice, Quot.sound |
| C127 | `Verif.Holdings.C127_members_use_multi` | propext, Classical.choice, Quot.sound |
| C127 | `Verif.Holdings.C127_members_use_condorcet` | propext, Classical.choice, Quot.sound |
| C127 | `Verif.Holdings.Example.C127_example` | propext, Classical.choice, Quot.sound |
| C127 | `Verif.Holdings.Example.C127_example_due` | propext, Classical.choice, Quot.sound |
| C127 | `Verif.Holdings.C127_not_dropped` | propext, Quot.sound |
| C128 | `Verif.FullRules.C128_decreed` | propext, Classical.choice, Quot.sound |
| C128 | `Verif.FullRules.C128_rules` | propext, Classical.choice, Quot.sound |
| C128 | `Verif.FullRules.C128_token_staked` | propext, Classical.choice, Quot.sound |
| C128 | `Verif.FullRules.C128_nft_staked` | propext, Classical.choice, Quot.sound |
| C128 | `Verif.FullRules.C128_onft_staked` | propext, Classical.choice, Quot.sound |
| C128 | `Verif.FullRules.C128_cw20_staked` | propext, Classical.choice, Quot.sound |
| C128 | `Verif.FullRules.C128_cw4` | propext, Classical.choice, Quot.sound |
| C128 | `Verif.FullRules.C128_roles` | propext, Classical.choice, Quot.sound |
| C128 | `Verif.FullRules.Example.C128_example` | propext, Quot.sound |
| C129 | `Verif.FullRules.C129_voting` | propext, Classical.choice, Quot.sound |
| C129 | `Verif.FullRules.C129_single` | propext, Classical.choice, Quot.sound |
| C129 | `Verif.FullRules.C129_multi` | propext, Classical.choice, Quot.sound |
| C129 | `Verif.FullRules.C129_condorcet` | propext, Classical.choice, Quot.sound |
| C129 | `Verif.FullRules.C129_members_cw4` | propext, Classical.choice, Quot.sound |
| C129 | `Verif.FullRules.C129_members_roles` | propext, Classical.choice, Quot.sound |
| C129 | `Verif.FullRules.Example.C129_example_single` | propext, Classical.choice, Quot.sound |
| C129 | `Verif.FullRules.Example.C129_example_multi` | propext, Classical.choice, Quot.sound |
| C129 | `Verif.FullRules.Example.C129_example_condorcet` | propext, Classical.choice, Quot.sound |
| C129 | `Verif.FullRules.Example.C129_example_cw4` | propext, Classical.choice, Quot.sound |
| C129 | `Verif.FullRules.Example.C129_example_roles` | propext, Classical.choice, Quot.sound |
| C13 | `Verif.Single.C13_ids_consecutive` | propext, Classical.choice, Quot.sound |
| C13 | `Verif.Single.C13_ids_exist` | propext, Classical.choice, Quot.sound |
| C13 | `Verif.Multiple.C13_ids_consecutive` | propext, Classical.choice, Quot.sound |
| C13 | `Verif.Multiple.C13_ids_exist` | propext, Classical.choice, Quot.sound |
| C130 | `Verif.Treasury.C130_books` | propext, Classical.choice, Quot.sound |
| C130 | `Verif.Treasury.C130_decided` | propext, Classical.choice, Quot.sound |
| C130 | `Verif.Treasury.C130_native` | propext, Quot.sound |
| C130 | `Verif.Treasury.C130_allowance` | propext, Classical.choice, Quot.sound |
| C130 | `Verif.Treasury.C130_kept` | propext, Classical.choice, Quot.sound |
| C130 | `Verif.Treasury.Example.C130_example` | propext, Classical.choice, Quot.sound |
| C130 | `Verif.Treasury.Example.C130_example_kept` | propext, Quot.sound |
| C131 | `Verif.Treasury.C131_spends` | propext, Classical.choice, Quot.sound |
| C131 | `Verif.Treasury.C131_pays` | propext, Classical.choice, Quot.sound |
| C131 | `Verif.Treasury.Example.C131_example` | propext, Classical.choice, Quot.sound |
| C132 | `Verif.Versions.C132_forward` | propext, Classical.choice, Quot.sound |
| C132 | `Verif.Versions.C132_forward_iff` | propext, Classical.choice, Quot.sound |
| C132 | `Verif.Versions.C132_older_partial` | propext, Classical.choice, Quot.sound |
| C132 | `Verif.Versions.C132_kept` | Quot.sound |
| C132 | `Verif.Versions.C132_always` | propext |
| C132 | `Verif.Versions.C132_tenth_witness` | propext, Quot.sound |
| C132 | `Verif.Versions.C132_example` | propext, Classical.choice, Quot.sound |
| C133 | `Verif.SwapDaos.C133_dao` | propext, Classical.choice, Quot.sound |
| C133 | `Verif.SwapDaos.C133_swap` | propext, Classical.choice, Quot.sound |
| C133 | `Verif.SwapDaos.C133_decided` | propext, Classical.choice, Quot.sound |
| C133 | `Verif.SwapDaos.C133_outcome` | propext, Classical.choice, Quot.sound |
| C133 | `Verif.SwapDaos.C133_not_dropped` | propext, Classical.choice, Quot.sound |
| C133 | `Verif.SwapDaos.C133_provides` | propext, Classical.choice, Quot.sound |
| C133 | `Verif.SwapDaos.C133_withdraws` | propext, Classical.choice, Quot.sound |
| C133 | `Verif.SwapDaos.Example.C133_example` | propext, Classical.choice, Quot.sound |
| C133 | `Verif.SwapDaos.Example.C133_example_provides` | propext, Classical.choice, Quot.sound |
| C133 | `Verif.SwapDaos.Example.C133_example_withdraws` | propext, Classical.choice, Quot.sound |
| C134 | `Verif.DaoNet.C134_dao` | propext, Classical.choice, Quot.sound |
| C134 | `Verif.DaoNet.C134_governed` | propext, Classical.choice, Quot.sound |
| C134 | `Verif.DaoNet.C134_not_dropped` | propext, Classical.choice, Quot.sound |
| C134 | `Verif.DaoNet.C134_admin` | propext, Classical.choice, Quot.sound |
| C134 | `Verif.DaoNet.C134_obeys` | propext, Classical.choice, Quot.sound |
| C134 | `Verif.DaoNet.C134_chain` | propext, Classical.choice, Quot.sound |
| C134 | `Verif.DaoNet.C134_command` | propext, Classical.choice, Quot.sound |
| C134 | `Verif.DaoNet.Example.C134_example` | propext, Classical.choice, Quot.sound |
| C134 | `Verif.DaoNet.Example.C134_example_command` | propext, Classical.choice, Quot.sound |
| C134 | `Verif.DaoNet.C134_sources` | propext, Classical.choice, Quot.sound |
| C134 | `Verif.DaoNet.C134_free` | propext, Classical.choice, Quot.sound |
| C134 | `Verif.DaoNet.Example.C134_example_free` | propext, Classical.choice, Quot.sound |
| C134 | `Verif.DaoNet.C134_reforms` | propext, Classical.choice, Quot.sound |
| C134 | `Verif.DaoNet.C134_unpause` | propext, Classical.choice, Quot.sound |
| C134 | `Verif.DaoNet.Example.C134_example_reforms` | propext, Classical.choice, Quot.sound |
| C134 | `Verif.DaoNet.Example.C134_example_unpause` | propext, Classical.choice, Quot.sound |
| C134 | `Verif.DaoNet.C134_before` | propext, Classical.choice, Quot.sound |
| C134 | `Verif.DaoNet.C134_sound` | propext, Classical.choice, Quot.sound |
| C134 | `Verif.DaoNet.Example.C134_example_before` | propext, Classical.choice, Quot.sound |
| C135 | `Verif.DaoNet.C135_nominated` | propext, Classical.choice, Quot.sound |
| C135 | `Verif.DaoNet.C135_consent` | propext, Classical.choice, Quot.sound |
| C135 | `Verif.DaoNet.C135_release` | propext, Classical.choice, Quot.sound |
| C135 | `Verif.DaoNet.C135_offer` | propext, Classical.choice, Quot.sound |
| C135 | `Verif.DaoNet.C135_accept` | propext, Classical.choice, Quot.sound |
| C135 | `Verif.DaoNet.Example.C135_example` | propext, Classical.choice, Quot.sound |
| C135 | `Verif.DaoNet.Example.C135_example_offer` | propext, Classical.choice, Quot.sound |
| C135 | `Verif.DaoNet.Example.C135_example_accept` | propext, Classical.choice, Quot.sound |
| C135 | `Verif.DaoNet.C135_joined` | propext, Classical.choice, Quot.sound |
| C135 | `Verif.DaoNet.Example.C135_example_joined` | propext, Classical.choice, Quot.sound |
| C136 | `Verif.Federation.C136_dao` | propext, Classical.choice, Quot.sound |
| C136 | `Verif.Federation.C136_speaks` | propext, Classical.choice, Quot.sound |
| C136 | `Verif.Federation.C136_not_dropped` | propext, Classical.choice, Quot.sound |
| C136 | `Verif.Federation.C136_vote_single` | propext, Classical.choice, Quot.sound |
| C136 | `Verif.Federation.C136_vote_multi` | propext, Classical.choice, Quot.sound |
| C136 | `Verif.Federation.C136_vote_condorcet` | propext, Classical.choice, Quot.sound |
| C136 | `Verif.Federation.C136_counts_single` | propext, Classical.choice, Quot.sound |
| C136 | `Verif.Federation.C136_counts_multi` | propext, Classical.choice, Quot.sound |
| C136 | `Verif.Federation.C136_counts_condorcet` | propext, Classical.choice, Quot.sound |
| C136 | `Verif.Federation.C136_members_single` | propext, Classical.choice, Quot.sound |
| C136 | `Verif.Federation.C136_members_multi` | propext, Classical.choice, Quot.sound |
| C136 | `Verif.Federation.C136_members_condorcet` | propext, Classical.choice, Quot.sound |
| C136 | `Verif.Federation.Example.C136_example` | propext, Classical.choice, Quot.sound |
| C136 | `Verif.Federation.Example.C136_example_single` | propext, Classical.choice, Quot.sound |
| C136 | `Verif.Federation.Example.C136_example_multi` | propext, Classical.choice, Quot.sound |
| C136 | `Verif.Federation.Example.C136_example_condorcet` | propext, Classical.choice, Quot.sound |
| C136 | `Verif.Federation.Example.C136_example_members_single` | propext, Classical.choice, Quot.sound |
| C136 | `Verif.Federation.Example.C136_example_members_multi` | propext, Classical.choice, Quot.sound |
| C136 | `Verif.Federation.Example.C136_example_members_condorcet` | propext, Classical.choice, Quot.sound |
| C14 | `Verif.Single.C14_rules_fixed` | propext, Classical.choice, Quot.sound |
| C14 | `Verif.Single.C14_rules_of_new_proposal` | propext, Classical.choice, Quot.sound |
| C14 | `Verif.Multiple.C14_rules_fixed` | propext, Classical.choice, Quot.sound |
| C14 | `Verif.Multiple.C14_rules_of_new_proposal` | propext, Classical.choice, Quot.sound |
| C15 | `Verif.Single.C15_only_dao` | propext, Quot.sound |
| C15 | `Verif.Multiple.C15_only_dao` | propext, Quot.sound |
| C16 | `Verif.Reply.C16_decode_encode` | propext, Classical.choice, Quot.sound |
| C16 | `Verif.Reply.C16_encode_injective` | propext, Classical.choice, Quot.sound |
| C16 | `Verif.Reply.C16_encode_fits` | propext, Quot.sound |
| C16 | `Verif.Reply.C16_bound_sharp` | propext |
| C17 | `Verif.Hooks.C17_one_failure_partial` | propext, Classical.choice, Quot.sound |
| C17 | `Verif.Hooks.C17_no_failure` | propext, Classical.choice, Quot.sound |
| C17 | `Verif.Hooks.C17_false_two_failures` | propext |
| C17 | `Verif.Hooks.C17_false_wrong_one` | propext |
| C17 | `Verif.Hooks.C17_second_removal_is_next` | propext, Quot.sound |
| C17 | `Verif.Hooks.C17_exact` | propext, Quot.sound |
| C17 | `Verif.Hooks.C17_iff` | propext, Classical.choice, Quot.sound |
| C18 | `Verif.Multiple.C18_tally_is_ballot_sum` | propext, Classical.choice, Quot.sound |
| C18 | `Verif.Multiple.C18_ballots_in_range` | propext, Classical.choice, Quot.sound |
| C18 | `Verif.Multiple.C18_shape` | propext, Classical.choice, Quot.sound |
| C18 | `Verif.Multiple.history_plays` | propext |
| C19 | `Verif.Multiple.C19_pass_needs_plurality` | propext, Classical.choice, Quot.sound |
| C19 | `Verif.Multiple.C19_pass_iff` | propext, Classical.choice, Quot.sound |
| C19 | `Verif.Multiple.C19_early_win_final` | propext, Classical.choice, Quot.sound |
| C19 | `Verif.Multiple.C21_winner_unchanged` | propext, Classical.choice, Quot.sound |
| C20 | `Verif.Multiple.C20_never_both` | propext, Classical.choice, Quot.sound |
| C20 | `Verif.Multiple.C20_decided_at_expiry` | propext, Classical.choice, Quot.sound |
| C20 | `Verif.Multiple.C20_early_reject_final` | propext, Classical.choice, Quot.sound |
| C20 | `Verif.Multiple.C20_early_reject_iff` | propext, Classical.choice, Quot.sound |
| C21 | `Verif.Multiple.C21_lifecycle` | propext, Classical.choice, Quot.sound |
| C21 | `Verif.Multiple.C21_reported` | propext, Quot.sound |
| C21 | `Verif.Multiple.C21_final` | propext, Classical.choice, Quot.sound |
| C21 | `Verif.Multiple.C21_execute_once` | propext, Classical.choice, Quot.sound |
| C21 | `Verif.Multiple.C21_only_execute_sends` | propext, Classical.choice, Quot.sound |
| C21 | `Verif.Multiple.C21_messages_unaltered` | propext, Classical.choice, Quot.sound |
| C21 | `Verif.Multiple.C21_winner_messages` | propext, Classical.choice, Quot.sound |
| C22 | `Verif.Condorcet.C22_margins` | propext, Classical.choice, Quot.sound |
| C22 | `Verif.Condorcet.C22_ballots_complete` | propext, Classical.choice, Quot.sound |
| C22 | `Verif.Condorcet.C22_outstanding` | propext, Classical.choice, Quot.sound |
| C22 | `Verif.Condorcet.history_halfway` | propext, Quot.sound |
| C23 | `Verif.Condorcet.C23_winner_sound` | propext, Classical.choice, Quot.sound |
| C23 | `Verif.Condorcet.C23_winner_unique` | propext, Quot.sound |
| C23 | `Verif.Condorcet.C23_winner_complete` | propext, Classical.choice, Quot.sound |
| C23 | `Verif.Condorcet.C23_undisputed_iff` | propext, Classical.choice, Quot.sound |
| C23 | `Verif.Condorcet.C23_C24_stay` | propext, Classical.choice, Quot.sound |
| C23 | `Verif.Condorcet.history_result` | propext, Quot.sound |
| C24 | `Verif.Condorcet.C24_never_iff` | propext, Classical.choice, Quot.sound |
| C25 | `Verif.Condorcet.C25_one_vote` | propext, Classical.choice, Quot.sound |
| C25 | `Verif.Condorcet.C25_second_vote_refused` | propext, Classical.choice, Quot.sound |
| C25 | `Verif.Condorcet.C25_ballot_permanent` | propext, Classical.choice, Quot.sound |
| C25 | `Verif.Condorcet.C25_vote` | propext, Classical.choice, Quot.sound |
| C25 | `Verif.Condorcet.C25_proposer_member` | propext, Quot.sound |
| C25 | `Verif.Condorcet.C25_lifecycle` | propext, Classical.choice, Quot.sound |
| C25 | `Verif.Condorcet.C25_final` | propext, Classical.choice, Quot.sound |
| C25 | `Verif.Condorcet.C25_execute` | propext, Classical.choice, Quot.sound |
| C25 | `Verif.Condorcet.C25_only_execute_sends` | propext, Classical.choice, Quot.sound |
| C25 | `Verif.Condorcet.C25_execute_once` | propext, Classical.choice, Quot.sound |
| C25 | `Verif.Condorcet.C25_rules_fixed` | propext, Classical.choice, Quot.sound |
| C25 | `Verif.Condorcet.C25_ids_consecutive` | propext, Classical.choice, Quot.sound |
| C25 | `Verif.Condorcet.C25_only_dao` | propext, Classical.choice, Quot.sound |
| C25 | `Verif.Condorcet.C25_passed_iff` | propext, Classical.choice, Quot.sound |
| C25 | `Verif.Condorcet.history_reach` | propext, Quot.sound |
| C26 | `Verif.Cw20Stake.C26_total` | propext, Classical.choice, Quot.sound |
| C26 | `Verif.Cw20Stake.C26_total_at_height` | propext, Classical.choice, Quot.sound |
| C27 | `Verif.Cw20Stake.C27_covered` | propext, Classical.choice, Quot.sound |
| C27 | `Verif.Cw20Stake.C27_transfers_succeed` | propext, Classical.choice, Quot.sound |
| C28 | `Verif.Cw20Stake.C28_price_step` | propext, Classical.choice, Quot.sound |
| C28 | `Verif.Cw20Stake.C28_price_history` | propext, Classical.choice, Quot.sound |
| C28 | `Verif.Cw20Stake.C28_no_loss` | propext, Classical.choice, Quot.sound |
| C28 | `Verif.Cw20Stake.C28_no_gain` | propext, Classical.choice, Quot.sound |
| C28 | `Verif.Cw20Stake.C28_no_gain_history` | propext, Classical.choice, Quot.sound |
| C28 | `Verif.Cw20Stake.C28_round_trip` | propext, Classical.choice, Quot.sound |
| C28 | `Verif.Cw20Stake.C28_first_staker_gains` | propext |
| C28 | `Verif.Cw20Stake.C28_first_staker_history` | none |
| C29 | `Verif.Cw20Stake.C29_origin` | propext, Classical.choice, Quot.sound |
| C29 | `Verif.Cw20Stake.C29_claim` | propext, Quot.sound |
| C29 | `Verif.Cw20Stake.C29_untouched` | propext, Quot.sound |
| C29 | `Verif.Cw20Stake.C29_claimable` | propext, Classical.choice, Quot.sound |
| C29 | `Verif.Cw20Stake.C29_unstakeable` | propext, Classical.choice, Quot.sound |
| C29 | `Verif.Cw20Stake.C29_unstake` | propext, Quot.sound |
| C29 | `Verif.Cw20Stake.C29_config` | propext, Quot.sound |
| C29 | `Verif.Cw20Stake.hooks_announce` | propext, Quot.sound |
| C30 | `Verif.Cw20Stake.C30_stake_history` | propext, Classical.choice, Quot.sound |
| C30 | `Verif.Cw20Stake.C30_stake_stable` | propext, Classical.choice, Quot.sound |
| C30 | `Verif.TokenStaked.C30_token_history` | propext, Classical.choice, Quot.sound |
| C30 | `Verif.TokenStaked.C30_token_stable` | propext, Classical.choice, Quot.sound |
| C30 | `Verif.NftStaked.C30_nft_history` | propext, Classical.choice, Quot.sound |
| C30 | `Verif.NftStaked.C30_nft_stable` | propext, Classical.choice, Quot.sound |
| C30 | `Verif.Roles.C30_roles_history` | propext, Classical.choice, Quot.sound |
| C30 | `Verif.Roles.C30_roles_stable` | propext, Classical.choice, Quot.sound |
| C30 | `Verif.Roles.Voting.C30_roles_voting_history` | propext, Classical.choice, Quot.sound |
| C30 | `Verif.Roles.Voting.C30_roles_voting_stable` | propext, Classical.choice, Quot.sound |
| C30 | `Verif.Cw4Voting.C30_cw4_history` | propext, Classical.choice, Quot.sound |
| C30 | `Verif.Cw4Voting.C30_cw4_stable` | propext, Classical.choice, Quot.sound |
| C30 | `Verif.Cw20Voting.C30_cw20_voting_history` | propext, Classical.choice, Quot.sound |
| C30 | `Verif.Cw20Voting.C30_cw20_voting_stable` | propext, Classical.choice, Quot.sound |
| C30 | `Verif.OnftStaked.C30_onft_history` | propext, Classical.choice, Quot.sound |
| C30 | `Verif.OnftStaked.C30_onft_stable` | propext, Classical.choice, Quot.sound |
| C31 | `Verif.TokenStaked.C31_total` | propext, Quot.sound |
| C31 | `Verif.TokenStaked.C31_total_at_height` | propext, Classical.choice, Quot.sound |
| C31 | `Verif.TokenStaked.C31_coins` | propext, Quot.sound |
| C31 | `Verif.TokenStaked.C31_covered` | propext, Quot.sound |
| C31 | `Verif.TokenStaked.C31_account` | propext, Quot.sound |
| C31 | `Verif.TokenStaked.C31_no_overdraft` | propext, Quot.sound |
| C31 | `Verif.TokenStaked.C31_stakeable` | propext, Quot.sound |
| C31 | `Verif.TokenStaked.C31_unstakeable` | propext, Quot.sound |
| C31 | `Verif.TokenStaked.C31_claimable` | propext, Quot.sound |
| C31 | `Verif.TokenStaked.C31_claim` | propext, Quot.sound |
| C31 | `Verif.TokenStaked.C31_claims_kept` | propext, Quot.sound |
| C31 | `Verif.TokenStaked.C31_unstake` | propext, Quot.sound |
| C31 | `Verif.TokenStaked.C31_admin` | propext, Quot.sound |
| C32 | `Verif.Active.C32_percentage` | propext, Classical.choice, Quot.sound |
| C32 | `Verif.Active.C32_reached` | propext, Classical.choice, Quot.sound |
| C32 | `Verif.Active.C32_exact` | propext, Classical.choice, Quot.sound |
| C32 | `Verif.Active.C32_absolute` | none |
| C32 | `Verif.Active.C32_nft` | propext, Classical.choice, Quot.sound |
| C32 | `Verif.Active.C32_reachable` | propext, Classical.choice, Quot.sound |
| C32 | `Verif.Active.C32_precision_witness` | propext, Classical.choice, Quot.sound |
| C32 | `Verif.TokenStaked.C32_token_active` | propext, Classical.choice, Quot.sound |
| C32 | `Verif.TokenStaked.C32_new_token` | propext, Classical.choice, Quot.sound |
| C32 | `Verif.TokenStaked.C32_factory_token` | propext, Classical.choice, Quot.sound |
| C32 | `Verif.NftStaked.C32_nft_active` | propext, Classical.choice, Quot.sound |
| C32 | `Verif.OnftStaked.C32_onft_active` | propext, Classical.choice, Quot.sound |
| C33 | `Verif.NftStaked.C33_power` | propext, Quot.sound |
| C33 | `Verif.NftStaked.C33_total` | propext, Classical.choice, Quot.sound |
| C33 | `Verif.NftStaked.C33_total_at_height` | propext, Classical.choice, Quot.sound |
| C33 | `Verif.NftStaked.C33_once` | propext, Quot.sound |
| C33 | `Verif.NftStaked.C33_custody` | propext, Quot.sound |
| C33 | `Verif.NftStaked.C33_returned` | propext, Quot.sound |
| C33 | `Verif.NftStaked.C33_stakeable` | propext, Quot.sound |
| C33 | `Verif.NftStaked.C33_unstake` | propext, Quot.sound |
| C33 | `Verif.NftStaked.C33_unstakeable` | propext, Quot.sound |
| C33 | `Verif.NftStaked.C33_claimable` | propext, Quot.sound |
| C33 | `Verif.NftStaked.C33_claim` | propext, Quot.sound |
| C33 | `Verif.NftStaked.C33_others` | propext, Quot.sound |
| C33 | `Verif.NftStaked.C33_admin` | propext, Quot.sound |
| C33 | `Verif.NftStaked.C33_hooks` | propext, Quot.sound |
| C33 | `Verif.NftStaked.C33_bounded` | propext, Quot.sound |
| C34 | `Verif.ExternalRewards.C34_bound` | propext, Classical.choice, Quot.sound |
| C34 | `Verif.ExternalRewards.C34_solvent` | propext, Classical.choice, Quot.sound |
| C34 | `Verif.ExternalRewards.C34_claim` | propext, Classical.choice, Quot.sound |
| C34 | `Verif.ExternalRewards.C34_live` | propext, Classical.choice, Quot.sound |
| C34 | `Verif.ExternalRewards.C34_fund` | propext, Quot.sound |
| C34 | `Verif.ExternalRewards.C34_period` | propext, Quot.sound |
| C34 | `Verif.ExternalRewards.C34_overflow_witness` | propext, Classical.choice, Quot.sound |
| C34 | `Verif.ExternalRewards.C34_unhooked_witness` | propext, Classical.choice, Quot.sound |
| C35 | `Verif.RewardDistributor.C35_amount` | propext, Quot.sound |
| C35 | `Verif.RewardDistributor.C35_once` | propext, Quot.sound |
| C35 | `Verif.RewardDistributor.C35_rate_partial` | propext, Quot.sound |
| C35 | `Verif.RewardDistributor.C35_between` | propext, Quot.sound |
| C35 | `Verif.RewardDistributor.C35_live` | propext, Quot.sound |
| C35 | `Verif.RewardDistributor.C35_admin` | propext, Classical.choice, Quot.sound |
| C35 | `Verif.RewardDistributor.C35_config_drops` | propext, Quot.sound |
| C35 | `Verif.RewardDistributor.C35_config_witness` | propext, Quot.sound |
| C36 | `Verif.Wormhole.C36_fold` | propext, Quot.sound |
| C36 | `Verif.Wormhole.C36_live` | propext, Quot.sound |
| C36 | `Verif.Wormhole.C36_none` | propext, Quot.sound |
| C36 | `Verif.Wormhole.C36_sum` | propext, Quot.sound |
| C36 | `Verif.Wormhole.C36_dangerous` | propext, Quot.sound |
| C36 | `Verif.Wormhole.C36_example` | none |
| C37 | `Verif.StakeTracker.C37_amount_partial` | propext, Classical.choice, Quot.sound |
| C37 | `Verif.StakeTracker.C37_total_partial` | propext, Classical.choice, Quot.sound |
| C37 | `Verif.StakeTracker.C37_count_partial` | propext, Classical.choice, Quot.sound |
| C37 | `Verif.StakeTracker.C37_leaving_witness` | none |
| C37 | `Verif.StakeTracker.C37_redelegate_witness` | none |
| C37 | `Verif.StakeTracker.C37_redelegate_zero_witness` | none |
| C37 | `Verif.StakeTracker.C37_shorter_period_witness` | none |
| C37 | `Verif.StakeTracker.C37_unbonding_slash_witness` | none |
| C37 | `Verif.StakeTracker.C37_example` | none |
| C37 | `Verif.StakeTracker.C37_hypotheses` | propext |
| C37 | `Verif.StakeTracker.C37_unbonding_slash` | propext, Classical.choice, Quot.sound |
| C38 | `Verif.Vesting.C38_monotone` | propext, Classical.choice, Quot.sound |
| C38 | `Verif.Vesting.C38_start` | propext, Classical.choice, Quot.sound |
| C38 | `Verif.Vesting.C38_end` | propext, Classical.choice, Quot.sound |
| C38 | `Verif.Vesting.C38_at_end` | propext, Classical.choice, Quot.sound |
| C38 | `Verif.Vesting.C38_history` | propext, Classical.choice, Quot.sound |
| C38 | `Verif.Vesting.C38_example` | propext |
| C39 | `Verif.Vesting.C39_recipient` | propext, Classical.choice, Quot.sound |
| C39 | `Verif.Vesting.C39_total` | propext, Classical.choice, Quot.sound |
| C39 | `Verif.Vesting.C39_slashes_partial` | propext, Classical.choice, Quot.sound |
| C39 | `Verif.Vesting.C39_slashes_witness` | propext |
| C39 | `Verif.Vesting.C39_example` | propext, Quot.sound |
| C40 | `Verif.Vesting.C40_split` | propext, Classical.choice, Quot.sound |
| C40 | `Verif.Vesting.C40_unfunded` | propext, Classical.choice, Quot.sound |
| C40 | `Verif.Vesting.C40_forever` | propext, Classical.choice, Quot.sound |
| C40 | `Verif.Vesting.C40_example` | propext |
| C41 | `Verif.Vesting.C41_liquid_partial` | propext, Classical.choice, Quot.sound |
| C41 | `Verif.Vesting.C41_backed_partial` | propext, Classical.choice, Quot.sound |
| C41 | `Verif.Vesting.C41_slash_partial` | propext, Classical.choice, Quot.sound |
| C41 | `Verif.Vesting.C41_distribute_partial` | propext, Classical.choice, Quot.sound |
| C41 | `Verif.Vesting.C41_withdraw_partial` | propext, Classical.choice, Quot.sound |
| C41 | `Verif.Vesting.C41_cancel_partial` | propext, Classical.choice, Quot.sound |
| C41 | `Verif.Vesting.C41_donation_witness` | propext |
| C41 | `Verif.Vesting.C41_unbonding_witness` | propext |
| C41 | `Verif.Vesting.C41_overstated_witness` | propext |
| C41 | `Verif.Vesting.C41_unfunded_witness` | propext |
| C42 | `Verif.TokenSwap.C42_account` | propext, Quot.sound |
| C42 | `Verif.TokenSwap.C42_terms` | propext, Quot.sound |
| C42 | `Verif.TokenSwap.C42_withdraw` | propext, Quot.sound |
| C42 | `Verif.TokenSwap.C42_final` | propext, Quot.sound |
| C42 | `Verif.TokenSwap.C42_once` | propext, Quot.sound |
| C42 | `Verif.TokenSwap.C42_exact` | propext, Quot.sound |
| C42 | `Verif.TokenSwap.C42_completes` | propext, Quot.sound |
| C42 | `Verif.TokenSwap.exW_run` | propext |
| C42 | `Verif.TokenSwap.exW_open` | propext |
| C43 | `Verif.FundDistributor.C43_share` | propext, Classical.choice, Quot.sound |
| C43 | `Verif.FundDistributor.C43_pool_fixed` | propext, Classical.choice, Quot.sound |
| C43 | `Verif.FundDistributor.C43_fair` | propext |
| C43 | `Verif.FundDistributor.C43_query` | propext, Classical.choice, Quot.sound |
| C43 | `Verif.FundDistributor.exW_run` | propext |
| C43 | `Verif.FundDistributor.exW_again` | propext |
| C44 | `Verif.FundDistributor.C44_solvent` | propext, Classical.choice, Quot.sound |
| C44 | `Verif.FundDistributor.C44_redistribute` | propext, Classical.choice, Quot.sound |
| C44 | `Verif.FundDistributor.C44_heights_differ` | propext |
| C44 | `Verif.FundDistributor.C44_heights_overpay` | propext |
| C45 | `Verif.DaoRewards.C45_bound_partial` | propext, Classical.choice, Quot.sound |
| C45 | `Verif.DaoRewards.C45_backed_partial` | propext, Classical.choice, Quot.sound |
| C45 | `Verif.DaoRewards.C45_balance` | propext, Quot.sound |
| C45 | `Verif.DaoRewards.C45_example` | propext, Quot.sound |
| C45 | `Verif.DaoRewards.C45_witness_votes` | propext, Quot.sound |
| C45 | `Verif.DaoRewards.C45_witness_same_block` | propext, Quot.sound |
| C46 | `Verif.DaoRewards.C46_share` | propext, Classical.choice, Quot.sound |
| C46 | `Verif.DaoRewards.C46_kept_partial` | propext, Classical.choice, Quot.sound |
| C46 | `Verif.DaoRewards.C46_schedule_partial` | propext, Classical.choice, Quot.sound |
| C46 | `Verif.DaoRewards.C46_example_kept` | propext, Quot.sound |
| C46 | `Verif.DaoRewards.C46_example_schedule` | propext, Quot.sound |
| C46 | `Verif.DaoRewards.C46_witness_updates` | propext, Quot.sound |
| C46 | `Verif.DaoRewards.C46_witness_revive` | propext |
| C46 | `Verif.DaoRewards.C46_witness_votes` | propext |
| C47 | `Verif.DaoCore.C47_conserved` | propext, Quot.sound |
| C47 | `Verif.DaoCore.C47_who` | propext, Quot.sound |
| C47 | `Verif.DaoCore.C47_first` | propext, Quot.sound |
| C47 | `Verif.DaoCore.C47_traced` | propext, Quot.sound |
| C47 | `Verif.DaoCore.C47_settings` | propext, Quot.sound |
| C47 | `Verif.DaoCore.C47_itself` | propext, Quot.sound |
| C47 | `Verif.DaoCore.C47_paused` | propext, Quot.sound |
| C47 | `Verif.DaoCore.C47_example` | propext |
| C48 | `Verif.DaoCore.C48_some` | propext, Classical.choice, Quot.sound |
| C48 | `Verif.DaoCore.C48_counts` | propext, Classical.choice, Quot.sound |
| C48 | `Verif.DaoCore.C48_kept` | propext, Classical.choice, Quot.sound |
| C48 | `Verif.DaoCore.C48_can_disable` | propext, Classical.choice, Quot.sound |
| C48 | `Verif.DaoCore.C48_example` | propext |
| C49 | `Verif.DaoCore.C49_injective` | propext, Classical.choice, Quot.sound |
| C49 | `Verif.DaoCore.C49_unique` | propext, Classical.choice, Quot.sound |
| C49 | `Verif.DaoCore.C49_example` | none |
| C50 | `Verif.DaoCore.C50_change` | propext, Quot.sound |
| C50 | `Verif.DaoCore.C50_nomination` | propext, Quot.sound |
| C50 | `Verif.DaoCore.C50_pending` | propext, Quot.sound |
| C50 | `Verif.DaoCore.C50_accepted` | propext, Quot.sound |
| C50 | `Verif.DaoCore.C50_example` | propext |
| C51 | `Verif.DaoCore.C51_items` | propext, Quot.sound |
| C51 | `Verif.DaoCore.C51_remove` | propext, Quot.sound |
| C51 | `Verif.DaoCore.C51_cw20s` | propext, Quot.sound |
| C51 | `Verif.DaoCore.C51_cw721s` | propext, Quot.sound |
| C51 | `Verif.DaoCore.C51_verified` | propext, Quot.sound |
| C51 | `Verif.DaoCore.C51_subDaos` | propext, Quot.sound |
| C51 | `Verif.DaoCore.C51_listed` | propext, Classical.choice, Quot.sound |
| C52 | `Verif.PrePropose.C52_once` | propext, Quot.sound |
| C52 | `Verif.PrePropose.C52_submitted` | propext, Quot.sound |
| C52 | `Verif.PrePropose.C52_paid` | propext, Quot.sound |
| C52 | `Verif.PrePropose.C52_only` | propext, Quot.sound |
| C52 | `Verif.PrePropose.C52_solvent` | propext, Quot.sound |
| C52 | `Verif.PrePropose.C52_accepted` | propext, Quot.sound |
| C52 | `Verif.PrePropose.C52_exactly_once` | propext, Quot.sound |
| C52 | `Verif.PrePropose.single_lawful` | propext, Classical.choice, Quot.sound |
| C52 | `Verif.PrePropose.multiple_lawful` | propext, Classical.choice, Quot.sound |
| C52 | `Verif.PrePropose.example_history` | propext, Quot.sound |
| C52 | `Verif.PrePropose.C52_replaced_strands` | propext, Quot.sound |
| C52 | `Verif.PrePropose.C52_withdrawn_detaches` | propext, Quot.sound |
| C53 | `Verif.PrePropose.C53_submit_iff` | propext, Quot.sound |
| C53 | `Verif.PrePropose.C53_sound` | propext, Quot.sound |
| C53 | `Verif.PrePropose.C53_lists` | propext, Quot.sound |
| C53 | `Verif.PrePropose.C53_only_dao` | propext, Quot.sound |
| C54 | `Verif.PrePropose.App.C54_once` | propext, Classical.choice, Quot.sound |
| C54 | `Verif.PrePropose.App.C54_by_approver` | propext, Classical.choice, Quot.sound |
| C54 | `Verif.PrePropose.App.C54_records` | propext, Classical.choice, Quot.sound |
| C54 | `Verif.PrePropose.App.C54_submitted` | propext, Classical.choice, Quot.sound |
| C54 | `Verif.PrePropose.App.C54_approved` | propext, Classical.choice, Quot.sound |
| C54 | `Verif.PrePropose.App.C54_only_approved` | propext, Classical.choice, Quot.sound |
| C54 | `Verif.PrePropose.App.C54_rejected` | propext, Classical.choice, Quot.sound |
| C54 | `Verif.PrePropose.App.C54_paid` | propext, Classical.choice, Quot.sound |
| C54 | `Verif.PrePropose.App.C54_told_once` | propext, Classical.choice, Quot.sound |
| C54 | `Verif.PrePropose.App.C54_only` | propext, Classical.choice, Quot.sound |
| C54 | `Verif.PrePropose.App.C54_solvent` | propext, Classical.choice, Quot.sound |
| C54 | `Verif.PrePropose.App.C54_can_reject` | propext, Classical.choice, Quot.sound |
| C54 | `Verif.PrePropose.App.C54_example` | propext, Quot.sound |
| C55 | `Verif.PrePropose.Approve.C55_outcome` | propext, Classical.choice, Quot.sound |
| C55 | `Verif.PrePropose.Approve.C55_decided_partial` | propext, Classical.choice, Quot.sound |
| C55 | `Verif.PrePropose.Approve.C55_mirrored` | propext, Classical.choice, Quot.sound |
| C55 | `Verif.PrePropose.Approve.C55_mirror_contents` | propext, Classical.choice, Quot.sound |
| C55 | `Verif.PrePropose.Approve.C55_accepted_iff` | propext, Classical.choice, Quot.sound |
| C55 | `Verif.PrePropose.Approve.C55_only` | propext, Classical.choice, Quot.sound |
| C55 | `Verif.PrePropose.Approve.C55_example` | propext, Quot.sound |
| C55 | `Verif.PrePropose.Approve.C55_veto_strands` | propext, Quot.sound |
| C55 | `Verif.PrePropose.Approve.C55_earlier_proposal_strands` | propext, Quot.sound |
| C55 | `Verif.PrePropose.Approve.C55_no_messages` | propext, Classical.choice, Quot.sound |
| C56 | `Verif.Issuer.C56_mint` | propext, Quot.sound |
| C56 | `Verif.Issuer.C56_mint_le` | propext, Quot.sound |
| C56 | `Verif.Issuer.C56_burn` | propext, Quot.sound |
| C56 | `Verif.Issuer.C56_burn_le` | propext, Quot.sound |
| C56 | `Verif.Issuer.C56_only_owner` | propext, Quot.sound |
| C56 | `Verif.Issuer.C56_mint_effect` | propext, Quot.sound |
| C56 | `Verif.Issuer.C56_burn_effect` | propext, Quot.sound |
| C56 | `Verif.Issuer.C56_supply` | propext, Quot.sound |
| C56 | `Verif.Issuer.C56_can_mint` | propext, Quot.sound |
| C56 | `Verif.Issuer.C56_example` | propext |
| C57 | `Verif.Issuer.C57_answers` | propext, Quot.sound |
| C57 | `Verif.Issuer.C57_transfer` | propext, Quot.sound |
| C57 | `Verif.Issuer.C57_transfer_iff` | propext, Quot.sound |
| C57 | `Verif.Issuer.C57_mint` | propext, Quot.sound |
| C57 | `Verif.Issuer.C57_force` | propext, Quot.sound |
| C57 | `Verif.Issuer.C57_never_self` | propext, Quot.sound |
| C57 | `Verif.Issuer.C57_owner` | propext, Quot.sound |
| C57 | `Verif.Issuer.C57_listener` | propext, Quot.sound |
| C57 | `Verif.Issuer.C57_without_listener` | propext |
| C58 | `Verif.Roles.C58_total` | propext, Quot.sound |
| C58 | `Verif.Roles.C58_total_at_height` | propext, Classical.choice, Quot.sound |
| C58 | `Verif.Roles.C58_member` | propext, Quot.sound |
| C58 | `Verif.Roles.C58_member_partial` | propext, Quot.sound |
| C58 | `Verif.Roles.C58_transfer_keeps_weight` | propext, Quot.sound |
| C58 | `Verif.Roles.C58_transfer_witness` | propext |
| C58 | `Verif.Roles.C58_count` | propext, Quot.sound |
| C58 | `Verif.Roles.C58_example` | propext |
| C58 | `Verif.Roles.Voting.C58_created` | propext, Quot.sound |
| C59 | `Verif.Paginate.C59_map` | propext, Classical.choice, Quot.sound |
| C59 | `Verif.Paginate.C59_keys` | propext |
| C59 | `Verif.Paginate.C59_unlimited` | propext, Quot.sound |
| C59 | `Verif.Paginate.C59_listing` | propext, Classical.choice, Quot.sound |
| C59 | `Verif.Paginate.C59_qualifying` | propext, Classical.choice, Quot.sound |
| C59 | `Verif.Paginate.C59_zero` | propext |
| C59 | `Verif.Paginate.C59_example` | none |
| C60 | `Verif.Hooks.C60_add` | propext, Quot.sound |
| C60 | `Verif.Hooks.C60_remove` | propext, Classical.choice, Quot.sound |
| C60 | `Verif.Hooks.C60_remove_exact` | propext, Classical.choice, Quot.sound |
| C60 | `Verif.Hooks.C60_notified_in_order` | propext, Quot.sound |
| C60 | `Verif.Single.C60_no_duplicates` | propext, Classical.choice, Quot.sound |
| C60 | `Verif.TokenStaked.C60_listeners` | propext, Classical.choice, Quot.sound |
| C60 | `Verif.Cw20Stake.C60_listeners` | propext, Classical.choice, Quot.sound |
| C60 | `Verif.NftStaked.C60_listeners` | propext, Classical.choice, Quot.sound |
| C60 | `Verif.OnftStaked.C60_listeners` | propext, Classical.choice, Quot.sound |
| C60 | `Verif.Roles.C60_listeners` | propext, Classical.choice, Quot.sound |
| C60 | `Verif.TokenStaked.C60_listeners_example` | propext |
| C61 | `Verif.Single.C61_status_total` | propext, Classical.choice, Quot.sound |
| C61 | `Verif.Single.C61_expired_decided` | propext, Quot.sound |
| C61 | `Verif.Single.C61_vote_accepted` | propext, Classical.choice, Quot.sound |
| C61 | `Verif.Single.C61_passed_executable` | propext, Quot.sound |
| C61 | `Verif.Single.C61_members_only` | propext, Quot.sound |
| C61 | `Verif.Single.C61_rejected_closable` | propext, Quot.sound |
| C61 | `Verif.Multiple.C61_status_total` | propext, Classical.choice, Quot.sound |
| C61 | `Verif.Multiple.C61_expired_decided` | propext, Quot.sound |
| C61 | `Verif.Multiple.C61_vote_accepted` | propext, Classical.choice, Quot.sound |
| C61 | `Verif.Multiple.C61_passed_executable` | propext, Classical.choice, Quot.sound |
| C61 | `Verif.Multiple.C61_members_only` | propext, Quot.sound |
| C61 | `Verif.Multiple.C61_rejected_closable` | propext, Quot.sound |
| C61 | `Verif.Condorcet.C61_vote_accepted` | propext, Classical.choice, Quot.sound |
| C61 | `Verif.Condorcet.C61_passed_executable` | propext, Classical.choice, Quot.sound |
| C61 | `Verif.Condorcet.C61_rejected_closable` | propext, Quot.sound |
| C61 | `Verif.Condorcet.C61_expired_decided` | propext, Classical.choice, Quot.sound |
| C62 | `Verif.Single.C62_announced_partial` | propext, Quot.sound |
| C62 | `Verif.Single.C62_vote` | propext, Quot.sound |
| C62 | `Verif.Single.C62_false_on_failure` | propext, Quot.sound |
| C62 | `Verif.Single.failing_execution_exists` | propext |
| C62 | `Verif.Multiple.C62_announced_partial` | propext, Quot.sound |
| C62 | `Verif.Multiple.C62_vote` | propext, Quot.sound |
| C62 | `Verif.Multiple.C62_false_on_failure` | propext, Quot.sound |
| C62 | `Verif.Multiple.failing_execution_exists` | propext |
| C63 | `Verif.ExternalRewards.C63_share` | propext, Classical.choice, Quot.sound |
| C63 | `Verif.ExternalRewards.C34_others` | propext, Classical.choice, Quot.sound |
| C64 | `Verif.Vesting.C64_cancel` | propext, Classical.choice, Quot.sound |
| C64 | `Verif.Vesting.C64_slash` | propext, Classical.choice, Quot.sound |
| C64 | `Verif.Vesting.C64_delegate` | propext, Classical.choice, Quot.sound |
| C64 | `Verif.Vesting.C64_redelegate` | propext, Classical.choice, Quot.sound |
| C64 | `Verif.Vesting.C64_undelegate` | propext, Classical.choice, Quot.sound |
| C64 | `Verif.Vesting.C64_owner_paid` | propext, Classical.choice, Quot.sound |
| C64 | `Verif.Vesting.C64_owner_kept` | propext, Classical.choice, Quot.sound |
| C64 | `Verif.Vesting.C64_withdraw_address` | propext, Quot.sound |
| C65 | `Verif.Vesting.C65_defined_partial` | propext, Classical.choice, Quot.sound |
| C65 | `Verif.Vesting.C65_overflow_witness` | propext |
| C66 | `Verif.DaoRewards.C66_settings` | propext, Quot.sound |
| C66 | `Verif.DaoRewards.C66_payments` | propext, Quot.sound |
| C66 | `Verif.DaoRewards.C66_funding` | propext, Quot.sound |
| C66 | `Verif.DaoRewards.C66_example` | propext, Quot.sound |
| C67 | `Verif.Roles.C67_only_owner` | propext, Classical.choice, Quot.sound |
| C67 | `Verif.Roles.C67_never_handed_over` | propext, Classical.choice, Quot.sound |
| C67 | `Verif.Roles.C67_accept_refused` | propext |
| C67 | `Verif.Roles.C67_witness` | propext |
| C67 | `Verif.Roles.Voting.C67_created_frozen` | propext, Quot.sound |
| C68 | `Verif.Roles.C68_hooks_partial` | propext, Quot.sound |
| C68 | `Verif.Roles.C68_others` | propext, Quot.sound |
| C68 | `Verif.Roles.C68_lowered` | propext, Quot.sound |
| C68 | `Verif.Roles.C68_lowered_witness` | propext |
| C69 | `Verif.Roles.C69_mint_iff` | propext, Quot.sound |
| C69 | `Verif.Roles.C69_burn_iff` | propext, Quot.sound |
| C69 | `Verif.Roles.C69_weight_iff` | propext, Quot.sound |
| C69 | `Verif.Roles.C69_revocable_partial` | propext, Quot.sound |
| C69 | `Verif.Roles.C69_moved_witness` | propext, Quot.sound |
| C69 | `Verif.Roles.C69_weightless_witness` | propext, Quot.sound |
| C69 | `Verif.Roles.C69_effect` | propext, Quot.sound |
| C70 | `Verif.TokenStaked.C70_token` | propext, Classical.choice, Quot.sound |
| C70 | `Verif.NftStaked.C70_nft` | propext, Classical.choice, Quot.sound |
| C70 | `Verif.Cw20Voting.C70_cw20` | propext, Classical.choice, Quot.sound |
| C70 | `Verif.Cw4Voting.C70_cw4_partial` | propext, Classical.choice, Quot.sound |
| C70 | `Verif.Cw4Voting.C70_cw4_witness` | propext |
| C70 | `Verif.Roles.Voting.C70_roles_partial` | propext, Classical.choice, Quot.sound |
| C70 | `Verif.Roles.Voting.C70_roles_witness` | propext |
| C70 | `Verif.TokenStaked.C70_token_example` | propext |
| C70 | `Verif.OnftStaked.C70_onft` | propext, Classical.choice, Quot.sound |
| C71 | `Verif.Cw4Voting.C71_total` | propext, Classical.choice, Quot.sound |
| C71 | `Verif.Cw4Voting.C71_new_iff` | propext, Quot.sound |
| C71 | `Verif.Cw4Voting.C71_new` | propext, Classical.choice, Quot.sound |
| C71 | `Verif.Cw4Voting.C71_only_admin` | propext, Quot.sound |
| C71 | `Verif.Cw4Voting.C71_update` | propext, Quot.sound |
| C71 | `Verif.Cw4Voting.C71_admin_can` | propext, Quot.sound |
| C71 | `Verif.Cw4Voting.C71_frozen` | propext, Quot.sound |
| C71 | `Verif.Cw4Voting.C71_example` | propext |
| C71 | `Verif.Cw4Voting.C71_existing_witness` | propext, Quot.sound |
| C71 | `Verif.Cw4Voting.C71_existing` | propext, Quot.sound |
| C72 | `Verif.Cw20Voting.C72_total` | propext, Classical.choice, Quot.sound |
| C72 | `Verif.Cw20Voting.C72_token` | propext, Classical.choice, Quot.sound |
| C72 | `Verif.Cw20Voting.C72_new_token` | propext, Quot.sound |
| C72 | `Verif.Cw20Voting.C72_created` | propext, Quot.sound |
| C72 | `Verif.Cw20Voting.C72_update_iff` | propext, Quot.sound |
| C72 | `Verif.Cw20Voting.C72_update_only` | propext, Quot.sound |
| C72 | `Verif.Cw20Voting.C72_threshold` | propext, Quot.sound |
| C72 | `Verif.Cw20Voting.C72_active` | propext, Classical.choice, Quot.sound |
| C72 | `Verif.Cw20Voting.C72_example` | propext, Quot.sound |
| C72 | `Verif.Cw20Voting.C72_update_example` | propext, Quot.sound |
| C72 | `Verif.Cw20Voting.C72_new_iff` | propext, Quot.sound |
| C72 | `Verif.Cw20Voting.C72_over_iff` | propext, Quot.sound |
| C73 | `Verif.TokenStaked.C73_token_full` | propext, Classical.choice, Quot.sound |
| C73 | `Verif.NftStaked.C73_nft_full` | propext, Classical.choice, Quot.sound |
| C73 | `Verif.Cw20Voting.C73_cw20_full_partial` | propext, Classical.choice, Quot.sound |
| C73 | `Verif.Cw20Voting.C73_cw20_locked` | propext, Classical.choice, Quot.sound |
| C73 | `Verif.Cw20Voting.C73_cw20_witness` | propext, Classical.choice, Quot.sound |
| C73 | `Verif.TokenStaked.C73_token_example` | propext |
| C73 | `Verif.NftStaked.C73_nft_example` | propext |
| C73 | `Verif.OnftStaked.C73_onft_full` | propext, Classical.choice, Quot.sound |
| C73 | `Verif.OnftStaked.C73_onft_example` | propext |
| C74 | `Verif.OnftStaked.C74_total_at_height` | propext, Classical.choice, Quot.sound |
| C74 | `Verif.OnftStaked.C74_listed_counts` | propext, Quot.sound |
| C74 | `Verif.OnftStaked.C74_power_partial` | propext, Quot.sound |
| C74 | `Verif.OnftStaked.C74_once_partial` | propext, Quot.sound |
| C74 | `Verif.OnftStaked.C74_bounded_partial` | propext, Quot.sound |
| C74 | `Verif.OnftStaked.C74_returned_partial` | propext, Quot.sound |
| C74 | `Verif.OnftStaked.C74_unstake` | propext, Quot.sound |
| C74 | `Verif.OnftStaked.C74_unstakeable_partial` | propext, Quot.sound |
| C74 | `Verif.OnftStaked.C74_claimable_partial` | propext, Quot.sound |
| C74 | `Verif.OnftStaked.C74_claim` | propext, Quot.sound |
| C74 | `Verif.OnftStaked.C74_others` | propext, Quot.sound |
| C74 | `Verif.OnftStaked.C74_admin` | propext, Quot.sound |
| C74 | `Verif.OnftStaked.C74_hooks` | propext, Quot.sound |
| C74 | `Verif.OnftStaked.C74_example` | propext, Quot.sound |
| C74 | `Verif.OnftStaked.C74_double_witness` | propext, Quot.sound |
| C75 | `Verif.OnftStaked.C75_prepare` | propext, Quot.sound |
| C75 | `Verif.OnftStaked.C75_confirm` | propext, Classical.choice, Quot.sound |
| C75 | `Verif.OnftStaked.C75_confirmable` | propext, Quot.sound |
| C75 | `Verif.OnftStaked.C75_rise` | propext, Classical.choice, Quot.sound |
| C75 | `Verif.OnftStaked.C75_cancel` | propext, Quot.sound |
| C75 | `Verif.OnftStaked.C75_leaves` | propext, Quot.sound |
| C75 | `Verif.OnftStaked.C75_recover` | propext, Quot.sound |
| C75 | `Verif.OnftStaked.C75_dao` | propext, Quot.sound |
| C75 | `Verif.OnftStaked.C75_stale_witness` | propext |
| C76 | `Verif.PayrollFactory.C76_registry` | propext, Quot.sound |
| C76 | `Verif.PayrollFactory.C76_kept` | propext, Quot.sound |
| C76 | `Verif.PayrollFactory.C76_pages` | propext, Classical.choice, Quot.sound |
| C76 | `Verif.PayrollFactory.C76_owner_partial` | propext, Quot.sound |
| C76 | `Verif.PayrollFactory.C76_control` | propext, Quot.sound |
| C76 | `Verif.PayrollFactory.C76_forged_witness` | propext, Quot.sound |
| C77 | `Verif.PayrollFactory.C77_balance` | propext, Quot.sound |
| C77 | `Verif.PayrollFactory.C77_funded` | propext, Quot.sound |
| C77 | `Verif.PayrollFactory.C77_vesting` | propext, Quot.sound |
| C77 | `Verif.PayrollFactory.C77_passes_partial` | propext, Quot.sound |
| C77 | `Verif.PayrollFactory.C77_native_kept` | propext, Quot.sound |
| C77 | `Verif.PayrollFactory.C77_clean` | propext, Classical.choice, Quot.sound |
| C77 | `Verif.PayrollFactory.C77_live_native` | propext, Quot.sound |
| C77 | `Verif.PayrollFactory.C77_live_cw20` | propext, Quot.sound |
| C77 | `Verif.PayrollFactory.C77_example` | propext, Quot.sound |
| C77 | `Verif.PayrollFactory.C77_taken_witness` | propext, Quot.sound |
| C77 | `Verif.PayrollFactory.C77_stranded_witness` | propext, Quot.sound |
| C78 | `Verif.AdminFactory.C78_self` | propext, Quot.sound |
| C78 | `Verif.AdminFactory.C78_admin` | propext, Quot.sound |
| C78 | `Verif.AdminFactory.C78_expect_cleared` | propext, Quot.sound |
| C78 | `Verif.AdminFactory.C78_expect_partial` | propext, Quot.sound |
| C78 | `Verif.AdminFactory.C78_inner_blocked` | propext, Quot.sound |
| C78 | `Verif.AdminFactory.C78_funds` | propext, Quot.sound |
| C78 | `Verif.AdminFactory.C78_live` | propext, Quot.sound |
| C78 | `Verif.AdminFactory.C78_example` | propext |
| C78 | `Verif.AdminFactory.C78_expect_witness` | propext |
| C78 | `Verif.AdminFactory.C78_blocked_witness` | propext |
| C79 | `Verif.FanToken.C79_issued` | propext, Quot.sound |
| C79 | `Verif.FanToken.C79_clean` | propext, Quot.sound |
| C79 | `Verif.FanToken.C79_exact` | propext, Quot.sound |
| C79 | `Verif.FanToken.C79_example` | propext |
| C79 | `Verif.FanToken.C79_empty_witness` | propext |
| C79 | `Verif.FanToken.C79_control` | propext, Quot.sound |
| C79 | `Verif.FanToken.C79_control_does` | propext, Quot.sound |
| C80 | `Verif.WholeDao.C80_once` | propext, Classical.choice, Quot.sound |
| C80 | `Verif.WholeDao.C80_decided` | propext, Classical.choice, Quot.sound |
| C80 | `Verif.WholeDao.C80_mandate` | propext, Classical.choice, Quot.sound |
| C80 | `Verif.WholeDao.C80_weights` | propext, Classical.choice, Quot.sound |
| C80 | `Verif.WholeDao.C80_sole` | propext, Classical.choice, Quot.sound |
| C80 | `Verif.WholeDao.C80_carried_out` | propext, Classical.choice, Quot.sound |
| C80 | `Verif.WholeDao.C80_token_staked` | propext, Classical.choice, Quot.sound |
| C80 | `Verif.WholeDao.C80_nft_staked` | propext, Classical.choice, Quot.sound |
| C80 | `Verif.WholeDao.C80_cw20_staked` | propext, Classical.choice, Quot.sound |
| C80 | `Verif.WholeDao.C80_cw4` | propext, Classical.choice, Quot.sound |
| C80 | `Verif.WholeDao.C80_onft_staked` | propext, Classical.choice, Quot.sound |
| C80 | `Verif.WholeDao.C80_roles` | propext, Classical.choice, Quot.sound |
| C80 | `Verif.WholeDao.Example.C80_example` | propext, Quot.sound |
| C80 | `Verif.WholeDao.Example.C80_example_due` | propext, Classical.choice, Quot.sound |
| C80 | `Verif.WholeDao.C80_nearly_decided` | propext, Classical.choice, Quot.sound |
| C81 | `Verif.WholeMulti.C81_once` | propext, Classical.choice, Quot.sound |
| C81 | `Verif.WholeMulti.C81_decided` | propext, Classical.choice, Quot.sound |
| C81 | `Verif.WholeMulti.C81_mandate` | propext, Classical.choice, Quot.sound |
| C81 | `Verif.WholeMulti.C81_weights` | propext, Classical.choice, Quot.sound |
| C81 | `Verif.WholeMulti.C81_sole` | propext, Classical.choice, Quot.sound |
| C81 | `Verif.WholeMulti.C81_carried_out` | propext, Classical.choice, Quot.sound |
| C81 | `Verif.WholeMulti.C81_totals` | propext, Classical.choice, Quot.sound |
| C81 | `Verif.WholeMulti.C81_token_staked` | propext, Classical.choice, Quot.sound |
| C81 | `Verif.WholeMulti.C81_nft_staked` | propext, Classical.choice, Quot.sound |
| C81 | `Verif.WholeMulti.C81_cw20_staked` | propext, Classical.choice, Quot.sound |
| C81 | `Verif.WholeMulti.C81_onft_staked` | propext, Classical.choice, Quot.sound |
| C81 | `Verif.WholeMulti.C81_cw4_partial` | propext, Classical.choice, Quot.sound |
| C81 | `Verif.WholeMulti.C81_roles_partial` | propext, Classical.choice, Quot.sound |
| C81 | `Verif.WholeMulti.Example.C81_cw4_witness` | propext, Quot.sound |
| C81 | `Verif.WholeMulti.Example.C81_roles_witness` | propext, Quot.sound |
| C81 | `Verif.WholeMulti.Example.C81_example` | propext, Classical.choice, Quot.sound |
| C81 | `Verif.WholeMulti.Example.C81_example_due` | propext, Classical.choice, Quot.sound |
| C81 | `Verif.WholeMulti.Example.C81_cw4_example` | propext, Quot.sound |
| C81 | `Verif.WholeMulti.C81_passed_decided_one` | propext, Classical.choice, Quot.sound |
| C81 | `Verif.WholeMulti.C81_carried_out_one` | propext, Classical.choice, Quot.sound |
| C81 | `Verif.WholeMulti.C81_nearly_decided` | propext, Classical.choice, Quot.sound |
| C82 | `Verif.SingleUpgrade.C82_kept` | propext, Quot.sound |
| C82 | `Verif.SingleUpgrade.C82_accepted` | propext, Quot.sound |
| C82 | `Verif.SingleUpgrade.C82_continues` | propext, Classical.choice, Quot.sound |
| C82 | `Verif.SingleUpgrade.C82_execute_once_partial` | propext, Classical.choice, Quot.sound |
| C82 | `Verif.SingleUpgrade.C82_final_partial` | propext, Classical.choice, Quot.sound |
| C82 | `Verif.SingleUpgrade.C82_tally_partial` | propext, Classical.choice, Quot.sound |
| C82 | `Verif.SingleUpgrade.C82_again` | propext, Quot.sound |
| C82 | `Verif.SingleUpgrade.C82_compatible` | propext, Quot.sound |
| C82 | `Verif.SingleUpgrade.Example.C82_example` | propext, Quot.sound |
| C82 | `Verif.SingleUpgrade.Example.C82_again_witness` | propext |
| C82 | `Verif.SingleUpgrade.Example.C82_example_refused` | propext, Quot.sound |
| C83 | `Verif.Migrator.C83_complete` | propext, Classical.choice, Quot.sound |
| C83 | `Verif.Migrator.C83_accepted` | propext, Classical.choice, Quot.sound |
| C83 | `Verif.Migrator.C83_only_core` | propext |
| C83 | `Verif.Migrator.C83_continues` | propext, Classical.choice, Quot.sound |
| C83 | `Verif.Migrator.C83_blocked` | propext, Classical.choice, Quot.sound |
| C83 | `Verif.Migrator.Example.C83_example` | propext, Classical.choice, Quot.sound |
| C83 | `Verif.Migrator.Example.C83_example_blocked` | propext, Classical.choice, Quot.sound |
| C84 | `Verif.StakingUpgrade.C84_accepted` | propext, Quot.sound |
| C84 | `Verif.StakingUpgrade.C84_not_twice` | propext, Quot.sound |
| C84 | `Verif.StakingUpgrade.C84_before` | propext, Quot.sound |
| C84 | `Verif.StakingUpgrade.C84_stake_kept` | propext, Quot.sound |
| C84 | `Verif.StakingUpgrade.C84_rewards_kept` | propext, Quot.sound |
| C84 | `Verif.StakingUpgrade.C84_distributor_kept` | propext, Quot.sound |
| C84 | `Verif.StakingUpgrade.C84_stake_partial` | propext, Quot.sound |
| C84 | `Verif.StakingUpgrade.C84_rewards_partial` | propext, Quot.sound |
| C84 | `Verif.StakingUpgrade.C84_distributor_partial` | propext, Quot.sound |
| C84 | `Verif.StakingUpgrade.C84_stake_again` | propext, Quot.sound |
| C84 | `Verif.StakingUpgrade.C84_rewards_again` | propext, Quot.sound |
| C84 | `Verif.StakingUpgrade.C84_distributor_again` | propext, Quot.sound |
| C84 | `Verif.StakingUpgrade.C84_core_accepted` | propext, Quot.sound |
| C84 | `Verif.StakingUpgrade.C84_core_not_twice` | propext, Quot.sound |
| C84 | `Verif.StakingUpgrade.C84_core_kept` | propext, Classical.choice, Quot.sound |
| C84 | `Verif.StakingUpgrade.C84_core_partial` | propext, Classical.choice, Quot.sound |
| C84 | `Verif.StakingUpgrade.C84_core_again` | propext, Classical.choice, Quot.sound |
| C84 | `Verif.StakingUpgrade.C84_core_example` | propext |
| C84 | `Verif.StakingUpgrade.C84_core_witness` | propext |
| C84 | `Verif.StakingUpgrade.Example.C84_stake_example` | propext |
| C84 | `Verif.StakingUpgrade.Example.C84_again_witness` | propext |
| C84 | `Verif.StakingUpgrade.Example.C84_rewards_example` | propext, Quot.sound |
| C84 | `Verif.StakingUpgrade.Example.C84_distributor_example` | propext |
| C85 | `Verif.PreProposeUpgrade.C85_accepted` | propext, Classical.choice, Quot.sound |
| C85 | `Verif.PreProposeUpgrade.C85_rules` | propext, Classical.choice, Quot.sound |
| C85 | `Verif.PreProposeUpgrade.C85_approval_rules` | propext, Classical.choice, Quot.sound |
| C85 | `Verif.PreProposeUpgrade.C85_continues` | propext, Classical.choice, Quot.sound |
| C85 | `Verif.PreProposeUpgrade.C85_approval_continues` | propext, Classical.choice, Quot.sound |
| C85 | `Verif.PreProposeUpgrade.C85_once` | propext, Classical.choice, Quot.sound |
| C85 | `Verif.PreProposeUpgrade.Example.C85_example` | propext |
| C86 | `Verif.RewardedDao.C86_bound_partial` | propext, Classical.choice, Quot.sound |
| C86 | `Verif.RewardedDao.C86_backed_partial` | propext, Classical.choice, Quot.sound |
| C86 | `Verif.RewardedDao.C86_share` | propext, Classical.choice, Quot.sound |
| C86 | `Verif.RewardedDao.C86_token_staked` | propext, Quot.sound |
| C86 | `Verif.RewardedDao.C86_nft_staked` | propext, Quot.sound |
| C86 | `Verif.RewardedDao.C86_onft_staked` | propext, Quot.sound |
| C86 | `Verif.RewardedDao.C86_cw20_staked` | propext, Quot.sound |
| C86 | `Verif.RewardedDao.C86_roles` | propext, Quot.sound |
| C86 | `Verif.RewardedDao.C86_modules` | propext, Classical.choice, Quot.sound |
| C86 | `Verif.RewardedDao.C86_locked` | propext, Quot.sound |
| C86 | `Verif.RewardedDao.C86_example` | propext, Quot.sound |
| C86 | `Verif.RewardedDao.C86_example_share` | propext, Quot.sound |
| C86 | `Verif.RewardedDao.C86_witness_same_block` | propext, Quot.sound |
| C86 | `Verif.RewardedDao.C86_witness_deaf` | propext, Quot.sound |
| C86 | `Verif.RewardedDao.C86_witness_locked` | propext, Quot.sound |
| C87 | `Verif.WholeDao.C87_majority_acts` | propext, Classical.choice, Quot.sound |
| C87 | `Verif.WholeDao.C87_unstoppable` | propext, Classical.choice, Quot.sound |
| C87 | `Verif.WholeDao.C87_carried_out` | propext, Classical.choice, Quot.sound |
| C87 | `Verif.WholeDao.C87_never_lost` | propext, Classical.choice, Quot.sound |
| C87 | `Verif.WholeDao.C87_vote_accepted` | propext, Classical.choice, Quot.sound |
| C87 | `Verif.WholeDao.C87_half_decides` | propext, Classical.choice, Quot.sound |
| C87 | `Verif.WholeDao.C87_half_decides_quorum` | propext, Classical.choice, Quot.sound |
| C87 | `Verif.WholeDao.C87_zero_period` | propext, Classical.choice, Quot.sound |
| C87 | `Verif.WholeDao.Example.C87_example` | propext, Classical.choice, Quot.sound |
| C87 | `Verif.WholeDao.Example.C87_example_unstoppable` | propext, Classical.choice, Quot.sound |
| C87 | `Verif.WholeDao.Example.C87_witness_zero` | propext, Classical.choice, Quot.sound |
| C88 | `Verif.TokenDao.C88_created` | propext, Classical.choice, Quot.sound |
| C88 | `Verif.TokenDao.C88_creates_iff` | propext, Classical.choice, Quot.sound |
| C88 | `Verif.TokenDao.C88_replaced` | propext, Classical.choice, Quot.sound |
| C88 | `Verif.TokenDao.C88_untouched` | propext, Classical.choice, Quot.sound |
| C88 | `Verif.TokenDao.C88_waiting` | propext, Classical.choice, Quot.sound |
| C88 | `Verif.TokenDao.C88_accepts` | propext, Classical.choice, Quot.sound |
| C88 | `Verif.TokenDao.C88_replaced_witness` | propext |
| C89 | `Verif.TokenDao.C89_backed` | propext, Classical.choice, Quot.sound |
| C89 | `Verif.TokenDao.C89_seizers` | propext, Quot.sound |
| C89 | `Verif.TokenDao.C89_powers_stay` | propext, Quot.sound |
| C89 | `Verif.TokenDao.C89_unstakeable` | propext, Classical.choice, Quot.sound |
| C89 | `Verif.TokenDao.C89_claimable` | propext, Classical.choice, Quot.sound |
| C89 | `Verif.TokenDao.C89_safe` | propext, Classical.choice, Quot.sound |
| C89 | `Verif.TokenDao.C89_lawful` | propext, Classical.choice, Quot.sound |
| C89 | `Verif.TokenDao.C89_seizure_witness` | propext |
| C89 | `Verif.TokenDao.C89_freeze_witness` | propext |
| C90 | `Verif.TokenDao.C90_active_iff` | propext, Classical.choice, Quot.sound |
| C90 | `Verif.TokenDao.C90_can_activate_partial` | propext, Classical.choice, Quot.sound |
| C90 | `Verif.TokenDao.C90_ceiling` | propext, Classical.choice, Quot.sound |
| C90 | `Verif.TokenDao.C90_locked` | propext, Classical.choice, Quot.sound |
| C90 | `Verif.TokenDao.C90_born_locked` | propext, Classical.choice, Quot.sound |
| C90 | `Verif.TokenDao.C90_listed_locked` | propext, Classical.choice, Quot.sound |
| C91 | `Verif.NftDao.C91_creates_iff` | propext, Classical.choice, Quot.sound |
| C91 | `Verif.NftDao.C91_created` | propext, Classical.choice, Quot.sound |
| C91 | `Verif.NftDao.C91_any` | propext, Classical.choice, Quot.sound |
| C91 | `Verif.NftDao.C91_replaced` | propext, Classical.choice, Quot.sound |
| C91 | `Verif.NftDao.C91_mints` | propext, Quot.sound |
| C91 | `Verif.NftDao.C91_silent` | propext, Classical.choice, Quot.sound |
| C91 | `Verif.NftDao.C91_minting` | propext, Quot.sound |
| C91 | `Verif.NftDao.C91_waiting` | propext, Classical.choice, Quot.sound |
| C91 | `Verif.NftDao.C91_replaced_witness` | propext |
| C92 | `Verif.NftDao.C92_custody` | propext, Classical.choice, Quot.sound |
| C92 | `Verif.NftDao.C92_held` | propext, Classical.choice, Quot.sound |
| C92 | `Verif.NftDao.C92_power` | propext, Classical.choice, Quot.sound |
| C92 | `Verif.NftDao.C92_returned` | propext, Classical.choice, Quot.sound |
| C92 | `Verif.NftDao.C92_stakeable` | propext, Classical.choice, Quot.sound |
| C92 | `Verif.NftDao.C92_unstakeable` | propext, Classical.choice, Quot.sound |
| C92 | `Verif.NftDao.C92_claimable` | propext, Classical.choice, Quot.sound |
| C92 | `Verif.NftDao.C92_lawful` | propext, Classical.choice, Quot.sound |
| C92 | `Verif.NftDao.C92_operator_takes` | propext, Quot.sound |
| C92 | `Verif.NftDao.C92_operator_votes` | propext, Classical.choice, Quot.sound |
| C92 | `Verif.NftDao.C92_taken_witness` | propext |
| C92 | `Verif.NftDao.C92_votes_witness` | propext, Classical.choice, Quot.sound |
| C92 | `Verif.NftDao.C92_approve` | propext, Quot.sound |
| C92 | `Verif.NftDao.C92_revoke` | propext, Quot.sound |
| C93 | `Verif.NftDao.C93_can_activate_partial` | propext, Classical.choice, Quot.sound |
| C93 | `Verif.NftDao.C93_count` | propext, Classical.choice, Quot.sound |
| C93 | `Verif.NftDao.C93_ceiling` | propext, Classical.choice, Quot.sound |
| C93 | `Verif.NftDao.C93_locked` | propext, Classical.choice, Quot.sound |
| C93 | `Verif.NftDao.C93_locked_percentage` | propext, Classical.choice, Quot.sound |
| C93 | `Verif.NftDao.C93_born_locked` | propext, Classical.choice, Quot.sound |
| C93 | `Verif.NftDao.C93_burnt_locked` | propext, Classical.choice, Quot.sound |
| C93 | `Verif.NftDao.C93_percentage_locked` | propext, Classical.choice, Quot.sound |
| C93 | `Verif.NftDao.C93_burn_wakes` | propext |
| C94 | `Verif.WholeCondorcet.C94_once` | propext, Classical.choice, Quot.sound |
| C94 | `Verif.WholeCondorcet.C94_decided` | propext, Classical.choice, Quot.sound |
| C94 | `Verif.WholeCondorcet.C94_mandate` | propext, Classical.choice, Quot.sound |
| C94 | `Verif.WholeCondorcet.C94_weights` | propext, Classical.choice, Quot.sound |
| C94 | `Verif.WholeCondorcet.C94_sole` | propext, Classical.choice, Quot.sound |
| C94 | `Verif.WholeCondorcet.C94_carried_out` | propext, Classical.choice, Quot.sound |
| C94 | `Verif.WholeCondorcet.C94_vote_accepted` | propext, Classical.choice, Quot.sound |
| C94 | `Verif.WholeCondorcet.C94_totals` | propext, Classical.choice, Quot.sound |
| C94 | `Verif.WholeCondorcet.C94_proposer` | propext, Classical.choice, Quot.sound |
| C94 | `Verif.WholeCondorcet.C94_token_staked` | propext, Classical.choice, Quot.sound |
| C94 | `Verif.WholeCondorcet.C94_nft_staked` | propext, Classical.choice, Quot.sound |
| C94 | `Verif.WholeCondorcet.C94_cw20_staked` | propext, Classical.choice, Quot.sound |
| C94 | `Verif.WholeCondorcet.C94_onft_staked` | propext, Classical.choice, Quot.sound |
| C94 | `Verif.WholeCondorcet.C94_cw4_partial` | propext, Classical.choice, Quot.sound |
| C94 | `Verif.WholeCondorcet.C94_roles_partial` | propext, Classical.choice, Quot.sound |
| C94 | `Verif.WholeCondorcet.Example.C94_cw4_witness` | propext, Quot.sound |
| C94 | `Verif.WholeCondorcet.Example.C94_roles_witness` | propext, Quot.sound |
| C94 | `Verif.WholeCondorcet.Example.C94_example` | propext, Classical.choice, Quot.sound |
| C94 | `Verif.WholeCondorcet.Example.C94_example_due` | propext, Classical.choice, Quot.sound |
| C94 | `Verif.WholeCondorcet.Example.C94_cw4_example` | propext, Quot.sound |
| C94 | `Verif.WholeCondorcet.C94_passed_decided_one` | propext, Classical.choice, Quot.sound |
| C94 | `Verif.WholeCondorcet.C94_carried_out_one` | propext, Classical.choice, Quot.sound |
| C94 | `Verif.WholeCondorcet.C94_vote_accepted_one` | propext, Classical.choice, Quot.sound |
| C94 | `Verif.WholeCondorcet.C94_nearly_decided` | propext, Classical.choice, Quot.sound |
| C95 | `Verif.FullDao.C95_once` | propext, Classical.choice, Quot.sound |
| C95 | `Verif.FullDao.C95_decided` | propext, Classical.choice, Quot.sound |
| C95 | `Verif.FullDao.C95_mandate` | propext, Classical.choice, Quot.sound |
| C95 | `Verif.FullDao.C95_governed` | propext, Classical.choice, Quot.sound |
| C95 | `Verif.FullDao.C95_weights` | propext, Classical.choice, Quot.sound |
| C95 | `Verif.FullDao.C95_totals` | propext, Classical.choice, Quot.sound |
| C95 | `Verif.FullDao.C95_totals_partial` | propext, Classical.choice, Quot.sound |
| C95 | `Verif.FullDao.C95_carried_out_single` | propext, Classical.choice, Quot.sound |
| C95 | `Verif.FullDao.C95_carried_out_multi` | propext, Classical.choice, Quot.sound |
| C95 | `Verif.FullDao.C95_carried_out_condorcet` | propext, Classical.choice, Quot.sound |
| C95 | `Verif.FullDao.C95_isolated` | propext, Classical.choice, Quot.sound |
| C95 | `Verif.FullDao.C95_disabled` | propext, Classical.choice, Quot.sound |
| C95 | `Verif.FullDao.Example.C95_example` | propext, Classical.choice, Quot.sound |
| C95 | `Verif.FullDao.Example.C95_example_due` | propext, Classical.choice, Quot.sound |
| C96 | `Verif.SubDao.C96_parent` | propext, Quot.sound |
| C96 | `Verif.SubDao.C96_child` | propext, Quot.sound |
| C96 | `Verif.SubDao.C96_admin` | propext, Classical.choice, Quot.sound |
| C96 | `Verif.SubDao.C96_told` | propext, Classical.choice, Quot.sound |
| C96 | `Verif.FullDao.C96_outside` | propext, Classical.choice, Quot.sound |
| C96 | `Verif.SubDao.C96_governed` | propext, Classical.choice, Quot.sound |
| C96 | `Verif.SubDao.C96_obeys` | propext, Classical.choice, Quot.sound |
| C96 | `Verif.SubDao.C96_unpause` | propext, Classical.choice, Quot.sound |
| C96 | `Verif.SubDao.C96_takeover` | propext, Classical.choice, Quot.sound |
| C96 | `Verif.SubDao.C96_released` | propext, Classical.choice, Quot.sound |
| C96 | `Verif.SubDao.Example.C96_example` | propext, Classical.choice, Quot.sound |
| C96 | `Verif.SubDao.Example.C96_example_due` | propext, Quot.sound |
| C96 | `Verif.SubDao.C96_reaches` | propext, Quot.sound |
| C96 | `Verif.SubDao.C96_not_dropped` | propext, Quot.sound |
| C97 | `Verif.Farms.C97_stake` | propext, Classical.choice, Quot.sound |
| C97 | `Verif.Farms.C97_stakers` | propext, Classical.choice, Quot.sound |
| C97 | `Verif.Farms.C97_pool` | propext, Classical.choice, Quot.sound |
| C97 | `Verif.Farms.C97_bound` | propext, Classical.choice, Quot.sound |
| C97 | `Verif.Farms.C97_solvent` | propext, Classical.choice, Quot.sound |
| C97 | `Verif.Farms.C97_share` | propext, Classical.choice, Quot.sound |
| C97 | `Verif.Farms.C97_claim` | propext, Classical.choice, Quot.sound |
| C97 | `Verif.Farms.C97_others` | propext, Classical.choice, Quot.sound |
| C97 | `Verif.Farms.C97_live` | propext, Classical.choice, Quot.sound |
| C97 | `Verif.Farms.C97_unblocked` | propext, Classical.choice, Quot.sound |
| C97 | `Verif.Farms.C97_trap` | propext, Classical.choice, Quot.sound |
| C97 | `Verif.Farms.Example.C97_example` | propext, Quot.sound |
| C97 | `Verif.Farms.Example.C97_unregistered_witness` | propext, Quot.sound |
| C97 | `Verif.Farms.Example.C97_trap_witness` | propext, Classical.choice, Quot.sound |
| C98 | `Verif.Cw20Stake.C98_value` | propext, Quot.sound |
| C98 | `Verif.Cw20Stake.C98_sum` | propext, Classical.choice, Quot.sound |
| C98 | `Verif.Cw20Stake.C98_answers_partial` | propext, Quot.sound |
| C98 | `Verif.Cw20Stake.C98_stakeable` | propext, Classical.choice, Quot.sound |
| C98 | `Verif.Cw20Stake.C98_rounding` | propext, Classical.choice, Quot.sound |
| C98 | `Verif.Cw20Stake.C98_rounding_witness` | none |
| C98 | `Verif.Cw20Stake.C98_answers_witness` | propext |
| C98 | `Verif.Cw20Stake.C98_example` | propext |
| C99 | `Verif.DaoRewards.C99_lasts` | propext, Quot.sound |
| C99 | `Verif.DaoRewards.C99_fund` | propext, Quot.sound |
| C99 | `Verif.DaoRewards.C99_update` | propext, Quot.sound |
| C99 | `Verif.DaoRewards.C99_fundable` | propext, Quot.sound |
| C99 | `Verif.DaoRewards.C99_claim` | propext, Quot.sound |
| C99 | `Verif.DaoRewards.C99_claims` | propext, Quot.sound |
| C99 | `Verif.DaoRewards.C99_claims_partial` | propext, Classical.choice, Quot.sound |
| C99 | `Verif.DaoRewards.C99_example` | propext, Quot.sound |
| C99 | `Verif.DaoRewards.C99_example_edge` | propext |
| C99 | `Verif.DaoRewards.C99_example_limit` | propext |
