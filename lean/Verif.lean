import Verif.Base.Claims
import Verif.Base.Coins
import Verif.Base.Core
import Verif.Base.History
import Verif.Base.Ledger
import Verif.Base.Map
import Verif.Base.Ownable
import Verif.Base.SnapHistory
import Verif.Base.Snapshot
import Verif.Model.ActiveThreshold
import Verif.Model.AdminFactory
import Verif.Model.Clock
import Verif.Model.Condorcet
import Verif.Model.CoreQueries
import Verif.Model.Cw20Stake
import Verif.Model.Cw20Voting
import Verif.Model.Cw4Voting
import Verif.Model.DaoCore
import Verif.Model.DaoNet
import Verif.Model.DaoRewards
import Verif.Model.DepositDao
import Verif.Model.DepositMulti
import Verif.Model.ExternalRewards
import Verif.Model.FanDao
import Verif.Model.FanToken
import Verif.Model.Farms
import Verif.Model.Federation
import Verif.Model.FullDao
import Verif.Model.FundDistributor
import Verif.Model.FundQueries
import Verif.Model.FundedDao
import Verif.Model.Holdings
import Verif.Model.Hooks
import Verif.Model.Issuer
import Verif.Model.Listings
import Verif.Model.Migrator
import Verif.Model.Multiple
import Verif.Model.NftClaims
import Verif.Model.NftDao
import Verif.Model.NftStaked
import Verif.Model.OnftStaked
import Verif.Model.OwnedDao
import Verif.Model.Paginate
import Verif.Model.PayrollFactory
import Verif.Model.PowerQueries
import Verif.Model.PrePropose
import Verif.Model.PreProposeApproval
import Verif.Model.PreProposeApprover
import Verif.Model.PreProposeModules
import Verif.Model.PreProposeUpgrade
import Verif.Model.Reply
import Verif.Model.RewardDistributor
import Verif.Model.RewardedDao
import Verif.Model.Roles
import Verif.Model.Single
import Verif.Model.SingleUpgrade
import Verif.Model.StakeTracker
import Verif.Model.StakingUpgrade
import Verif.Model.SubDao
import Verif.Model.SwapDaos
import Verif.Model.TokenDao
import Verif.Model.TokenStaked
import Verif.Model.TokenSwap
import Verif.Model.Treasury
import Verif.Model.Versions
import Verif.Model.Vesting
import Verif.Model.VetoDao
import Verif.Model.VetoMulti
import Verif.Model.Voting
import Verif.Model.WholeCondorcet
import Verif.Model.WholeCondorcetModules
import Verif.Model.WholeDao
import Verif.Model.WholeDaoModules
import Verif.Model.WholeMulti
import Verif.Model.WholeMultiModules
import Verif.Model.Wormhole
import Verif.Proofs.CondorcetHistory
import Verif.Proofs.CondorcetMatrix
import Verif.Proofs.CondorcetReject
import Verif.Proofs.CondorcetTally
import Verif.Proofs.Cw20Stake
import Verif.Proofs.Cw4Voting
import Verif.Proofs.DaoCore
import Verif.Proofs.DaoRewards
import Verif.Proofs.DaoRewardsAccrual
import Verif.Proofs.DaoRewardsHistory
import Verif.Proofs.DaoRewardsPeriod
import Verif.Proofs.DepositDao
import Verif.Proofs.DepositMulti
import Verif.Proofs.ExternalRewards
import Verif.Proofs.ExternalShare
import Verif.Proofs.FanDao
import Verif.Proofs.Farms
import Verif.Proofs.FullDao
import Verif.Proofs.FundDistributor
import Verif.Proofs.FundedDao
import Verif.Proofs.Holdings
import Verif.Proofs.Issuer
import Verif.Proofs.Listings
import Verif.Proofs.Migrator
import Verif.Proofs.MultipleDecision
import Verif.Proofs.MultipleHistory
import Verif.Proofs.MultipleInv
import Verif.Proofs.MultipleReject
import Verif.Proofs.MultipleStep
import Verif.Proofs.MultipleTime
import Verif.Proofs.NftDao
import Verif.Proofs.NftDaoCreate
import Verif.Proofs.NftStaked
import Verif.Proofs.OnftStaked
import Verif.Proofs.OwnedDao
import Verif.Proofs.Owners
import Verif.Proofs.OwnersAll
import Verif.Proofs.PayrollFactory
import Verif.Proofs.PrePropose
import Verif.Proofs.PreProposeApproval
import Verif.Proofs.PreProposeApprovalFunds
import Verif.Proofs.PreProposeApprover
import Verif.Proofs.PreProposeFunds
import Verif.Proofs.PreProposeHistory
import Verif.Proofs.PreProposeLaws
import Verif.Proofs.PreProposeMultiple
import Verif.Proofs.PreProposeSingle
import Verif.Proofs.RewardedDao
import Verif.Proofs.RewardedDaoRun
import Verif.Proofs.Roles
import Verif.Proofs.Settings
import Verif.Proofs.SingleDecision
import Verif.Proofs.SingleHistory
import Verif.Proofs.SingleInv
import Verif.Proofs.SingleReject
import Verif.Proofs.SingleStep
import Verif.Proofs.SingleTime
import Verif.Proofs.StakeTracker
import Verif.Proofs.TokenDao
import Verif.Proofs.TokenDaoCreate
import Verif.Proofs.TokenStaked
import Verif.Proofs.TokenSwap
import Verif.Proofs.TwoHouses
import Verif.Proofs.Vesting
import Verif.Proofs.VestingCurve
import Verif.Proofs.VestingInv
import Verif.Proofs.VetoDao
import Verif.Proofs.VetoMulti
import Verif.Proofs.Voting
import Verif.Proofs.Watch
import Verif.Proofs.WholeCondorcet
import Verif.Proofs.WholeDao
import Verif.Proofs.WholeMulti
import Verif.Proofs.Wormhole
import Verif.Props.ActiveThreshold
import Verif.Props.AdminFactory
import Verif.Props.Attached
import Verif.Props.Clock
import Verif.Props.ClockExample
import Verif.Props.Condorcet
import Verif.Props.CondorcetExamples
import Verif.Props.CoreQueries
import Verif.Props.CoreUpgrade
import Verif.Props.Cw20Stake
import Verif.Props.Cw20StakeValue
import Verif.Props.Cw20Voting
import Verif.Props.Cw4Voting
import Verif.Props.DaoCore
import Verif.Props.DaoCoreLists
import Verif.Props.DaoCoreModules
import Verif.Props.DaoNet
import Verif.Props.DaoNetAdmin
import Verif.Props.DaoNetAdminExample
import Verif.Props.DaoNetBefore
import Verif.Props.DaoNetExample
import Verif.Props.DaoNetJoin
import Verif.Props.DaoNetReform
import Verif.Props.DaoRewards
import Verif.Props.DaoRewardsAccrual
import Verif.Props.DaoRewardsAuth
import Verif.Props.DaoRewardsPeriod
import Verif.Props.DepositDao
import Verif.Props.DepositDaoExample
import Verif.Props.DepositDaoMajority
import Verif.Props.DepositMulti
import Verif.Props.DepositMultiExample
import Verif.Props.DepositMultiMajority
import Verif.Props.ExternalRewards
import Verif.Props.ExternalRewardsExamples
import Verif.Props.FanDao
import Verif.Props.FanDaoActive
import Verif.Props.FanDaoExample
import Verif.Props.FanToken
import Verif.Props.FanTokenControl
import Verif.Props.Farms
import Verif.Props.FarmsExample
import Verif.Props.Federation
import Verif.Props.FederationExample
import Verif.Props.FederationLive
import Verif.Props.FullDao
import Verif.Props.FullDaoExample
import Verif.Props.FullDaoLive
import Verif.Props.FullRules
import Verif.Props.FullRulesExample
import Verif.Props.FullRulesLive
import Verif.Props.FullStake
import Verif.Props.FundDistributor
import Verif.Props.FundQueries
import Verif.Props.FundedDao
import Verif.Props.FundedDaoExample
import Verif.Props.Holdings
import Verif.Props.HoldingsExample
import Verif.Props.HookLists
import Verif.Props.Hooks
import Verif.Props.HooksExact
import Verif.Props.Issuer
import Verif.Props.ListingsExample
import Verif.Props.ListingsMultiple
import Verif.Props.ListingsOnft
import Verif.Props.ListingsOthers
import Verif.Props.ListingsSingle
import Verif.Props.Migrator
import Verif.Props.MigratorExample
import Verif.Props.MigratorReady
import Verif.Props.Multiple
import Verif.Props.MultipleBallots
import Verif.Props.MultipleDecision
import Verif.Props.MultipleExamples
import Verif.Props.MultipleLive
import Verif.Props.MultipleOne
import Verif.Props.NftDao
import Verif.Props.NftDaoActive
import Verif.Props.NftDaoApprove
import Verif.Props.NftDaoCreate
import Verif.Props.NftDaoExamples
import Verif.Props.NftDaoPower
import Verif.Props.NftStaked
import Verif.Props.NoHeight
import Verif.Props.NotDropped
import Verif.Props.OnftStaked
import Verif.Props.OwnRules
import Verif.Props.OwnRulesExample
import Verif.Props.OwnRulesLive
import Verif.Props.OwnedDao
import Verif.Props.OwnedDaoContracts
import Verif.Props.OwnedDaoExample
import Verif.Props.OwnedDaoLive
import Verif.Props.Owners
import Verif.Props.Paginate
import Verif.Props.PayrollFactory
import Verif.Props.PrePropose
import Verif.Props.PreProposeApproval
import Verif.Props.PreProposeApprover
import Verif.Props.PreProposeExamples
import Verif.Props.PreProposeOnce
import Verif.Props.PreProposeUpgrade
import Verif.Props.PreProposeUpgradeExample
import Verif.Props.Reply
import Verif.Props.RewardDistributor
import Verif.Props.RewardedDao
import Verif.Props.RewardedDaoExample
import Verif.Props.RewardedDaoModules
import Verif.Props.Roles
import Verif.Props.SettingsCan
import Verif.Props.SettingsCanExample
import Verif.Props.SettingsExamples
import Verif.Props.SettingsPrePropose
import Verif.Props.SettingsProposals
import Verif.Props.SettingsVoting
import Verif.Props.Single
import Verif.Props.SingleBallots
import Verif.Props.SingleDecision
import Verif.Props.SingleExamples
import Verif.Props.SingleExecuted
import Verif.Props.SingleLive
import Verif.Props.SingleUpgrade
import Verif.Props.SingleUpgradeExample
import Verif.Props.SoundConfig
import Verif.Props.StakeTracker
import Verif.Props.StakeTrackerSlash
import Verif.Props.StakingUpgrade
import Verif.Props.StakingUpgradeExample
import Verif.Props.SubDao
import Verif.Props.SubDaoExample
import Verif.Props.SwapDaos
import Verif.Props.SwapDaosExample
import Verif.Props.Threshold
import Verif.Props.TokenDao
import Verif.Props.TokenDaoActive
import Verif.Props.TokenDaoCreate
import Verif.Props.TokenDaoCustody
import Verif.Props.TokenDaoExamples
import Verif.Props.TokenStaked
import Verif.Props.TokenSwap
import Verif.Props.Treasury
import Verif.Props.TreasuryExample
import Verif.Props.TreasuryLive
import Verif.Props.TwoHouses
import Verif.Props.TwoHousesExample
import Verif.Props.TwoHousesMajority
import Verif.Props.TwoHousesMajorityExample
import Verif.Props.Versions
import Verif.Props.Vesting
import Verif.Props.VestingRights
import Verif.Props.VetoDao
import Verif.Props.VetoDaoExample
import Verif.Props.VetoDaoLive
import Verif.Props.VetoMulti
import Verif.Props.VetoMultiExample
import Verif.Props.VetoMultiLive
import Verif.Props.WholeCondorcet
import Verif.Props.WholeCondorcetExample
import Verif.Props.WholeCondorcetLive
import Verif.Props.WholeCondorcetMajority
import Verif.Props.WholeCondorcetMajorityExample
import Verif.Props.WholeCondorcetModules
import Verif.Props.WholeCondorcetOne
import Verif.Props.WholeDao
import Verif.Props.WholeDaoExample
import Verif.Props.WholeDaoLive
import Verif.Props.WholeDaoMajority
import Verif.Props.WholeDaoMajorityExample
import Verif.Props.WholeDaoModules
import Verif.Props.WholeMulti
import Verif.Props.WholeMultiExample
import Verif.Props.WholeMultiLive
import Verif.Props.WholeMultiMajority
import Verif.Props.WholeMultiMajorityExample
import Verif.Props.WholeMultiModules
import Verif.Props.WholeMultiOne
import Verif.Props.Wormhole
import Verif.Spec.AdminFactory
import Verif.Spec.Clock
import Verif.Spec.Condorcet
import Verif.Spec.CoreQueries
import Verif.Spec.Cw20Stake
import Verif.Spec.Cw20Voting
import Verif.Spec.DaoCore
import Verif.Spec.DaoNet
import Verif.Spec.DaoRewards
import Verif.Spec.DepositDao
import Verif.Spec.DepositMulti
import Verif.Spec.ExternalRewards
import Verif.Spec.FanDao
import Verif.Spec.FanToken
import Verif.Spec.Farms
import Verif.Spec.Federation
import Verif.Spec.FullDao
import Verif.Spec.FullRules
import Verif.Spec.FundDistributor
import Verif.Spec.FundedDao
import Verif.Spec.Holdings
import Verif.Spec.HookLists
import Verif.Spec.Hooks
import Verif.Spec.Issuer
import Verif.Spec.Listings
import Verif.Spec.Migrator
import Verif.Spec.Multiple
import Verif.Spec.MultipleBallots
import Verif.Spec.NftDao
import Verif.Spec.NftStaked
import Verif.Spec.OnftStaked
import Verif.Spec.OwnRules
import Verif.Spec.OwnedDao
import Verif.Spec.Owners
import Verif.Spec.Paginate
import Verif.Spec.PayrollFactory
import Verif.Spec.PrePropose
import Verif.Spec.PreProposeApproval
import Verif.Spec.PreProposeApprover
import Verif.Spec.PreProposeUpgrade
import Verif.Spec.RewardDistributor
import Verif.Spec.RewardedDao
import Verif.Spec.Roles
import Verif.Spec.Settings
import Verif.Spec.SettingsOf
import Verif.Spec.Single
import Verif.Spec.SingleBallots
import Verif.Spec.SingleHistory
import Verif.Spec.SingleNearly
import Verif.Spec.SingleUpgrade
import Verif.Spec.SoundConfig
import Verif.Spec.StakeTracker
import Verif.Spec.StakingUpgrade
import Verif.Spec.SubDao
import Verif.Spec.SwapDaos
import Verif.Spec.TokenDao
import Verif.Spec.TokenStaked
import Verif.Spec.TokenSwap
import Verif.Spec.Treasury
import Verif.Spec.TwoHouses
import Verif.Spec.TwoHousesActs
import Verif.Spec.Versions
import Verif.Spec.Vesting
import Verif.Spec.VetoDao
import Verif.Spec.VetoMulti
import Verif.Spec.WholeCondorcet
import Verif.Spec.WholeDao
import Verif.Spec.WholeMulti
import Verif.Spec.Wormhole
