import Verif.Spec.Settings
import Verif.Model.TokenStaked
import Verif.Model.OnftStaked
import Verif.Model.Roles
import Verif.Model.Single
import Verif.Model.Multiple
import Verif.Model.Condorcet
/-!
# Which calls change which settings

For every contract: what each of its calls says about its list of receivers and about its settings. The calls not named
say nothing.
-/

namespace Verif

/-- A waiting time is absent or more than nothing. -/
def Settings.Positive : Option Duration → Prop
  | none => True
  | some (.height n) => n ≠ 0
  | some (.time n) => n ≠ 0

namespace TokenStaked
open Settings

def editsHooks : Call → Edit
  | .exec _ (.addHook a) => .add a
  | .exec _ (.removeHook a) => .remove a
  | _ => .keep

def setsDuration : Call → Option (Option Duration)
  | .exec _ (.updateConfig d) => some d
  | _ => none

def setsThreshold : Call → Option (Option Active.ActiveThreshold)
  | .exec _ (.updateActiveThreshold t) => some t
  | _ => none

end TokenStaked

namespace Cw20Stake
open Settings

def editsHooks : Call → Edit
  | .exec _ (.addHook a) => .add a
  | .exec _ (.removeHook a) => .remove a
  | _ => .keep

def setsDuration : Call → Option (Option Duration)
  | .exec _ (.updateConfig d) => some d
  | _ => none

end Cw20Stake

namespace NftStaked
open Settings

def editsHooks : Call → Edit
  | .exec _ (.addHook a) => .add a
  | .exec _ (.removeHook a) => .remove a
  | _ => .keep

def setsDuration : Call → Option (Option Duration)
  | .exec _ (.updateConfig d) => some d
  | _ => none

def setsThreshold : Call → Option (Option Active.ActiveThreshold)
  | .exec _ (.updateActiveThreshold t) => some t
  | _ => none

end NftStaked

namespace OnftStaked
open Settings

def editsHooks : Call → Edit
  | .exec _ (.addHook a) => .add a
  | .exec _ (.removeHook a) => .remove a
  | _ => .keep

def setsDuration : Call → Option (Option Duration)
  | .exec _ (.updateConfig d) => some d
  | _ => none

def setsThreshold : Call → Option (Option Active.ActiveThreshold)
  | .exec _ (.updateActiveThreshold t) => some t
  | _ => none

end OnftStaked

namespace Roles
open Settings

def editsHooks : Msg → Edit
  | .addHook a => .add a
  | .removeHook a => .remove a
  | _ => .keep

end Roles

namespace Single
open Settings

def editsProposalHooks : Call → Edit
  | .addProposalHook a => .add a
  | .removeProposalHook a => .remove a
  | .replyFailedProposalHook i => .drop i
  | _ => .keep

def editsVoteHooks : Call → Edit
  | .addVoteHook a => .add a
  | .removeVoteHook a => .remove a
  | .replyFailedVoteHook i => .drop i
  | _ => .keep

def setsConfig : Call → Option Config
  | .updateConfig c => some c
  | _ => none

/-- A new pre-propose module may propose once it is there; until then, and when it fails, anyone may. -/
def setsPolicy : Call → Option Voting.CreationPolicy
  | .updatePreProposeInfo _ => some .anyone
  | .replyPreProposeInstantiated a => some (.module a)
  | .replyFailedPreProposeHook => some .anyone
  | _ => none

end Single

namespace Multiple
open Settings

def editsProposalHooks : Call → Edit
  | .addProposalHook a => .add a
  | .removeProposalHook a => .remove a
  | .replyFailedProposalHook i => .drop i
  | _ => .keep

def editsVoteHooks : Call → Edit
  | .addVoteHook a => .add a
  | .removeVoteHook a => .remove a
  | .replyFailedVoteHook i => .drop i
  | _ => .keep

def setsConfig : Call → Option Config
  | .updateConfig c => some c
  | _ => none

/-- A new pre-propose module may propose once it is there; until then, and when it fails, anyone may. -/
def setsPolicy : Call → Option Voting.CreationPolicy
  | .updatePreProposeInfo _ => some .anyone
  | .replyPreProposeInstantiated a => some (.module a)
  | .replyFailedPreProposeHook => some .anyone
  | _ => none

end Multiple

namespace Condorcet

def setsConfig : Call → Option Config
  | .setConfig c => some c
  | _ => none

end Condorcet
end Verif
