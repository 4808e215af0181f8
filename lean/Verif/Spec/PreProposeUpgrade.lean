import Verif.Model.PreProposeUpgrade
import Verif.Spec.PrePropose
/-!
# Specification: upgrades of pre-propose modules
-/

namespace Verif.Spec.PreProposeUpgrade
open Verif Verif.PrePropose Verif.PreProposeUpgrade

/-- A version from 2.4.1 on and before 2.5.0: that is 2.4.1, 2.4.2, and so on. -/
def CanUpgrade (v : Version) : Prop := v.major = 2 ∧ v.minor = 4 ∧ 1 ≤ v.patch

/-- Who could propose before: anyone if the module was open, else those with voting power. -/
def CouldPropose (c : OldConfig) (power : Addr → Nat) (a : Addr) : Prop := c.openSubmission = true ∨ power a ≠ 0

/-- The same token. -/
inductive SameToken : OldDenom → Token → Prop where
  | cw20 (a : Addr) : SameToken (.cw20 a) (.cw20 a)
  | native (d : Nat) : SameToken (.native d) (.native d)

/-- The same rule for refunds. -/
inductive SameRefund : OldRefund → Refund → Prop where
  | always : SameRefund .always .always
  | never : SameRefund .never .never
  | onlyPassed : SameRefund .onlyPassed .onlyPassed

/-- The same deposit asked for, or none. -/
inductive SameDeposit : Option OldDeposit → Option Deposit → Prop where
  | none : SameDeposit none none
  | some {o : OldDeposit} {d : Deposit} (ht : SameToken o.denom d.token) (ha : d.amount = o.amount)
      (hr : SameRefund o.refund d.refund) : SameDeposit (some o) (some d)

/-- The storage of the old version holds the state `w`, whose settings are read by `get`: the same deposit, and of the
policies of the new version the one that says what the flag said; everything else is the same. -/
structure Holds {W : Type} (get : W → Config) (put : W → Config → W) (st : Storage W) (w : W) : Prop where
  settings : ∃ c, st.settings = .old c ∧ SameDeposit c.deposit (get w).deposit ∧
    (get w).policy = if c.openSubmission then .anyone [] else .specific true [] []
  rest : ∃ junk, st.rest = put w junk

/-- The calls of the new version in a history, as events of that version: the same states, senders, calls and answers. -/
def runs {W E C O : Type} : List (Ev (Storage W) E (UCall C) (Option O)) → List (Ev W E C O)
  | [] => []
  | e :: log => match e.call, e.out with
    | .run c, some o => ⟨e.pre.rest, e.env, c, o, e.post.rest⟩ :: runs log
    | _, _ => runs log

end Verif.Spec.PreProposeUpgrade
