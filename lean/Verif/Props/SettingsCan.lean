import Verif.Props.SettingsVoting
import Verif.Props.SettingsPrePropose
import Verif.Proofs.PrePropose
/-!
# C100: who can set what, and who may submit

For the remaining contracts with settings: exactly which changes are accepted; and that who may submit to a pre-propose
module is what its DAO said last.
-/

namespace Verif

namespace OnftStaked
open Verif.Settings Verif.Hooks

/-- **C100.** Who can set what in dao-voting-onft-staked: the DAO, any positive waiting time; it can add any receiver not
there and remove any receiver there. -/
theorem C100_can {w : World} {b : Block} {a : Addr} :
    (∀ d, (∃ r, sys.step w b (.exec a (.updateConfig d)) = .ok r) ↔ a ≠ w.n.self ∧ a = w.n.c.dao ∧ Positive d) ∧
    (∀ x, (∃ r, sys.step w b (.exec a (.addHook x)) = .ok r) ↔ a ≠ w.n.self ∧ a = w.n.c.dao ∧ x ∉ w.n.c.hooks.getD []) ∧
    (∀ x, (∃ r, sys.step w b (.exec a (.removeHook x)) = .ok r) ↔
      a ≠ w.n.self ∧ a = w.n.c.dao ∧ x ∈ w.n.c.hooks.getD []) := by
  refine ⟨fun d => ?_, fun x => ?_, fun x => ?_⟩
  · constructor
    · intro ⟨r, h⟩
      simp only [sys, step, exec, execShared, NftStaked.exec, bind_ok, require_ok, decide_eq_true_eq, positive_ok] at h
      obtain ⟨_, h1, _, ⟨_, ⟨_, h2, _, h3, _⟩, _⟩, _⟩ := h
      exact ⟨h1, h2, h3⟩
    · intro ⟨h1, h2, h3⟩
      refine ⟨({ w with n := { w.n with c := { w.n.c with unstakingDuration := d } } }, {}), ?_⟩
      simp only [sys, step, exec, execShared, NftStaked.exec, require, h2, decide_true, if_true, ok_bind,
        (positive_ok (u := ())).2 h3, NftStaked.giveBack]
      rw [if_pos (by rw [← h2]; exact decide_eq_true h1)]
      rfl
  · rw [show w.n.c.hooks.getD [] = items w.n.c.hooks from rfl, ← add_iff]
    constructor
    · intro ⟨r, h⟩
      simp only [sys, step, exec, execShared, NftStaked.exec, bind_ok, require_ok, decide_eq_true_eq] at h
      obtain ⟨_, h1, _, ⟨_, ⟨_, h2, h', h3, _⟩, _⟩, _⟩ := h
      exact ⟨h1, h2, h', h3⟩
    · intro ⟨h1, h2, h', h3⟩
      refine ⟨({ w with n := { w.n with c := { w.n.c with hooks := h' } } }, {}), ?_⟩
      simp only [sys, step, exec, execShared, NftStaked.exec, require, h2, decide_true, if_true, ok_bind, h3,
        NftStaked.giveBack]
      rw [if_pos (by rw [← h2]; exact decide_eq_true h1)]
      rfl
  · rw [show w.n.c.hooks.getD [] = items w.n.c.hooks from rfl, ← remove_iff]
    constructor
    · intro ⟨r, h⟩
      simp only [sys, step, exec, execShared, NftStaked.exec, bind_ok, require_ok, decide_eq_true_eq] at h
      obtain ⟨_, h1, _, ⟨_, ⟨_, h2, h', h3, _⟩, _⟩, _⟩ := h
      exact ⟨h1, h2, h', h3⟩
    · intro ⟨h1, h2, h', h3⟩
      refine ⟨({ w with n := { w.n with c := { w.n.c with hooks := h' } } }, {}), ?_⟩
      simp only [sys, step, exec, execShared, NftStaked.exec, require, h2, decide_true, if_true, ok_bind, h3,
        NftStaked.giveBack]
      rw [if_pos (by rw [← h2]; exact decide_eq_true h1)]
      rfl

end OnftStaked

namespace Roles
open Verif.Settings Verif.Hooks

/-- **C100.** Who can set what in cw721-roles: the owner can add any receiver not there and remove any receiver there. -/
theorem C100_can {s : State} {b : Block} {a : Addr} :
    (∀ x, (∃ r, exec s b a (.addHook x) = .ok r) ↔ s.ownership.owner = some a ∧ x ∉ s.hooks.getD []) ∧
    (∀ x, (∃ r, exec s b a (.removeHook x) = .ok r) ↔ s.ownership.owner = some a ∧ x ∈ s.hooks.getD []) := by
  refine ⟨fun x => ?_, fun x => ?_⟩
  · rw [show s.hooks.getD [] = items s.hooks from rfl, ← add_iff]
    constructor
    · intro ⟨r, h⟩
      simp only [exec, dispatch, bind_ok, Ownership.assertOwner_ok] at h
      obtain ⟨_, h2, h', h3, _⟩ := h
      exact ⟨h2, h', h3⟩
    · intro ⟨h2, h', h3⟩
      have ho := (Ownership.assertOwner_ok (u := ())).2 h2
      exact ⟨_, by rw [exec, ho, ok_bind, dispatch, h3, ok_bind]⟩
  · rw [show s.hooks.getD [] = items s.hooks from rfl, ← remove_iff]
    constructor
    · intro ⟨r, h⟩
      simp only [exec, dispatch, bind_ok, Ownership.assertOwner_ok] at h
      obtain ⟨_, h2, h', h3, _⟩ := h
      exact ⟨h2, h', h3⟩
    · intro ⟨h2, h', h3⟩
      have ho := (Ownership.assertOwner_ok (u := ())).2 h2
      exact ⟨_, by rw [exec, ho, ok_bind, dispatch, h3, ok_bind]⟩

end Roles

namespace PrePropose
open Verif.Settings Verif.Hooks
open Verif.Spec.PrePropose (SoundPolicy)
variable {M : PropModule}

/-! ## Who may submit, as said last -/

/-- Whether members may submit because they are members; `none` when anyone may. -/
def membersMay : Policy → Option Bool
  | .anyone _ => none
  | .specific m _ _ => some m

/-- What a change of a list by additions and then removals says about `x`. -/
def saysOf (x : Addr) (add remove : Option (List Addr)) : Option Bool :=
  if x ∈ remove.getD [] then some false else if x ∈ add.getD [] then some true else none

/-- What a message says about whether `x` is on the denylist. -/
def msgDenied (x : Addr) : Msg → Option Bool
  | .updateConfig _ (some p) => some (decide (x ∈ denied p))
  | .updatePolicy da dr _ _ _ => saysOf x da dr
  | _ => none

/-- What a message says about whether `x` is on the allowlist. -/
def msgAllowed (x : Addr) : Msg → Option Bool
  | .updateConfig _ (some p) => some (decide (x ∈ allowed p))
  | .updatePolicy _ _ _ aa ar => saysOf x aa ar
  | _ => none

/-- What a message says about whether members may submit. -/
def msgMembers : Msg → Option (Option Bool)
  | .updateConfig _ (some p) => some (membersMay p)
  | .updatePolicy _ _ (some m) _ _ => some (some m)
  | _ => none

/-- What a call says: only messages to the pre-propose module say anything. -/
def ofCall {V : Type} (f : Msg → Option V) : Call M → Option V
  | .pre m => f m
  | _ => none

theorem saysOf_addRemove (x : Addr) (l : List Addr) (add remove : Option (List Addr)) :
    decide (x ∈ addRemove l add remove) = (saysOf x add remove).getD (decide (x ∈ l)) := by
  rw [saysOf, Bool.eq_iff_iff, decide_eq_true_eq, mem_addRemove]
  by_cases hr : x ∈ remove.getD []
  · rw [if_pos hr]
    cases remove with
    | none => cases hr
    | some r => exact ⟨fun h => absurd hr (h.2 r rfl), fun h => by cases h⟩
  · have hr' : ∀ r, remove = some r → x ∉ r := fun r h => by subst h; exact hr
    rw [if_neg hr]
    by_cases ha : x ∈ add.getD []
    · rw [if_pos ha]
      cases add with
      | none => cases ha
      | some a => exact ⟨fun _ => rfl, fun _ => ⟨.inr ⟨a, rfl, ha⟩, hr'⟩⟩
    · rw [if_neg ha, Option.getD_none, decide_eq_true_eq]
      refine ⟨fun h => h.1.elim id (fun ⟨a, h1, h2⟩ => ?_), fun h => ⟨.inl h, hr'⟩⟩
      subst h1; exact absurd h2 ha

theorem exec_policy {s s' : Pre} {a : Addr} {f : Token → Nat} {m : Msg} {ps : List Pay} (h : exec s a f m = .ok (s', ps)) :
    (∀ x, decide (x ∈ denied s'.config.policy) = (msgDenied x m).getD (decide (x ∈ denied s.config.policy))) ∧
    (∀ x, decide (x ∈ allowed s'.config.policy) = (msgAllowed x m).getD (decide (x ∈ allowed s.config.policy))) ∧
    membersMay s'.config.policy = (msgMembers m).getD (membersMay s.config.policy) := by
  cases m with
  | updateConfig d p =>
    simp only [exec, execUpdateConfig, bind_ok, Except.ok.injEq, Prod.mk.injEq] at h
    obtain ⟨s1, ⟨_, h1, _, h2, h3⟩, rfl, _⟩ := h
    cases p with
    | none => simp only [Except.ok.injEq] at h3; subst h3; exact ⟨fun _ => rfl, fun _ => rfl, rfl⟩
    | some p =>
      simp only [bind_ok, Except.ok.injEq] at h3
      obtain ⟨_, _, rfl⟩ := h3
      exact ⟨fun _ => rfl, fun _ => rfl, rfl⟩
  | updatePolicy da dr k aa ar =>
    simp only [exec, execUpdatePolicy, bind_ok, Except.ok.injEq, Prod.mk.injEq] at h
    obtain ⟨s1, ⟨_, _, h3⟩, rfl, _⟩ := h
    split at h3
    · rename_i deny hpol
      simp only [bind_ok, require_ok, Except.ok.injEq, Bool.and_eq_true, Option.isNone_iff_eq_none] at h3
      obtain ⟨_, ⟨⟨rfl, rfl⟩, rfl⟩, _, _, rfl⟩ := h3
      rw [hpol]
      exact ⟨fun x => saysOf_addRemove x deny da dr, fun x => rfl, rfl⟩
    · rename_i members allow deny hpol
      simp only [bind_ok, Except.ok.injEq] at h3
      obtain ⟨_, _, rfl⟩ := h3
      rw [hpol]
      refine ⟨fun x => saysOf_addRemove x deny da dr, fun x => saysOf_addRemove x allow aa ar, ?_⟩
      cases k <;> rfl
  | withdraw t =>
    simp only [exec, bind_ok, Except.ok.injEq, Prod.mk.injEq] at h
    obtain ⟨_, _, rfl, _⟩ := h
    exact ⟨fun _ => rfl, fun _ => rfl, rfl⟩
  | addHook x =>
    simp only [exec, execAddHook, bind_ok, Except.ok.injEq, Prod.mk.injEq] at h
    obtain ⟨_, ⟨_, _, _, hx, rfl⟩, rfl, _⟩ := h
    exact ⟨fun _ => rfl, fun _ => rfl, rfl⟩
  | removeHook x =>
    simp only [exec, execRemoveHook, bind_ok, Except.ok.injEq, Prod.mk.injEq] at h
    obtain ⟨_, ⟨_, _, _, hx, rfl⟩, rfl, _⟩ := h
    exact ⟨fun _ => rfl, fun _ => rfl, rfl⟩
  | extension =>
    simp only [exec, Except.ok.injEq, Prod.mk.injEq] at h
    obtain ⟨rfl, _⟩ := h
    exact ⟨fun _ => rfl, fun _ => rfl, rfl⟩

theorem step_policy {w w' : World M} {e : Env M} {c : Call M} {o : Out} (hs : step w e c = .ok (w', o)) :
    (∀ x, decide (x ∈ denied w'.pre.config.policy) = (ofCall (msgDenied x) c).getD (decide (x ∈ denied w.pre.config.policy))) ∧
    (∀ x, decide (x ∈ allowed w'.pre.config.policy) =
      (ofCall (msgAllowed x) c).getD (decide (x ∈ allowed w.pre.config.policy))) ∧
    membersMay w'.pre.config.policy = (ofCall msgMembers c).getD (membersMay w.pre.config.policy) := by
  have hs' : (sys M).step w e c = .ok (w', o) := hs
  cases c with
  | pre m =>
    simp only [step, stepPre, bind_ok] at hs
    obtain ⟨_, ha, bal, hb, ⟨pre, ps⟩, hpp, bal', hpay, hs⟩ := hs
    simp only [Except.ok.injEq, Prod.mk.injEq] at hs
    obtain ⟨rfl, _⟩ := hs
    exact exec_policy hpp
  | _ =>
    rcases C53_only_dao hs' with ⟨_, _, hc | ⟨_, ⟨d, p, hc, _⟩ | ⟨_, _, _, _, _, hc⟩⟩⟩
    · rw [hc]; exact ⟨fun _ => rfl, fun _ => rfl, rfl⟩
    · cases hc
    · cases hc

/-- **C100.** Who may submit to a pre-propose module is what its DAO said last: over any history, whether an address is
on the denylist, or on the allowlist, is what the last update mentioning it said, and so is whether members may
submit. -/
theorem C100_policy {w0 w : World M} {b0 b : Block} {log : List (Ev (World M) (Env M) (Call M) Out)}
    (h : (sys M).Run w0 b0 log w b) :
    (∀ x, decide (x ∈ denied w.pre.config.policy) =
      value (ofCall (msgDenied x)) (decide (x ∈ denied w0.pre.config.policy)) (log.map (·.call))) ∧
    (∀ x, decide (x ∈ allowed w.pre.config.policy) =
      value (ofCall (msgAllowed x)) (decide (x ∈ allowed w0.pre.config.policy)) (log.map (·.call))) ∧
    membersMay w.pre.config.policy = value (ofCall msgMembers) (membersMay w0.pre.config.policy) (log.map (·.call)) :=
  ⟨fun x => value_run (get := fun w : World M => decide (x ∈ denied w.pre.config.policy)) (fun hs => (step_policy hs).1 x) h,
   fun x => value_run (get := fun w : World M => decide (x ∈ allowed w.pre.config.policy)) (fun hs => (step_policy hs).2.1 x) h,
   value_run (get := fun w : World M => membersMay w.pre.config.policy) (fun hs => (step_policy hs).2.2) h⟩

/-- What a call says, with an approver. -/
def ofACall {V : Type} (f : Msg → Option V) : ACall M → Option V
  | .base c => ofCall f c
  | _ => none

theorem astep_policy {w w' : AWorld M} {e : Env M} {c : ACall M} {o : AOut} (hs : astep w e c = .ok (w', o)) :
    (∀ x, decide (x ∈ denied w'.base.pre.config.policy) =
      (ofACall (msgDenied x) c).getD (decide (x ∈ denied w.base.pre.config.policy))) ∧
    (∀ x, decide (x ∈ allowed w'.base.pre.config.policy) =
      (ofACall (msgAllowed x) c).getD (decide (x ∈ allowed w.base.pre.config.policy))) ∧
    membersMay w'.base.pre.config.policy = (ofACall msgMembers c).getD (membersMay w.base.pre.config.policy) := by
  cases c with
  | submit p =>
    simp only [astep, stepSubmit, bind_ok, Except.ok.injEq, Prod.mk.injEq] at hs
    obtain ⟨_, _, _, _, _, _, _, _, _, _, rfl, _⟩ := hs
    exact ⟨fun _ => rfl, fun _ => rfl, rfl⟩
  | approve id =>
    simp only [astep, stepApprove, bind_ok, Except.ok.injEq, Prod.mk.injEq, Prod.exists] at hs
    obtain ⟨_, _, _, _, _, _, _, _, _, _, _, rfl, _⟩ := hs
    exact ⟨fun _ => rfl, fun _ => rfl, rfl⟩
  | reject id =>
    simp only [astep, stepReject, bind_ok, Except.ok.injEq, Prod.mk.injEq] at hs
    obtain ⟨_, _, _, _, _, _, _, _, _, _, rfl, _⟩ := hs
    exact ⟨fun _ => rfl, fun _ => rfl, rfl⟩
  | updateApprover n =>
    simp only [astep, stepUpdateApprover, bind_ok, Except.ok.injEq, Prod.mk.injEq] at hs
    obtain ⟨_, _, _, _, _, _, rfl, _⟩ := hs
    exact ⟨fun _ => rfl, fun _ => rfl, rfl⟩
  | addHook a =>
    simp only [astep, stepHook, bind_ok, Except.ok.injEq, Prod.mk.injEq] at hs
    obtain ⟨_, _, _, _, _, _, _, hx, rfl, _⟩ := hs
    exact ⟨fun _ => rfl, fun _ => rfl, rfl⟩
  | removeHook a =>
    simp only [astep, stepHook, bind_ok, Except.ok.injEq, Prod.mk.injEq] at hs
    obtain ⟨_, _, _, _, _, _, _, hx, rfl, _⟩ := hs
    exact ⟨fun _ => rfl, fun _ => rfl, rfl⟩
  | base c =>
    simp only [astep, stepBase, bind_ok, require_ok, Except.ok.injEq, Prod.mk.injEq, Prod.exists] at hs
    obtain ⟨_, hto, w1, _, hx, rfl, _⟩ := hs
    exact step_policy hx

/-- **C100.** The same for a pre-propose module with an approver. -/
theorem C100_approval_policy {w0 w : AWorld M} {b0 b : Block} {log : List (Ev (AWorld M) (Env M) (ACall M) AOut)}
    (h : (asys M).Run w0 b0 log w b) :
    (∀ x, decide (x ∈ denied w.base.pre.config.policy) =
      value (ofACall (msgDenied x)) (decide (x ∈ denied w0.base.pre.config.policy)) (log.map (·.call))) ∧
    (∀ x, decide (x ∈ allowed w.base.pre.config.policy) =
      value (ofACall (msgAllowed x)) (decide (x ∈ allowed w0.base.pre.config.policy)) (log.map (·.call))) ∧
    membersMay w.base.pre.config.policy =
      value (ofACall msgMembers) (membersMay w0.base.pre.config.policy) (log.map (·.call)) :=
  ⟨fun x => value_run (get := fun w : AWorld M => decide (x ∈ denied w.base.pre.config.policy)) (fun hs => (astep_policy hs).1 x) h,
   fun x => value_run (get := fun w : AWorld M => decide (x ∈ allowed w.base.pre.config.policy)) (fun hs => (astep_policy hs).2.1 x) h,
   value_run (get := fun w : AWorld M => membersMay w.base.pre.config.policy) (fun hs => (astep_policy hs).2.2) h⟩

/-! ## Who can set what -/

/-- `x` is on a list after additions and then removals. -/
def After (l : List Addr) (add remove : Option (List Addr)) (x : Addr) : Prop :=
  (x ∈ l ∨ x ∈ add.getD []) ∧ x ∉ remove.getD []

theorem mem_after {x : Addr} {l : List Addr} {add remove : Option (List Addr)} :
    x ∈ addRemove l add remove ↔ After l add remove x := by
  rw [mem_addRemove, After]
  cases add <;> cases remove <;> simp

theorem stepPre_iff {w : World M} {e : Env M} {m : Msg} (hf : e.funds = []) (hm : ∀ t, m ≠ .withdraw t) :
    (∃ r, (sys M).step w e (.pre m) = .ok r) ↔
      M.sender e.mod ≠ w.here ∧ ∃ s', exec w.pre (M.sender e.mod) (fun t => getD0 w.bal (t, w.here)) m = .ok (s', []) := by
  constructor
  · intro ⟨r, h⟩
    change step w e (.pre m) = .ok r at h
    simp only [step, stepPre, bind_ok, require_ok, decide_eq_true_eq, hf, pullCoins, Except.ok.injEq] at h
    obtain ⟨_, h1, bal, rfl, ⟨pre, ps⟩, hx, _⟩ := h
    rcases (exec_kept hx).2 with rfl | ⟨t, _, rfl, _⟩
    · exact ⟨h1, pre, hx⟩
    · exact absurd rfl (hm t)
  · intro ⟨h1, s', hx⟩
    refine ⟨({ w with pre := s' }, { pays := [] }), ?_⟩
    change step w e (.pre m) = _
    simp only [step, stepPre, require, h1, ne_eq, not_false_eq_true, decide_true, if_true, ok_bind, hf, pullCoins, hx, payAll]

/-- **C100.** Who can set what in a pre-propose module (no coins attached): only the DAO; any deposit that is not zero
with any policy that is sound; any change of the lists after which nobody is on both and somebody may submit; it can
add any receiver not there and remove any receiver there. -/
theorem C100_can {w : World M} {e : Env M} (hf : e.funds = []) (hne : M.sender e.mod ≠ w.here) :
    (∀ d p, (∃ r, (sys M).step w e (.pre (.updateConfig d p)) = .ok r) ↔ M.sender e.mod = w.pre.dao ∧
      (∀ x, d = some x → x.amount ≠ 0 ∧ x.amount < U128) ∧ ∀ q, p = some q → SoundPolicy q) ∧
    (∀ da dr m aa ar, (∃ r, (sys M).step w e (.pre (.updatePolicy da dr m aa ar)) = .ok r) ↔ M.sender e.mod = w.pre.dao ∧
      match w.pre.config.policy with
      | .anyone _ => m = none ∧ aa = none ∧ ar = none
      | .specific k allow deny => (∀ x, After allow aa ar x → ¬ After deny da dr x) ∧
          (m.getD k = true ∨ ∃ x, After allow aa ar x)) ∧
    (∀ x, (∃ r, (sys M).step w e (.pre (.addHook x)) = .ok r) ↔
      M.sender e.mod = w.pre.dao ∧ x ∉ w.pre.hooks.getD []) ∧
    (∀ x, (∃ r, (sys M).step w e (.pre (.removeHook x)) = .ok r) ↔
      M.sender e.mod = w.pre.dao ∧ x ∈ w.pre.hooks.getD []) := by
  refine ⟨fun d p => ?_, fun da dr m aa ar => ?_, fun x => ?_, fun x => ?_⟩
  · rw [stepPre_iff hf (by intro t ht; cases ht)]
    have hg : (∀ x, d = some x → x.amount ≠ 0 ∧ x.amount < U128) ↔ GoodDeposit d := by
      cases d <;> simp [GoodDeposit]
    rw [hg]
    constructor
    · intro ⟨_, s', h⟩
      simp only [exec, execUpdateConfig, bind_ok, require_ok, decide_eq_true_eq, checkDeposit_ok] at h
      obtain ⟨_, ⟨_, h1, _, h2, h3⟩, _⟩ := h
      refine ⟨h1, h2, fun q hq => ?_⟩
      subst hq
      simp only [bind_ok] at h3
      obtain ⟨_, h3, _⟩ := h3
      exact validate_ok.1 h3
    · intro ⟨h1, h2, h3⟩
      refine ⟨hne, { w.pre with config := ⟨d, p.getD w.pre.config.policy⟩ }, ?_⟩
      simp only [exec, execUpdateConfig, require, h1, decide_true, if_true, ok_bind, (checkDeposit_ok (u := ())).2 h2]
      cases p with
      | none => rfl
      | some q => simp only [(validate_ok (u := ())).2 (h3 q rfl), ok_bind, Option.getD_some]
  · rw [stepPre_iff hf (by intro t ht; cases ht)]
    constructor
    · intro ⟨_, s', h⟩
      simp only [exec, execUpdatePolicy, bind_ok, require_ok, decide_eq_true_eq] at h
      obtain ⟨_, ⟨_, h1, h3⟩, _⟩ := h
      refine ⟨h1, ?_⟩
      split at h3
      · rename_i deny hpol
        simp only [bind_ok, require_ok, Bool.and_eq_true, Option.isNone_iff_eq_none] at h3
        obtain ⟨_, ⟨⟨h4, h5⟩, h6⟩, _⟩ := h3
        rw [hpol]
        exact ⟨h4, h5, h6⟩
      · rename_i members allow deny hpol
        simp only [bind_ok] at h3
        obtain ⟨_, h3, _⟩ := h3
        have := validate_ok.1 h3
        simp only [SoundPolicy, mem_after] at this
        rw [hpol]
        exact this
    · intro ⟨h1, h3⟩
      refine ⟨hne, ?_⟩
      cases hpol : w.pre.config.policy with
      | anyone deny =>
        rw [hpol] at h3
        obtain ⟨rfl, rfl, rfl⟩ := h3
        refine ⟨{ w.pre with config := ⟨w.pre.config.deposit, .anyone (addRemove deny da dr)⟩ }, ?_⟩
        simp only [exec, execUpdatePolicy, require, h1, decide_true, if_true, ok_bind, hpol, Option.isNone_none,
          Bool.and_self, Policy.validate]
      | specific k allow deny =>
        rw [hpol] at h3
        refine ⟨{ w.pre with config := ⟨w.pre.config.deposit, .specific (m.getD k) (addRemove allow aa ar)
          (addRemove deny da dr)⟩ }, ?_⟩
        have hv : Policy.validate (.specific (m.getD k) (addRemove allow aa ar) (addRemove deny da dr)) = .ok () :=
          validate_ok.2 (by simp only [SoundPolicy, mem_after]; exact h3)
        simp only [exec, execUpdatePolicy, require, h1, decide_true, if_true, ok_bind, hpol, hv]
  · rw [stepPre_iff hf (by intro t ht; cases ht), show w.pre.hooks.getD [] = items w.pre.hooks from rfl, ← add_iff]
    constructor
    · intro ⟨_, s', h⟩
      simp only [exec, execAddHook, bind_ok, require_ok, decide_eq_true_eq] at h
      obtain ⟨_, ⟨_, h1, h', h3, _⟩, _⟩ := h
      exact ⟨h1, h', h3⟩
    · intro ⟨h1, h', h3⟩
      refine ⟨hne, { w.pre with hooks := h' }, ?_⟩
      simp only [exec, execAddHook, require, h1, decide_true, if_true, ok_bind, h3]
  · rw [stepPre_iff hf (by intro t ht; cases ht), show w.pre.hooks.getD [] = items w.pre.hooks from rfl, ← remove_iff]
    constructor
    · intro ⟨_, s', h⟩
      simp only [exec, execRemoveHook, bind_ok, require_ok, decide_eq_true_eq] at h
      obtain ⟨_, ⟨_, h1, h', h3, _⟩, _⟩ := h
      exact ⟨h1, h', h3⟩
    · intro ⟨h1, h', h3⟩
      refine ⟨hne, { w.pre with hooks := h' }, ?_⟩
      simp only [exec, execRemoveHook, require, h1, decide_true, if_true, ok_bind, h3]

end PrePropose
end Verif
