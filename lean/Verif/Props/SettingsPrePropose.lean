import Verif.Spec.Settings
import Verif.Proofs.Settings
import Verif.Props.PreProposeOnce
import Verif.Props.PreProposeApproval
/-!
# C100: settings of the pre-propose modules are what was said last
-/

namespace Verif.PrePropose
open Verif.Settings Verif.Hooks
variable {M : PropModule}

/-- What a call says about the receivers told of submissions. -/
def editsHooks : Call M → Edit
  | .pre (.addHook a) => .add a
  | .pre (.removeHook a) => .remove a
  | _ => .keep

/-- What a call says about the deposit asked for. -/
def setsDeposit : Call M → Option (Option Deposit)
  | .pre (.updateConfig d _) => some d
  | _ => none

theorem exec_settings {s s' : Pre} {a : Addr} {f : Token → Nat} {m : Msg} {ps : List Pay}
    (h : exec s a f m = .ok (s', ps)) :
    items s'.hooks = (editsHooks (M := M) (.pre m)).apply (items s.hooks) ∧
    s'.config.deposit = (setsDeposit (M := M) (.pre m)).getD s.config.deposit := by
  cases m with
  | updateConfig d p =>
    simp only [exec, execUpdateConfig, bind_ok, Except.ok.injEq, Prod.mk.injEq] at h
    obtain ⟨s1, ⟨_, h1, _, h2, h3⟩, rfl, _⟩ := h
    cases p with
    | none => simp only [Except.ok.injEq] at h3; subst h3; exact ⟨rfl, rfl⟩
    | some p =>
      simp only [bind_ok, Except.ok.injEq] at h3
      obtain ⟨_, _, rfl⟩ := h3
      exact ⟨rfl, rfl⟩
  | updatePolicy da dr k aa ar =>
    simp only [exec, execUpdatePolicy, bind_ok, Except.ok.injEq, Prod.mk.injEq] at h
    obtain ⟨s1, ⟨_, _, h3⟩, rfl, _⟩ := h
    split at h3
    · simp only [bind_ok, Except.ok.injEq] at h3
      obtain ⟨_, _, _, _, rfl⟩ := h3
      exact ⟨rfl, rfl⟩
    · simp only [bind_ok, Except.ok.injEq] at h3
      obtain ⟨_, _, rfl⟩ := h3
      exact ⟨rfl, rfl⟩
  | withdraw t =>
    simp only [exec, bind_ok, Except.ok.injEq, Prod.mk.injEq] at h
    obtain ⟨_, _, rfl, _⟩ := h
    exact ⟨rfl, rfl⟩
  | addHook x =>
    simp only [exec, execAddHook, bind_ok, Except.ok.injEq, Prod.mk.injEq] at h
    obtain ⟨_, ⟨_, _, _, hx, rfl⟩, rfl, _⟩ := h
    exact ⟨edit_add hx, rfl⟩
  | removeHook x =>
    simp only [exec, execRemoveHook, bind_ok, Except.ok.injEq, Prod.mk.injEq] at h
    obtain ⟨_, ⟨_, _, _, hx, rfl⟩, rfl, _⟩ := h
    exact ⟨edit_remove hx, rfl⟩
  | extension =>
    simp only [exec, Except.ok.injEq, Prod.mk.injEq] at h
    obtain ⟨rfl, _⟩ := h
    exact ⟨rfl, rfl⟩

theorem step_settings {w w' : World M} {e : Env M} {c : Call M} {o : Out} (hs : step w e c = .ok (w', o)) :
    items w'.pre.hooks = (editsHooks c).apply (items w.pre.hooks) ∧
    w'.pre.config.deposit = (setsDeposit c).getD w.pre.config.deposit := by
  cases c with
  | propose p =>
    simp only [step, stepPropose, bind_ok] at hs
    obtain ⟨_, _, bal, hb, ⟨pre, ts⟩, hpp, ⟨mod, mo⟩, hm, hs⟩ := hs
    simp only [Except.ok.injEq, Prod.mk.injEq] at hs
    obtain ⟨rfl, _⟩ := hs
    obtain ⟨_, rfl, _, _⟩ := execPropose_ok hpp
    exact ⟨rfl, rfl⟩
  | pre m =>
    simp only [step, stepPre, bind_ok] at hs
    obtain ⟨_, ha, bal, hb, ⟨pre, ps⟩, hpp, bal', hpay, hs⟩ := hs
    simp only [Except.ok.injEq, Prod.mk.injEq] at hs
    obtain ⟨rfl, _⟩ := hs
    exact exec_settings hpp
  | completed id st =>
    simp only [step, stepCompleted, bind_ok, Except.ok.injEq, Prod.mk.injEq] at hs
    obtain ⟨_, ha, ps, hpp, bal', hpay, rfl, rfl⟩ := hs
    exact ⟨rfl, rfl⟩
  | module c =>
    simp only [step, stepModule, bind_ok] at hs
    obtain ⟨_, ha, _, hout, ⟨mod, mo⟩, hm, hs⟩ := hs
    simp only [Except.ok.injEq, Prod.mk.injEq] at hs
    obtain ⟨rfl, rfl⟩ := hs
    exact ⟨rfl, rfl⟩
  | deliver i =>
    simp only [step, stepDeliver] at hs
    split at hs
    · cases hs
    · split at hs
      · simp only [Except.ok.injEq, Prod.mk.injEq] at hs
        obtain ⟨rfl, rfl⟩ := hs
        exact ⟨rfl, rfl⟩
      · simp only [bind_ok, Except.ok.injEq, Prod.mk.injEq] at hs
        obtain ⟨_, _, rfl, _⟩ := hs
        exact ⟨rfl, rfl⟩
  | take i =>
    simp only [step, stepTake] at hs
    split at hs
    · cases hs
    · simp only [bind_ok, Except.ok.injEq, Prod.mk.injEq] at hs
      obtain ⟨_, _, rfl, _⟩ := hs
      exact ⟨rfl, rfl⟩
  | transfer x y t n =>
    simp only [step, stepTransfer, bind_ok, Except.ok.injEq, Prod.mk.injEq] at hs
    obtain ⟨_, _, _, _, rfl, _⟩ := hs
    exact ⟨rfl, rfl⟩

theorem init_hooks {w : World M} {reach : Block → M.St → Prop} {b : Block} (h : Init M reach b w) : w.pre.hooks = none := by
  obtain ⟨_, _, _, _, _, c, hi⟩ := h
  simp only [instantiate, bind_ok, Except.ok.injEq] at hi
  obtain ⟨_, _, _, _, hi⟩ := hi
  rw [← hi]

/-- **C100.** In every reachable state of a pre-propose module the receivers told of submissions are those the DAO added
and has not removed since, in the order of adding. -/
theorem C100_hooks {w : World M} {b : Block} {log : List (Ev (World M) (Env M) (Call M) Out)}
    (h : (sys M).Reach w b log) : w.pre.hooks.getD [] = receivers editsHooks (log.map (·.call)) := by
  obtain ⟨b0, w0, hi, hr⟩ := h
  refine receivers_run (get := fun w : World M => w.pre.hooks.getD []) (fun hs => (step_settings hs).1) ?_ hr
  simp only [init_hooks hi, Option.getD_none]

/-- **C100.** The deposit a pre-propose module asks for is the one set last. -/
theorem C100_last {w0 w : World M} {b0 b : Block} {log : List (Ev (World M) (Env M) (Call M) Out)}
    (h : (sys M).Run w0 b0 log w b) :
    w.pre.config.deposit = value setsDeposit w0.pre.config.deposit (log.map (·.call)) :=
  value_run (get := fun w : World M => w.pre.config.deposit) (fun hs => (step_settings hs).2) h

/-! ## With an approver -/

/-- What a call says about the receivers told of submissions. -/
def aeditsHooks : ACall M → Edit
  | .addHook a => .add a
  | .removeHook a => .remove a
  | _ => .keep

/-- What a call says about the deposit asked for. -/
def asetsDeposit : ACall M → Option (Option Deposit)
  | .base (.pre (.updateConfig d _)) => some d
  | _ => none

/-- What a call says about who approves. -/
def setsApprover : ACall M → Option Addr
  | .updateApprover a => some a
  | _ => none

theorem astep_settings {w w' : AWorld M} {e : Env M} {c : ACall M} {o : AOut} (hs : astep w e c = .ok (w', o)) :
    items w'.base.pre.hooks = (aeditsHooks c).apply (items w.base.pre.hooks) ∧
    w'.base.pre.config.deposit = (asetsDeposit c).getD w.base.pre.config.deposit ∧
    w'.app.approver = (setsApprover c).getD w.app.approver := by
  cases c with
  | submit p =>
    simp only [astep, stepSubmit, bind_ok, Except.ok.injEq, Prod.mk.injEq] at hs
    obtain ⟨_, _, _, _, _, _, _, _, _, _, rfl, _⟩ := hs
    exact ⟨rfl, rfl, rfl⟩
  | approve id =>
    simp only [astep, stepApprove, bind_ok, Except.ok.injEq, Prod.mk.injEq, Prod.exists] at hs
    obtain ⟨_, _, _, _, _, _, _, _, _, _, _, rfl, _⟩ := hs
    exact ⟨rfl, rfl, rfl⟩
  | reject id =>
    simp only [astep, stepReject, bind_ok, Except.ok.injEq, Prod.mk.injEq] at hs
    obtain ⟨_, _, _, _, _, _, _, _, _, _, rfl, _⟩ := hs
    exact ⟨rfl, rfl, rfl⟩
  | updateApprover n =>
    simp only [astep, stepUpdateApprover, bind_ok, Except.ok.injEq, Prod.mk.injEq] at hs
    obtain ⟨_, _, _, _, _, _, rfl, _⟩ := hs
    exact ⟨rfl, rfl, rfl⟩
  | addHook a =>
    simp only [astep, stepHook, bind_ok, Except.ok.injEq, Prod.mk.injEq] at hs
    obtain ⟨_, _, _, _, _, _, _, hx, rfl, _⟩ := hs
    exact ⟨edit_add hx, rfl, rfl⟩
  | removeHook a =>
    simp only [astep, stepHook, bind_ok, Except.ok.injEq, Prod.mk.injEq] at hs
    obtain ⟨_, _, _, _, _, _, _, hx, rfl, _⟩ := hs
    exact ⟨edit_remove hx, rfl, rfl⟩
  | base c =>
    simp only [astep, stepBase, bind_ok, require_ok, Except.ok.injEq, Prod.mk.injEq, Prod.exists] at hs
    obtain ⟨_, hto, w1, _, hx, rfl, _⟩ := hs
    obtain ⟨h1, h2⟩ := step_settings hx
    refine ⟨h1.trans ?_, h2.trans ?_, rfl⟩
    · have : editsHooks c = .keep := by
        cases c with
        | pre m => cases m <;> first | rfl | cases hto
        | _ => rfl
      rw [this]; rfl
    · cases c with
      | pre m => cases m <;> rfl
      | _ => rfl

/-- **C100.** In every reachable state of a pre-propose module with an approver the receivers told of submissions are
those added and not removed since, in the order of adding. -/
theorem C100_approval_hooks {w : AWorld M} {b : Block} {log : List (Ev (AWorld M) (Env M) (ACall M) AOut)}
    (h : (asys M).Reach w b log) : w.base.pre.hooks.getD [] = receivers aeditsHooks (log.map (·.call)) := by
  obtain ⟨b0, w0, hi, hr⟩ := h
  refine receivers_run (get := fun w : AWorld M => w.base.pre.hooks.getD []) (fun hs => (astep_settings hs).1) ?_ hr
  simp only [init_hooks hi.1, Option.getD_none]

/-- **C100.** The deposit and the approver are those set last. -/
theorem C100_approval_last {w0 w : AWorld M} {b0 b : Block} {log : List (Ev (AWorld M) (Env M) (ACall M) AOut)}
    (h : (asys M).Run w0 b0 log w b) :
    w.base.pre.config.deposit = value asetsDeposit w0.base.pre.config.deposit (log.map (·.call)) ∧
    w.app.approver = value setsApprover w0.app.approver (log.map (·.call)) :=
  ⟨value_run (get := fun w : AWorld M => w.base.pre.config.deposit) (fun hs => (astep_settings hs).2.1) h,
   value_run (get := fun w : AWorld M => w.app.approver) (fun hs => (astep_settings hs).2.2) h⟩

end Verif.PrePropose
