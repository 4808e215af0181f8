import Verif.Spec.SettingsOf
import Verif.Proofs.Settings
import Verif.Proofs.TokenStaked
import Verif.Proofs.NftStaked
import Verif.Proofs.Cw20Stake
import Verif.Proofs.OnftStaked
import Verif.Proofs.Roles
/-!
# C100: settings of the staking contracts and of the role contract are what their administrators said last
-/

namespace Verif

theorem Settings.positive_ok {d : Option Duration} {u : Unit} :
    Cw20Stake.validateDuration d = .ok u ↔ Settings.Positive d := by
  unfold Cw20Stake.validateDuration Settings.Positive
  rcases d with _ | ⟨n⟩ | ⟨n⟩ <;> simp

namespace TokenStaked
open Verif.Settings Verif.Hooks

/-- What a step does to the settings. -/
theorem exec_settings {s s' : State} {b : Block} {n : Nat} {a : Addr} {m : Msg} {out : Out}
    (h : exec s b n a m = .ok (s', out)) :
    items s'.hooks = (editsHooks (.exec a m)).apply (items s.hooks) ∧
    s'.unstakingDuration = (setsDuration (.exec a m)).getD s.unstakingDuration ∧
    s'.threshold = (setsThreshold (.exec a m)).getD s.threshold := by
  cases m with
  | unstake k =>
    simp only [exec] at h
    obtain ⟨_, _, _, _, ⟨_, rfl, _⟩ | ⟨d, _, _, rfl, _⟩⟩ := unstake_inv h <;> exact ⟨rfl, rfl, rfl⟩
  | claim =>
    simp only [exec] at h
    obtain ⟨_, _, _, _, rfl, _⟩ := claim_inv h; exact ⟨rfl, rfl, rfl⟩
  | updateConfig d =>
    simp only [exec, bind_ok, Except.ok.injEq, Prod.mk.injEq] at h
    obtain ⟨_, _, _, _, rfl, _⟩ := h; exact ⟨rfl, rfl, rfl⟩
  | updateActiveThreshold t =>
    simp only [exec, bind_ok, Except.ok.injEq, Prod.mk.injEq] at h
    obtain ⟨_, _, _, _, rfl, _⟩ := h; exact ⟨rfl, rfl, rfl⟩
  | addHook x =>
    simp only [exec, bind_ok, Except.ok.injEq, Prod.mk.injEq] at h
    obtain ⟨_, _, _, hx, rfl, _⟩ := h; exact ⟨edit_add hx, rfl, rfl⟩
  | removeHook x =>
    simp only [exec, bind_ok, Except.ok.injEq, Prod.mk.injEq] at h
    obtain ⟨_, _, _, hx, rfl, _⟩ := h; exact ⟨edit_remove hx, rfl, rfl⟩

theorem step_settings {w w' : World} {b : Block} {call : Call} {out : Out} (h : step w b call = .ok (w', out)) :
    items w'.c.hooks = (editsHooks call).apply (items w.c.hooks) ∧
    w'.c.unstakingDuration = (setsDuration call).getD w.c.unstakingDuration ∧
    w'.c.threshold = (setsThreshold call).getD w.c.threshold := by
  cases call with
  | exec a m =>
    simp only [step, bind_ok] at h
    obtain ⟨_, _, ⟨c, o⟩, he, hset⟩ := h
    have hc : w'.c = c := by
      obtain ⟨_, ⟨_, e⟩ | ⟨_, _, _, _, _, e⟩⟩ := settle_inv hset <;> rw [e]
    rw [hc]; exact exec_settings he
  | stake a n =>
    simp only [step, bind_ok, Except.ok.injEq, Prod.mk.injEq] at h
    obtain ⟨_, _, _, _, ⟨c, o⟩, hx, rfl, _⟩ := h
    obtain ⟨_, _, _, rfl, _⟩ := stake_inv hx
    exact ⟨rfl, rfl, rfl⟩
  | transfer a d n =>
    simp only [step, bind_ok, Except.ok.injEq, Prod.mk.injEq] at h
    obtain ⟨_, _, _, _, rfl, _⟩ := h; exact ⟨rfl, rfl, rfl⟩
  | mint d n =>
    simp only [step, bind_ok, Except.ok.injEq, Prod.mk.injEq] at h
    obtain ⟨_, _, _, _, rfl, _⟩ := h; exact ⟨rfl, rfl, rfl⟩
  | burn a n =>
    simp only [step, bind_ok, Except.ok.injEq, Prod.mk.injEq] at h
    obtain ⟨_, _, _, _, rfl, _⟩ := h; exact ⟨rfl, rfl, rfl⟩

/-- **C100.** In every reachable state of dao-voting-token-staked the receivers told of stakes are those added and not
removed since, in the order of adding. -/
theorem C100_hooks {w : World} {b : Block} {log : List (Ev World Block Call Out)} (h : sys.Reach w b log) :
    w.c.hooks.getD [] = receivers editsHooks (log.map (·.call)) := by
  obtain ⟨b0, w0, ⟨dao, d, t, hi, _⟩, hr⟩ := h
  refine receivers_run (get := fun w : World => w.c.hooks.getD []) (fun hs => (step_settings hs).1) ?_ hr
  simp only [instantiate, bind_ok, Except.ok.injEq] at hi
  obtain ⟨_, _, _, _, hi⟩ := hi
  simp only [← hi, Option.getD_none]

/-- **C100.** The waiting time and the active threshold are those set last. -/
theorem C100_last {w0 w : World} {b0 b : Block} {log : List (Ev World Block Call Out)} (h : sys.Run w0 b0 log w b) :
    w.c.unstakingDuration = value setsDuration w0.c.unstakingDuration (log.map (·.call)) ∧
    w.c.threshold = value setsThreshold w0.c.threshold (log.map (·.call)) :=
  ⟨value_run (get := fun w : World => w.c.unstakingDuration) (fun hs => (step_settings hs).2.1) h,
   value_run (get := fun w : World => w.c.threshold) (fun hs => (step_settings hs).2.2) h⟩

/-- **C100.** Who can set what: the DAO, any positive waiting time; it can add any receiver not there and remove any
receiver there. (For thresholds see C32.) -/
theorem C100_can {w : World} {b : Block} {a : Addr} :
    (∀ d, (∃ r, sys.step w b (.exec a (.updateConfig d)) = .ok r) ↔ a ≠ w.self ∧ a = w.c.dao ∧ Positive d) ∧
    (∀ x, (∃ r, sys.step w b (.exec a (.addHook x)) = .ok r) ↔ a ≠ w.self ∧ a = w.c.dao ∧ x ∉ w.c.hooks.getD []) ∧
    (∀ x, (∃ r, sys.step w b (.exec a (.removeHook x)) = .ok r) ↔ a ≠ w.self ∧ a = w.c.dao ∧ x ∈ w.c.hooks.getD []) := by
  refine ⟨fun d => ?_, fun x => ?_, fun x => ?_⟩
  · constructor
    · intro ⟨r, h⟩
      simp only [sys, step, exec, bind_ok, require_ok, decide_eq_true_eq, positive_ok] at h
      obtain ⟨_, h1, _, ⟨_, h2, _, h3, _⟩, _⟩ := h
      exact ⟨h1, h2, h3⟩
    · intro ⟨h1, h2, h3⟩
      refine ⟨({ w with c := { w.c with unstakingDuration := d } }, {}), ?_⟩
      simp only [sys, step, exec, require, h1, h2, ne_eq, not_false_eq_true, decide_true, if_true, ok_bind,
        (positive_ok (u := ())).2 h3, settle]
      rw [if_pos (by rw [← h2]; exact decide_eq_true h1)]
      rfl
  · rw [show w.c.hooks.getD [] = items w.c.hooks from rfl, ← add_iff]
    constructor
    · intro ⟨r, h⟩
      simp only [sys, step, exec, bind_ok, require_ok, decide_eq_true_eq] at h
      obtain ⟨_, h1, _, ⟨_, h2, h', h3, _⟩, _⟩ := h
      exact ⟨h1, h2, h', h3⟩
    · intro ⟨h1, h2, h', h3⟩
      refine ⟨({ w with c := { w.c with hooks := h' } }, {}), ?_⟩
      simp only [sys, step, exec, require, h1, h2, ne_eq, not_false_eq_true, decide_true, if_true, ok_bind, h3, settle]
      rw [if_pos (by rw [← h2]; exact decide_eq_true h1)]
      rfl
  · rw [show w.c.hooks.getD [] = items w.c.hooks from rfl, ← remove_iff]
    constructor
    · intro ⟨r, h⟩
      simp only [sys, step, exec, bind_ok, require_ok, decide_eq_true_eq] at h
      obtain ⟨_, h1, _, ⟨_, h2, h', h3, _⟩, _⟩ := h
      exact ⟨h1, h2, h', h3⟩
    · intro ⟨h1, h2, h', h3⟩
      refine ⟨({ w with c := { w.c with hooks := h' } }, {}), ?_⟩
      simp only [sys, step, exec, require, h1, h2, ne_eq, not_false_eq_true, decide_true, if_true, ok_bind, h3, settle]
      rw [if_pos (by rw [← h2]; exact decide_eq_true h1)]
      rfl

end TokenStaked

namespace NftStaked
open Verif.Settings Verif.Hooks

/-- What a step does to the settings. -/
theorem exec_settings {s s' : State} {b : Block} {n : Nat} {a : Addr} {m : Msg} {out : Out}
    (h : exec s b n a m = .ok (s', out)) :
    items s'.hooks = (editsHooks (.exec a m)).apply (items s.hooks) ∧
    s'.unstakingDuration = (setsDuration (.exec a m)).getD s.unstakingDuration ∧
    s'.threshold = (setsThreshold (.exec a m)).getD s.threshold := by
  cases m with
  | receiveNft x t =>
    simp only [exec] at h
    obtain ⟨_, rfl, _⟩ := stake_inv h; exact ⟨rfl, rfl, rfl⟩
  | unstake ts =>
    simp only [exec] at h
    obtain ⟨_, _, _, _, m, _, ⟨_, rfl, _⟩ | ⟨d, _, _, rfl, _⟩⟩ := unstake_inv h <;> exact ⟨rfl, rfl, rfl⟩
  | claimNfts =>
    simp only [exec] at h
    obtain ⟨_, rfl, _⟩ := claim_inv h; exact ⟨rfl, rfl, rfl⟩
  | updateConfig d =>
    simp only [exec, bind_ok, Except.ok.injEq, Prod.mk.injEq] at h
    obtain ⟨_, _, _, _, rfl, _⟩ := h; exact ⟨rfl, rfl, rfl⟩
  | updateActiveThreshold t =>
    simp only [exec, bind_ok, Except.ok.injEq, Prod.mk.injEq] at h
    obtain ⟨_, _, _, _, rfl, _⟩ := h; exact ⟨rfl, rfl, rfl⟩
  | addHook x =>
    simp only [exec, bind_ok, Except.ok.injEq, Prod.mk.injEq] at h
    obtain ⟨_, _, _, hx, rfl, _⟩ := h; exact ⟨edit_add hx, rfl, rfl⟩
  | removeHook x =>
    simp only [exec, bind_ok, Except.ok.injEq, Prod.mk.injEq] at h
    obtain ⟨_, _, _, hx, rfl, _⟩ := h; exact ⟨edit_remove hx, rfl, rfl⟩

theorem step_settings {w w' : World} {b : Block} {call : Call} {out : Out} (h : step w b call = .ok (w', out)) :
    items w'.c.hooks = (editsHooks call).apply (items w.c.hooks) ∧
    w'.c.unstakingDuration = (setsDuration call).getD w.c.unstakingDuration ∧
    w'.c.threshold = (setsThreshold call).getD w.c.threshold := by
  cases call with
  | exec a m =>
    simp only [step, bind_ok] at h
    obtain ⟨_, _, ⟨c, o⟩, he, _, _, hs⟩ := h
    simp only [Except.ok.injEq, Prod.mk.injEq] at hs
    rw [← hs.1]; exact exec_settings he
  | send a t =>
    simp only [step, exec, bind_ok, Except.ok.injEq, Prod.mk.injEq] at h
    obtain ⟨_, _, ⟨c, o⟩, hx, rfl, _⟩ := h
    obtain ⟨_, rfl, _⟩ := stake_inv hx
    exact ⟨rfl, rfl, rfl⟩
  | transfer a d t =>
    simp only [step, bind_ok, Except.ok.injEq, Prod.mk.injEq] at h
    obtain ⟨_, _, rfl, _⟩ := h; exact ⟨rfl, rfl, rfl⟩
  | mint d t =>
    simp only [step, bind_ok, Except.ok.injEq, Prod.mk.injEq] at h
    obtain ⟨_, _, rfl, _⟩ := h; exact ⟨rfl, rfl, rfl⟩
  | burn a t =>
    simp only [step, bind_ok, Except.ok.injEq, Prod.mk.injEq] at h
    obtain ⟨_, _, rfl, _⟩ := h; exact ⟨rfl, rfl, rfl⟩

/-- **C100.** In every reachable state of dao-voting-cw721-staked the receivers told of stakes are those added and not
removed since, in the order of adding. -/
theorem C100_hooks {w : World} {b : Block} {log : List (Ev World Block Call Out)} (h : sys.Reach w b log) :
    w.c.hooks.getD [] = receivers editsHooks (log.map (·.call)) := by
  obtain ⟨b0, w0, ⟨dao, nft, sup, d, t, hi, _⟩, hr⟩ := h
  refine receivers_run (get := fun w : World => w.c.hooks.getD []) (fun hs => (step_settings hs).1) ?_ hr
  simp only [instantiate, bind_ok, Except.ok.injEq] at hi
  obtain ⟨_, _, _, _, hi⟩ := hi
  simp only [← hi, Option.getD_none]

/-- **C100.** The waiting time and the active threshold are those set last. -/
theorem C100_last {w0 w : World} {b0 b : Block} {log : List (Ev World Block Call Out)} (h : sys.Run w0 b0 log w b) :
    w.c.unstakingDuration = value setsDuration w0.c.unstakingDuration (log.map (·.call)) ∧
    w.c.threshold = value setsThreshold w0.c.threshold (log.map (·.call)) :=
  ⟨value_run (get := fun w : World => w.c.unstakingDuration) (fun hs => (step_settings hs).2.1) h,
   value_run (get := fun w : World => w.c.threshold) (fun hs => (step_settings hs).2.2) h⟩

/-- **C100.** Who can set what: the DAO, any positive waiting time; it can add any receiver not there and remove any
receiver there. (For thresholds see C32.) -/
theorem C100_can {w : World} {b : Block} {a : Addr} :
    (∀ d, (∃ r, sys.step w b (.exec a (.updateConfig d)) = .ok r) ↔ (a ≠ w.self ∧ a ≠ w.c.nft) ∧ a = w.c.dao ∧ Positive d) ∧
    (∀ x, (∃ r, sys.step w b (.exec a (.addHook x)) = .ok r) ↔ (a ≠ w.self ∧ a ≠ w.c.nft) ∧ a = w.c.dao ∧ x ∉ w.c.hooks.getD []) ∧
    (∀ x, (∃ r, sys.step w b (.exec a (.removeHook x)) = .ok r) ↔ (a ≠ w.self ∧ a ≠ w.c.nft) ∧ a = w.c.dao ∧ x ∈ w.c.hooks.getD []) := by
  refine ⟨fun d => ?_, fun x => ?_, fun x => ?_⟩
  · constructor
    · intro ⟨r, h⟩
      simp only [sys, step, exec, bind_ok, require_ok, decide_eq_true_eq, positive_ok] at h
      obtain ⟨_, h1, _, ⟨_, h2, _, h3, _⟩, _⟩ := h
      exact ⟨h1, h2, h3⟩
    · intro ⟨h1, h2, h3⟩
      refine ⟨({ w with c := { w.c with unstakingDuration := d } }, {}), ?_⟩
      simp only [sys, step, exec, require, h1, h2, ne_eq, not_false_eq_true, decide_true, if_true, ok_bind,
        (positive_ok (u := ())).2 h3, giveBack]
      rw [if_pos (by rw [← h2]; exact decide_eq_true h1)]
      rfl
  · rw [show w.c.hooks.getD [] = items w.c.hooks from rfl, ← add_iff]
    constructor
    · intro ⟨r, h⟩
      simp only [sys, step, exec, bind_ok, require_ok, decide_eq_true_eq] at h
      obtain ⟨_, h1, _, ⟨_, h2, h', h3, _⟩, _⟩ := h
      exact ⟨h1, h2, h', h3⟩
    · intro ⟨h1, h2, h', h3⟩
      refine ⟨({ w with c := { w.c with hooks := h' } }, {}), ?_⟩
      simp only [sys, step, exec, require, h1, h2, ne_eq, not_false_eq_true, decide_true, if_true, ok_bind, h3, giveBack]
      rw [if_pos (by rw [← h2]; exact decide_eq_true h1)]
      rfl
  · rw [show w.c.hooks.getD [] = items w.c.hooks from rfl, ← remove_iff]
    constructor
    · intro ⟨r, h⟩
      simp only [sys, step, exec, bind_ok, require_ok, decide_eq_true_eq] at h
      obtain ⟨_, h1, _, ⟨_, h2, h', h3, _⟩, _⟩ := h
      exact ⟨h1, h2, h', h3⟩
    · intro ⟨h1, h2, h', h3⟩
      refine ⟨({ w with c := { w.c with hooks := h' } }, {}), ?_⟩
      simp only [sys, step, exec, require, h1, h2, ne_eq, not_false_eq_true, decide_true, if_true, ok_bind, h3, giveBack]
      rw [if_pos (by rw [← h2]; exact decide_eq_true h1)]
      rfl

end NftStaked

namespace Cw20Stake
open Verif.Settings Verif.Hooks

/-- What a step does to the settings. -/
theorem exec_settings {s s' : State} {b : Block} {a : Addr} {m : Msg} {out : Out}
    (h : exec s b a m = .ok (s', out)) :
    items s'.hooks = (editsHooks (.exec a m)).apply (items s.hooks) ∧
    s'.config.unstakingDuration = (setsDuration (.exec a m)).getD s.config.unstakingDuration := by
  cases m with
  | receive x n r =>
    simp only [exec, execReceive, bind_ok] at h
    obtain ⟨_, _, h⟩ := h
    cases r with
    | stake => obtain ⟨_, _, _, _, _, rfl, _⟩ := stake_inv h; exact ⟨rfl, rfl⟩
    | fund =>
      simp only [execFund, bind_ok, Except.ok.injEq, Prod.mk.injEq] at h
      obtain ⟨_, _, rfl, _⟩ := h; exact ⟨rfl, rfl⟩
  | unstake k =>
    simp only [exec] at h
    obtain ⟨_, _, _, _, _, _, _, _, ⟨_, rfl, _⟩ | ⟨d, _, _, rfl, _⟩⟩ := unstake_inv h <;> exact ⟨rfl, rfl⟩
  | claim =>
    simp only [exec] at h
    obtain ⟨_, _, _, _, rfl, _⟩ := claim_inv h; exact ⟨rfl, rfl⟩
  | updateConfig d =>
    simp only [exec, execUpdateConfig, bind_ok, Except.ok.injEq, Prod.mk.injEq] at h
    obtain ⟨_, _, _, _, rfl, _⟩ := h; exact ⟨rfl, rfl⟩
  | updateOwnership x =>
    simp only [exec, bind_ok, Except.ok.injEq, Prod.mk.injEq] at h
    obtain ⟨_, _, rfl, _⟩ := h; exact ⟨rfl, rfl⟩
  | addHook x =>
    simp only [exec, bind_ok, Except.ok.injEq, Prod.mk.injEq] at h
    obtain ⟨_, _, _, hx, rfl, _⟩ := h; exact ⟨edit_add hx, rfl⟩
  | removeHook x =>
    simp only [exec, bind_ok, Except.ok.injEq, Prod.mk.injEq] at h
    obtain ⟨_, _, _, hx, rfl, _⟩ := h; exact ⟨edit_remove hx, rfl⟩

theorem step_settings {w w' : World} {b : Block} {call : Call} {out : Out} (h : step w b call = .ok (w', out)) :
    items w'.c.hooks = (editsHooks call).apply (items w.c.hooks) ∧
    w'.c.config.unstakingDuration = (setsDuration call).getD w.c.config.unstakingDuration := by
  cases call with
  | exec a m =>
    simp only [step, bind_ok] at h
    obtain ⟨_, _, ⟨c, o⟩, he, hset⟩ := h
    have hc : w'.c = c := by
      obtain ⟨_, ⟨_, e⟩ | ⟨_, _, _, _, _, e⟩⟩ := settle_inv hset <;> rw [e]
    rw [hc]; exact exec_settings he
  | send a n m =>
    simp only [step, bind_ok] at h
    obtain ⟨_, _, _, _, ⟨c, o⟩, he, hset⟩ := h
    have hc : w'.c = c := by
      obtain ⟨_, ⟨_, e⟩ | ⟨_, _, _, _, _, e⟩⟩ := settle_inv hset <;> rw [e]
    rw [hc]; exact exec_settings he
  | transfer a d n =>
    simp only [step, bind_ok, Except.ok.injEq, Prod.mk.injEq] at h
    obtain ⟨_, _, _, _, rfl, _⟩ := h; exact ⟨rfl, rfl⟩
  | mint d n =>
    simp only [step, bind_ok, Except.ok.injEq, Prod.mk.injEq] at h
    obtain ⟨_, _, _, _, rfl, _⟩ := h; exact ⟨rfl, rfl⟩
  | burn a n =>
    simp only [step, bind_ok, Except.ok.injEq, Prod.mk.injEq] at h
    obtain ⟨_, _, _, _, rfl, _⟩ := h; exact ⟨rfl, rfl⟩

/-- **C100.** In every reachable state of cw20-stake the receivers told of stakes are those added and not
removed since, in the order of adding. -/
theorem C100_hooks {w : World} {b : Block} {log : List (Ev World Block Call Out)} (h : sys.Reach w b log) :
    w.c.hooks.getD [] = receivers editsHooks (log.map (·.call)) := by
  obtain ⟨b0, w0, ⟨owner, token, d, hi, _⟩, hr⟩ := h
  refine receivers_run (get := fun w : World => w.c.hooks.getD []) (fun hs => (step_settings hs).1) ?_ hr
  simp only [instantiate, bind_ok, Except.ok.injEq] at hi
  obtain ⟨_, _, hi⟩ := hi
  simp only [← hi, Option.getD_none]

/-- **C100.** The waiting time is the one set last. -/
theorem C100_last {w0 w : World} {b0 b : Block} {log : List (Ev World Block Call Out)} (h : sys.Run w0 b0 log w b) :
    w.c.config.unstakingDuration = value setsDuration w0.c.config.unstakingDuration (log.map (·.call)) :=
  value_run (get := fun w : World => w.c.config.unstakingDuration) (fun hs => (step_settings hs).2) h

/-- **C100.** Who can set what: the owner, any positive waiting time; it can add any receiver not there and remove any
receiver there. -/
theorem C100_can {w : World} {b : Block} {a : Addr} :
    (∀ d, (∃ r, sys.step w b (.exec a (.updateConfig d)) = .ok r) ↔ (a ≠ w.c.config.token ∧ a ≠ w.self) ∧ w.c.ownership.owner = some a ∧ Positive d) ∧
    (∀ x, (∃ r, sys.step w b (.exec a (.addHook x)) = .ok r) ↔ (a ≠ w.c.config.token ∧ a ≠ w.self) ∧ w.c.ownership.owner = some a ∧ x ∉ w.c.hooks.getD []) ∧
    (∀ x, (∃ r, sys.step w b (.exec a (.removeHook x)) = .ok r) ↔ (a ≠ w.c.config.token ∧ a ≠ w.self) ∧ w.c.ownership.owner = some a ∧ x ∈ w.c.hooks.getD []) := by
  refine ⟨fun d => ?_, fun x => ?_, fun x => ?_⟩
  · constructor
    · intro ⟨r, h⟩
      simp only [sys, step, exec, execUpdateConfig, bind_ok, Ownership.assertOwner_ok, require_ok, decide_eq_true_eq, positive_ok] at h
      obtain ⟨_, h1, _, ⟨_, h2, _, h3, _⟩, _⟩ := h
      exact ⟨h1, h2, h3⟩
    · intro ⟨h1, h2, h3⟩
      refine ⟨({ w with c := { w.c with config := { w.c.config with unstakingDuration := d } } }, {}), ?_⟩
      simp only [sys, step, exec, execUpdateConfig, Ownership.assertOwner, require, h1, h2, ne_eq, not_false_eq_true, decide_true, if_true, ok_bind,
        (positive_ok (u := ())).2 h3, settle]
      rfl

  · rw [show w.c.hooks.getD [] = items w.c.hooks from rfl, ← add_iff]
    constructor
    · intro ⟨r, h⟩
      simp only [sys, step, exec, bind_ok, Ownership.assertOwner_ok, require_ok, decide_eq_true_eq] at h
      obtain ⟨_, h1, _, ⟨_, h2, h', h3, _⟩, _⟩ := h
      exact ⟨h1, h2, h', h3⟩
    · intro ⟨h1, h2, h', h3⟩
      refine ⟨({ w with c := { w.c with hooks := h' } }, {}), ?_⟩
      simp only [sys, step, exec, execUpdateConfig, Ownership.assertOwner, require, h1, h2, ne_eq, not_false_eq_true, decide_true, if_true, ok_bind, h3, settle]
      rfl

  · rw [show w.c.hooks.getD [] = items w.c.hooks from rfl, ← remove_iff]
    constructor
    · intro ⟨r, h⟩
      simp only [sys, step, exec, bind_ok, Ownership.assertOwner_ok, require_ok, decide_eq_true_eq] at h
      obtain ⟨_, h1, _, ⟨_, h2, h', h3, _⟩, _⟩ := h
      exact ⟨h1, h2, h', h3⟩
    · intro ⟨h1, h2, h', h3⟩
      refine ⟨({ w with c := { w.c with hooks := h' } }, {}), ?_⟩
      simp only [sys, step, exec, execUpdateConfig, Ownership.assertOwner, require, h1, h2, ne_eq, not_false_eq_true, decide_true, if_true, ok_bind, h3, settle]
      rfl


end Cw20Stake

namespace OnftStaked
open Verif.Settings Verif.Hooks

theorem step_settings {w w' : World} {b : Block} {call : Call} {out : Out} (h : step w b call = .ok (w', out)) :
    items w'.n.c.hooks = (editsHooks call).apply (items w.n.c.hooks) ∧
    w'.n.c.unstakingDuration = (setsDuration call).getD w.n.c.unstakingDuration ∧
    w'.n.c.threshold = (setsThreshold call).getD w.n.c.threshold := by
  cases call with
  | exec a m =>
    simp only [step, bind_ok] at h
    obtain ⟨_, _, r, he, _, _, hs⟩ := h
    simp only [Except.ok.injEq, Prod.mk.injEq] at hs
    have hc : w'.n.c = r.1.n.c := by rw [← hs.1]
    rw [hc]
    clear hs hc
    have hsh : ∀ k, execShared w b a k = .ok r → ∃ o, NftStaked.exec w.n.c b w.n.owners.length a k = .ok (r.1.n.c, o) := by
      intro k hk
      simp only [execShared, bind_ok, Except.ok.injEq] at hk
      obtain ⟨q, hq, rfl⟩ := hk
      exact ⟨q.2, hq⟩
    cases m with
    | prepareStake ts =>
      simp only [exec, execPrepare, bind_ok, Except.ok.injEq] at he
      obtain ⟨_, ⟨_, _, _, _, rfl⟩, rfl⟩ := he
      exact ⟨rfl, rfl, rfl⟩
    | confirmStake ts =>
      simp only [exec, execConfirm, registerStaked, bind_ok, Except.ok.injEq] at he
      obtain ⟨_, _, _, _, _, ⟨_, _, _, _, rfl⟩, rfl⟩ := he
      exact ⟨rfl, rfl, rfl⟩
    | cancelStake ts x =>
      simp only [exec, execCancel, bind_ok] at he
      obtain ⟨_, _, he⟩ := he
      split at he
      all_goals
        simp only [bind_ok, Except.ok.injEq] at he
        obtain ⟨_, _, rfl⟩ := he
        exact ⟨rfl, rfl, rfl⟩
    | unstake ts => obtain ⟨_, hx⟩ := hsh _ he; exact NftStaked.exec_settings hx
    | claimNfts => obtain ⟨_, hx⟩ := hsh _ he; exact NftStaked.exec_settings hx
    | updateConfig d => obtain ⟨_, hx⟩ := hsh _ he; exact NftStaked.exec_settings hx
    | addHook x => obtain ⟨_, hx⟩ := hsh _ he; exact NftStaked.exec_settings hx
    | removeHook x => obtain ⟨_, hx⟩ := hsh _ he; exact NftStaked.exec_settings hx
    | updateActiveThreshold t => obtain ⟨_, hx⟩ := hsh _ he; exact NftStaked.exec_settings hx
  | transfer a d t =>
    simp only [step, bind_ok, Except.ok.injEq, Prod.mk.injEq] at h
    obtain ⟨_, _, rfl, _⟩ := h; exact ⟨rfl, rfl, rfl⟩
  | mint d t =>
    simp only [step, bind_ok, Except.ok.injEq, Prod.mk.injEq] at h
    obtain ⟨_, _, rfl, _⟩ := h; exact ⟨rfl, rfl, rfl⟩
  | burn a t =>
    simp only [step, bind_ok, Except.ok.injEq, Prod.mk.injEq] at h
    obtain ⟨_, _, rfl, _⟩ := h; exact ⟨rfl, rfl, rfl⟩

/-- **C100.** In every reachable state of dao-voting-onft-staked the receivers told of stakes are those added and not
removed since, in the order of adding. -/
theorem C100_hooks {w : World} {b : Block} {log : List (Ev World Block Call Out)} (h : sys.Reach w b log) :
    w.n.c.hooks.getD [] = receivers editsHooks (log.map (·.call)) := by
  obtain ⟨b0, w0, ⟨_, _, _, dao, coll, d, t, hi⟩, hr⟩ := h
  refine receivers_run (get := fun w : World => w.n.c.hooks.getD []) (fun hs => (step_settings hs).1) ?_ hr
  simp only [NftStaked.instantiate, bind_ok, Except.ok.injEq] at hi
  obtain ⟨_, _, _, _, hi⟩ := hi
  simp only [← hi, Option.getD_none]

/-- **C100.** The waiting time and the active threshold are those set last. -/
theorem C100_last {w0 w : World} {b0 b : Block} {log : List (Ev World Block Call Out)} (h : sys.Run w0 b0 log w b) :
    w.n.c.unstakingDuration = value setsDuration w0.n.c.unstakingDuration (log.map (·.call)) ∧
    w.n.c.threshold = value setsThreshold w0.n.c.threshold (log.map (·.call)) :=
  ⟨value_run (get := fun w : World => w.n.c.unstakingDuration) (fun hs => (step_settings hs).2.1) h,
   value_run (get := fun w : World => w.n.c.threshold) (fun hs => (step_settings hs).2.2) h⟩

end OnftStaked

namespace Roles
open Verif.Settings Verif.Hooks

theorem step_hooks {s s' : State} {b : Block} {a : Addr} {m : Msg} {out : Out} (h : exec s b a m = .ok (s', out)) :
    items s'.hooks = (editsHooks m).apply (items s.hooks) := by
  simp only [exec, bind_ok] at h
  obtain ⟨_, _, h⟩ := h
  cases m with
  | mint t o u r w =>
    simp only [dispatch, execMint, bind_ok, Except.ok.injEq, Prod.mk.injEq] at h
    obtain ⟨_, _, _, _, _, _, _, _, _, _, rfl, _⟩ := h; rfl
  | burn t =>
    simp only [dispatch, execBurn, bind_ok, Except.ok.injEq, Prod.mk.injEq] at h
    obtain ⟨_, _, _, _, _, _, _, _, _, _, _, _, rfl, _⟩ := h; rfl
  | transferNft d t =>
    simp only [dispatch, execTransfer, bind_ok, Except.ok.injEq, Prod.mk.injEq] at h
    obtain ⟨_, ⟨_, _, rfl⟩, rfl, _⟩ := h; rfl
  | sendNft d t =>
    simp only [dispatch, execTransfer, bind_ok, Except.ok.injEq, Prod.mk.injEq] at h
    obtain ⟨_, ⟨_, _, rfl⟩, rfl, _⟩ := h; rfl
  | updateTokenWeight t w =>
    simp only [dispatch, execWeight, bind_ok, Except.ok.injEq, Prod.mk.injEq] at h
    obtain ⟨_, _, _, _, _, _, rfl, _⟩ := h; rfl
  | updateTokenRole t r =>
    simp only [dispatch, execRole, bind_ok, Except.ok.injEq, Prod.mk.injEq] at h
    obtain ⟨_, ⟨_, _, rfl⟩, rfl, _⟩ := h; rfl
  | updateTokenUri t u =>
    simp only [dispatch, execUri, bind_ok, Except.ok.injEq, Prod.mk.injEq] at h
    obtain ⟨_, ⟨_, _, rfl⟩, rfl, _⟩ := h; rfl
  | addHook x =>
    simp only [dispatch, bind_ok, Except.ok.injEq, Prod.mk.injEq] at h
    obtain ⟨_, hx, rfl, _⟩ := h; exact edit_add hx
  | removeHook x =>
    simp only [dispatch, bind_ok, Except.ok.injEq, Prod.mk.injEq] at h
    obtain ⟨_, hx, rfl, _⟩ := h; exact edit_remove hx
  | updateOwnership x =>
    simp only [dispatch, bind_ok, Except.ok.injEq, Prod.mk.injEq] at h
    obtain ⟨_, _, rfl, _⟩ := h; rfl

/-- **C100.** In every reachable state of cw721-roles the receivers told of changes are those added and not removed
since, in the order of adding. -/
theorem C100_hooks {s : State} {b : Block} {log : List (Ev State Env Msg Out)} (h : sys.Reach s b log) :
    s.hooks.getD [] = receivers editsHooks (log.map (·.call)) := by
  obtain ⟨b0, s0, ⟨minter, rfl⟩, hr⟩ := h
  exact receivers_run (get := fun s : State => s.hooks.getD []) (fun hs => step_hooks hs) rfl hr

end Roles
end Verif
