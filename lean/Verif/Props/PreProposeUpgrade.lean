import Verif.Spec.PreProposeUpgrade
import Verif.Props.PrePropose
import Verif.Props.PreProposeOnce
import Verif.Props.PreProposeApproval
/-!
# Upgrades of pre-propose modules (C85)
-/

namespace Verif.PreProposeUpgrade
open Verif Verif.PrePropose Verif.Spec.PrePropose Verif.Spec.PreProposeUpgrade

variable {W E C O : Type} {put : W → Config → W}

theorem required_iff (v : Version) : required v = true ↔ CanUpgrade v := by
  obtain ⟨a, b, c⟩ := v
  simp only [required, Version.lt, CanUpgrade, Bool.and_eq_true, Bool.not_eq_true', Bool.or_eq_false_iff,
    Bool.or_eq_true, Bool.and_eq_false_iff, decide_eq_true_eq, decide_eq_false_iff_not]
  omega

theorem sameDeposit_new (o : Option OldDeposit) : SameDeposit o (o.map depositToNew) := by
  cases o with
  | none => exact .none
  | some o =>
    obtain ⟨t, n, r⟩ := o
    refine .some ?_ rfl ?_
    · cases t <;> constructor
    · cases r <;> constructor

theorem sameDeposit_unique {o : Option OldDeposit} {d : Option Deposit} (h : SameDeposit o d) :
    o.map depositToNew = d := by
  cases h with
  | none => rfl
  | some ht ha hr =>
    rename_i o d
    obtain ⟨t, n, r⟩ := o
    obtain ⟨t', n', r'⟩ := d
    simp only at ht ha hr
    subst ha
    cases ht <;> cases hr <;> rfl

theorem migrate_ok {st st' : Storage W} {policy : Option Policy} :
    migrate put st policy = .ok st' ↔ CanUpgrade st.version ∧ ∃ c, st.settings = .old c ∧
      SoundPolicy (choosePolicy policy c.openSubmission) ∧
      st' = ⟨codeVersion, .new, put st.rest ⟨c.deposit.map depositToNew, choosePolicy policy c.openSubmission⟩⟩ := by
  simp only [migrate, bind_ok, require_ok, orErr_ok, required_iff, validate_ok, Except.ok.injEq]
  constructor
  · rintro ⟨_, h, c, hc, _, hp, rfl⟩
    refine ⟨h, c, ?_, hp, rfl⟩
    cases hs : st.settings with
    | old c' => simp only [Storage.oldConfig, hs] at hc; cases hc; rfl
    | new => simp [Storage.oldConfig, hs] at hc
  · rintro ⟨h, c, hc, hp, rfl⟩
    exact ⟨(), h, c, by simp [Storage.oldConfig, hc], (), hp, rfl⟩

theorem flag_sound (b : Bool) : SoundPolicy (choosePolicy none b) := by
  cases b <;> simp [choosePolicy, SoundPolicy]

/-- C85: an upgrade goes through exactly from a version 2.4.1 or later 2.4, with settings of that version, and with a
policy, if one is given, that allows someone and does not allow and deny the same address. -/
theorem C85_accepted (put : W → Config → W) (st : Storage W) (policy : Option Policy) :
    (∃ st', migrate put st policy = .ok st') ↔
      CanUpgrade st.version ∧ (∃ c, st.settings = .old c) ∧ ∀ p, policy = some p → SoundPolicy p := by
  simp only [migrate_ok]
  constructor
  · rintro ⟨st', h, c, hc, hp, _⟩
    refine ⟨h, ⟨c, hc⟩, ?_⟩
    rintro p rfl
    exact hp
  · rintro ⟨h, ⟨c, hc⟩, hp⟩
    refine ⟨_, h, c, hc, ?_, rfl⟩
    cases policy with
    | none => exact flag_sound _
    | some p => exact hp p rfl

/-- C85: who may propose after an upgrade is who could before, whatever the voting powers, unless a policy is given, which
then decides. The deposit asked for is the same. -/
theorem C85_rules {M : PropModule} {st st' : Storage (World M)} {policy : Option Policy} {c : OldConfig}
    (hc : st.settings = .old c) (h : migrate putBase st policy = .ok st') :
    ∃ w, st'.view = some w ∧ SameDeposit c.deposit w.pre.config.deposit ∧
      (policy = none → ∀ power a, MaySubmit w.pre.config.policy power a ↔ CouldPropose c power a) ∧
      (∀ p, policy = some p → w.pre.config.policy = p) ∧
      w.pre.deposits = st.rest.pre.deposits ∧ w.pre.hooks = st.rest.pre.hooks ∧ w.pre.module = st.rest.pre.module ∧
      w.pre.dao = st.rest.pre.dao ∧ w.bal = st.rest.bal ∧ w.mod = st.rest.mod := by
  obtain ⟨_, c', hc', hp, rfl⟩ := migrate_ok.1 h
  rw [hc] at hc'
  cases hc'
  refine ⟨_, rfl, sameDeposit_new _, ?_, ?_, rfl, rfl, rfl, rfl, rfl, rfl⟩
  · rintro rfl power a
    cases ho : c.openSubmission <;> simp [putBase, choosePolicy, MaySubmit, CouldPropose, ho]
  · rintro p rfl
    rfl

/-- C85: the same for the approval contract, which also keeps its approver and every submission. -/
theorem C85_approval_rules {M : PropModule} {st st' : Storage (AWorld M)} {policy : Option Policy} {c : OldConfig}
    (hc : st.settings = .old c) (h : migrate putApproval st policy = .ok st') :
    ∃ w, st'.view = some w ∧ SameDeposit c.deposit w.base.pre.config.deposit ∧
      (policy = none → ∀ power a, MaySubmit w.base.pre.config.policy power a ↔ CouldPropose c power a) ∧
      (∀ p, policy = some p → w.base.pre.config.policy = p) ∧ w.app = st.rest.app ∧
      w.base.pre.deposits = st.rest.base.pre.deposits ∧ w.base.pre.hooks = st.rest.base.pre.hooks ∧
      w.base.pre.module = st.rest.base.pre.module ∧ w.base.pre.dao = st.rest.base.pre.dao ∧
      w.base.bal = st.rest.base.bal ∧ w.base.mod = st.rest.base.mod := by
  obtain ⟨_, c', hc', hp, rfl⟩ := migrate_ok.1 h
  rw [hc] at hc'
  cases hc'
  refine ⟨_, rfl, sameDeposit_new _, ?_, ?_, rfl, rfl, rfl, rfl, rfl, rfl, rfl⟩
  · rintro rfl power a
    cases ho : c.openSubmission <;> simp [putApproval, putBase, choosePolicy, MaySubmit, CouldPropose, ho]
  · rintro p rfl
    rfl

/-- Reading and writing the settings fit together. -/
structure Lens (get : W → Config) (put : W → Config → W) : Prop where
  put_put : ∀ w c c', put (put w c) c' = put w c'
  put_get : ∀ w, put w (get w) = w

theorem baseLens {M : PropModule} : Lens (fun w : World M => w.pre.config) putBase := ⟨fun _ _ _ => rfl, fun _ => rfl⟩
theorem approvalLens {M : PropModule} : Lens (fun w : AWorld M => w.base.pre.config) putApproval :=
  ⟨fun _ _ _ => rfl, fun _ => rfl⟩

/-- What the new code sees after the upgrade: the state the old version held, with the new policy if there is one. -/
theorem upgraded {get : W → Config} (L : Lens get put) {st st' : Storage W} {w : W} {policy : Option Policy}
    (hh : Holds get put st w) (h : migrate put st policy = .ok st') :
    st'.settings = .new ∧ st'.version = codeVersion ∧
      st'.view = some (put w ⟨(get w).deposit, policy.getD (get w).policy⟩) ∧
      ∀ p, policy = some p → SoundPolicy p := by
  obtain ⟨_, c, hc, hp, rfl⟩ := migrate_ok.1 h
  obtain ⟨⟨c', hc', hd, hpol⟩, junk, hj⟩ := hh
  rw [hc] at hc'
  cases hc'
  refine ⟨rfl, rfl, ?_, ?_⟩
  · simp only [Storage.view, Option.some.injEq]
    rw [hj, L.put_put, sameDeposit_unique hd]
    cases policy with
    | none => simp only [choosePolicy, Option.getD_none, hpol]
    | some p => rfl
  · rintro p rfl
    exact hp

/-- Once the settings are new, no upgrade goes through any more and the contract is the one of version 2.5. -/
theorem new_stays {M : Sys W E C O} {st st' : Storage W} {b b' : Block} {log : List (Ev (Storage W) E (UCall C) (Option O))}
    (hn : st.settings = .new) (h : (usys put M).Run st b log st' b') :
    st'.settings = .new ∧ st'.version = st.version ∧ M.Run st.rest b (runs log) st'.rest b' ∧ ∀ e ∈ log, ∃ c, e.call = .run c := by
  induction h with
  | refl => exact ⟨hn, rfl, .refl, by simp⟩
  | step hr hb hs ih =>
    rename_i s1 s2 b1 log env call' out
    obtain ⟨h1, h2, h3, h4⟩ := ih
    cases call' with
    | extension => cases hs
    | fromUnderV250 p =>
      simp only [usys, bind_ok] at hs
      obtain ⟨st1, hm, _⟩ := hs
      obtain ⟨_, c, hc, _⟩ := migrate_ok.1 hm
      rw [h1] at hc
      cases hc
    | run c =>
      simp only [usys, call, bind_ok, orErr_ok, Except.ok.injEq, Prod.mk.injEq] at hs
      obtain ⟨w, hw, ⟨w', o⟩, hm, rfl, rfl⟩ := hs
      simp only [Storage.view, h1, Option.some.injEq] at hw
      subst hw
      refine ⟨h1, h2, ?_, ?_⟩
      · exact .step h3 hb hm
      · intro e he
        rcases List.mem_cons.1 he with rfl | he
        · exact ⟨c, rfl⟩
        · exact h4 e he

/-- Whatever the old version held, nothing but an upgrade can be done first. -/
theorem first {M : Sys W E C O} {st st' : Storage W} {b b' : Block}
    {log : List (Ev (Storage W) E (UCall C) (Option O))} {c0 : OldConfig} (hn : st.settings = .old c0)
    (h : (usys put M).Run st b log st' b') :
    (log = [] ∧ st' = st) ∨ ∃ st1 env policy later, log = later ++ [⟨st, env, .fromUnderV250 policy, none, st1⟩] ∧
      migrate put st policy = .ok st1 ∧ b.le (M.block env) ∧ (usys put M).Run st1 (M.block env) later st' b' := by
  induction h with
  | refl => exact Or.inl ⟨rfl, rfl⟩
  | step hr hb hs ih =>
    rename_i s1 s2 b1 log env call' out
    right
    rcases ih with ⟨rfl, rfl⟩ | ⟨st1, env1, policy, later, h1, h2, h3, h4⟩
    · cases call' with
      | extension => cases hs
      | run c =>
        simp only [usys, call, bind_ok, orErr_ok, Storage.view, hn] at hs
        obtain ⟨w, hw, _⟩ := hs
        cases hw
      | fromUnderV250 p =>
        simp only [usys, bind_ok, Except.ok.injEq, Prod.mk.injEq] at hs
        obtain ⟨st1, hm, rfl, rfl⟩ := hs
        exact ⟨st1, env, p, [], rfl, hm, Block.le_trans hr.block_le hb, .refl⟩
    · refine ⟨st1, env1, policy, _ :: later, ?_, h2, h3, .step h4 hb hs⟩
      rw [h1]
      rfl

/-- The same history may have begun earlier. -/
theorem earlier {M : Sys W E C O} {w w' : W} {b b1 b' : Block} {log : List (Ev W E C O)} (hb : b.le b1)
    (h : M.Run w b1 log w' b') : ∃ b'', b''.le b' ∧ M.Run w b log w' b'' := by
  induction h with
  | refl => exact ⟨b, hb, .refl⟩
  | step hr h1 hs ih =>
    obtain ⟨b2, h2, h3⟩ := ih
    exact ⟨_, Block.le_refl _, .step h3 (Block.le_trans h2 h1) hs⟩

/-- The DAO could have set the policy itself: this is what `UpdateConfig` does. -/
theorem asUpdate {M : PropModule} (L : Lawful M) {w : World M} {b : Block} {log : List (Event M)}
    (h : (sys M).Reach w b log) (e : M.Env) {p : Policy} (hp : SoundPolicy p) :
    (sys M).step w ⟨M.calledBy e w.pre.dao, [], fun _ => 0⟩ (.pre (.updateConfig w.pre.config.deposit (some p))) =
      .ok (putBase w ⟨w.pre.config.deposit, p⟩, {}) := by
  obtain ⟨inv, L⟩ := L
  have hi := inv_reach L h
  have hs := (L.called e w.pre.dao).1
  simp only [sys, step, stepPre, hs, exec, execUpdateConfig, pullCoins, ok_bind]
  rw [show require (decide (w.pre.dao ≠ w.here)) Err.invalid = .ok () from by simp [require, hi.daoNe], ok_bind,
    show require (decide True) Err.unauthorized = .ok () from by simp [require], ok_bind,
    (checkDeposit_ok (u := ())).2 hi.good, ok_bind, (validate_ok (u := ())).2 hp]
  rfl

theorem runs_append (l l' : List (Ev (Storage W) E (UCall C) (Option O))) : runs (l ++ l') = runs l ++ runs l' := by
  induction l with
  | nil => rfl
  | cons e l ih =>
    obtain ⟨_, _, c, o, _⟩ := e
    cases c <;> cases o <;> simp [runs, ih]

/-- C85: over every history of an upgraded module, dao-pre-propose-single or dao-pre-propose-multiple, with whatever
upgrades are tried: only the first step is an upgrade, and from then on the module is in states that version 2.5 alone
reaches, by the steps taken before and since; a policy given with the upgrade counts as if the DAO had set it. So what is
proved of pre-propose modules (C52, C53) holds of it, with every deposit paid before the upgrade. -/
theorem C85_continues {M : PropModule} (L : Lawful M) {st st' : Storage (World M)} {w : World M} {b b' : Block}
    {log : List (Event M)} {ulog : List (Ev (Storage (World M)) (Env M) (UCall (Call M)) (Option Out))}
    (hold : Holds (fun w => w.pre.config) putBase st w) (hreach : (sys M).Reach w b log)
    (h : (usys putBase (sys M)).Run st b ulog st' b') :
    (ulog = [] ∧ st' = st) ∨ ∃ w' b'' set, st'.view = some w' ∧ b''.le b' ∧
      (sys M).Reach w' b'' (runs ulog ++ set ++ log) ∧
      (set = [] ∨ ∃ p x, set = [x] ∧ x.call = .pre (.updateConfig w.pre.config.deposit (some p)) ∧
        M.sender x.env.mod = w.pre.dao) := by
  obtain ⟨⟨c0, hc0, _⟩, _⟩ := id hold
  rcases first hc0 h with h0 | ⟨st1, env, policy, later, h1, h2, h3, h4⟩
  · exact Or.inl h0
  · right
    obtain ⟨q1, q2, q3, q4⟩ := upgraded baseLens hold h2
    obtain ⟨r1, _, r3, r4⟩ := new_stays q1 h4
    simp only [Storage.view, q1, Option.some.injEq] at q3
    have hview : st'.view = some st'.rest := by simp [Storage.view, r1]
    have hruns : runs ulog = runs later := by rw [h1, runs_append]; simp [runs]
    rw [hruns]
    cases policy with
    | none =>
      rw [show (⟨w.pre.config.deposit, (none : Option Policy).getD w.pre.config.policy⟩ : Config) = w.pre.config from rfl,
        baseLens.put_get] at q3
      rw [q3] at r3
      obtain ⟨b2, s1, s2⟩ := earlier h3 r3
      obtain ⟨b0, w0, i1, i2⟩ := hreach
      exact ⟨_, b2, [], hview, s1, ⟨b0, w0, i1, by simpa using Sys.Run.append i2 s2⟩, Or.inl rfl⟩
    | some p =>
      have hstep := asUpdate L hreach env.mod (q4 p rfl)
      obtain ⟨inv, LL⟩ := id L
      have hblk := (LL.called env.mod w.pre.dao).2
      have hset : (sys M).Run w b [⟨w, ⟨M.calledBy env.mod w.pre.dao, [], fun _ => 0⟩, .pre (.updateConfig w.pre.config.deposit (some p)), {}, putBase w ⟨w.pre.config.deposit, p⟩⟩] (putBase w ⟨w.pre.config.deposit, p⟩) (M.block env.mod) := by
        have := Sys.Run.step (M := sys M) (env := ⟨M.calledBy env.mod w.pre.dao, [], fun _ => 0⟩)
          (call := .pre (.updateConfig w.pre.config.deposit (some p))) (Sys.Run.refl (s := w) (b := b))
          (by show b.le (M.block _); rw [hblk]; exact h3) hstep
        simpa only [sys, hblk] using this
      rw [show (some p).getD w.pre.config.policy = p from rfl] at q3
      rw [q3] at r3
      obtain ⟨b0, w0, i1, i2⟩ := hreach
      refine ⟨_, b', _, hview, Block.le_refl _,
        ⟨b0, w0, i1, by simpa using Sys.Run.append (Sys.Run.append i2 hset) r3⟩, Or.inr ⟨p, _, rfl, rfl, ?_⟩⟩
      exact (LL.called env.mod w.pre.dao).1

/-- The same in the approval contract. -/
theorem asUpdateApproval {M : PropModule} (L : Lawful M) {w : AWorld M} {b : Block}
    {log : List (Verif.Spec.Approval.Event M)} (h : (asys M).Reach w b log) (e : M.Env) {p : Policy}
    (hp : SoundPolicy p) :
    (asys M).step w ⟨M.calledBy e w.base.pre.dao, [], fun _ => 0⟩
      (.base (.pre (.updateConfig w.base.pre.config.deposit (some p)))) =
      .ok (putApproval w ⟨w.base.pre.config.deposit, p⟩, {}) := by
  obtain ⟨inv, L⟩ := L
  have hi := App.inv_reach L h
  have hs := (L.called e w.base.pre.dao).1
  simp only [asys, astep, stepBase, toBase, step, stepPre, hs, exec, execUpdateConfig, pullCoins, ok_bind]
  rw [show require true Err.invalid = .ok () from rfl, ok_bind,
    show require (decide (w.base.pre.dao ≠ w.base.here)) Err.invalid = .ok () from by simp [require, hi.daoNe], ok_bind,
    show require (decide True) Err.unauthorized = .ok () from by simp [require], ok_bind,
    (checkDeposit_ok (u := ())).2 hi.good, ok_bind, (validate_ok (u := ())).2 hp]
  rfl

/-- C85: the same for dao-pre-propose-approval-single: what is proved of it (C54) holds of it after the upgrade, with every
submission, pending or decided before. -/
theorem C85_approval_continues {M : PropModule} (L : Lawful M) {st st' : Storage (AWorld M)} {w : AWorld M} {b b' : Block}
    {log : List (Verif.Spec.Approval.Event M)}
    {ulog : List (Ev (Storage (AWorld M)) (Env M) (UCall (ACall M)) (Option AOut))}
    (hold : Holds (fun w => w.base.pre.config) putApproval st w) (hreach : (asys M).Reach w b log)
    (h : (usys putApproval (asys M)).Run st b ulog st' b') :
    (ulog = [] ∧ st' = st) ∨ ∃ w' b'' set, st'.view = some w' ∧ b''.le b' ∧
      (asys M).Reach w' b'' (runs ulog ++ set ++ log) ∧
      (set = [] ∨ ∃ p x, set = [x] ∧ x.call = .base (.pre (.updateConfig w.base.pre.config.deposit (some p))) ∧
        M.sender x.env.mod = w.base.pre.dao) := by
  obtain ⟨⟨c0, hc0, _⟩, _⟩ := id hold
  rcases first hc0 h with h0 | ⟨st1, env, policy, later, h1, h2, h3, h4⟩
  · exact Or.inl h0
  · right
    obtain ⟨q1, q2, q3, q4⟩ := upgraded approvalLens hold h2
    obtain ⟨r1, _, r3, r4⟩ := new_stays q1 h4
    simp only [Storage.view, q1, Option.some.injEq] at q3
    have hview : st'.view = some st'.rest := by simp [Storage.view, r1]
    have hruns : runs ulog = runs later := by rw [h1, runs_append]; simp [runs]
    rw [hruns]
    cases policy with
    | none =>
      rw [show (⟨w.base.pre.config.deposit, (none : Option Policy).getD w.base.pre.config.policy⟩ : Config) = w.base.pre.config from rfl,
        approvalLens.put_get] at q3
      rw [q3] at r3
      obtain ⟨b2, s1, s2⟩ := earlier h3 r3
      obtain ⟨b0, w0, i1, i2⟩ := hreach
      exact ⟨_, b2, [], hview, s1, ⟨b0, w0, i1, by simpa using Sys.Run.append i2 s2⟩, Or.inl rfl⟩
    | some p =>
      have hstep := asUpdateApproval L hreach env.mod (q4 p rfl)
      obtain ⟨inv, LL⟩ := id L
      have hblk := (LL.called env.mod w.base.pre.dao).2
      have hset : (asys M).Run w b [⟨w, ⟨M.calledBy env.mod w.base.pre.dao, [], fun _ => 0⟩, .base (.pre (.updateConfig w.base.pre.config.deposit (some p))), {}, putApproval w ⟨w.base.pre.config.deposit, p⟩⟩] (putApproval w ⟨w.base.pre.config.deposit, p⟩) (M.block env.mod) := by
        have := Sys.Run.step (M := asys M) (env := ⟨M.calledBy env.mod w.base.pre.dao, [], fun _ => 0⟩)
          (call := .base (.pre (.updateConfig w.base.pre.config.deposit (some p)))) (Sys.Run.refl (s := w) (b := b))
          (by show b.le (M.block _); rw [hblk]; exact h3) hstep
        simpa only [asys, hblk] using this
      rw [show (some p).getD w.base.pre.config.policy = p from rfl] at q3
      rw [q3] at r3
      obtain ⟨b0, w0, i1, i2⟩ := hreach
      refine ⟨_, b', _, hview, Block.le_refl _,
        ⟨b0, w0, i1, by simpa using Sys.Run.append (Sys.Run.append i2 hset) r3⟩, Or.inr ⟨p, _, rfl, rfl, ?_⟩⟩
      exact (LL.called env.mod w.base.pre.dao).1

/-- C85: after an upgrade no other ever goes through, whatever is done in between. -/
theorem C85_once {M : Sys W E C O} {st st1 st' : Storage W} {policy policy' : Option Policy} {b b' : Block}
    {log : List (Ev (Storage W) E (UCall C) (Option O))} (h1 : migrate put st policy = .ok st1)
    (h : (usys put M).Run st1 b log st' b') : ∀ r, migrate put st' policy' ≠ .ok r := by
  obtain ⟨_, c, _, _, rfl⟩ := migrate_ok.1 h1
  obtain ⟨h2, _⟩ := new_stays rfl h
  intro r hr
  obtain ⟨_, c', hc', _⟩ := migrate_ok.1 hr
  rw [h2] at hc'
  cases hc'

end Verif.PreProposeUpgrade
