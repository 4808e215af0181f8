import Verif.Props.SettingsProposals
import Verif.Props.DepositMulti
import Verif.Props.DepositDao
import Verif.Props.DepositDaoExample
import Verif.Props.DepositMultiExample
/-! C111, C116: when a DAO loses its pre-propose module. -/

namespace Verif.PrePropose
open Verif Verif.Voting Verif.Spec Verif.Spec.PrePropose

variable {M : PropModule}

theorem run_at {S E C O : Type} {N : Sys S E C O} {s0 s : S} {b0 b : Block} {l2 l1 : List (Ev S E C O)} {e : Ev S E C O}
    (h : N.Run s0 b0 (l2 ++ e :: l1) s b) :
    ∃ b1, N.Run s0 b0 l1 e.pre b1 ∧ N.step e.pre e.env e.call = .ok (e.post, e.out) := by
  suffices hx : ∀ l s b, N.Run s0 b0 l s b → ∀ l2, l = l2 ++ e :: l1 →
      ∃ b1, N.Run s0 b0 l1 e.pre b1 ∧ N.step e.pre e.env e.call = .ok (e.post, e.out) from hx _ _ _ h l2 rfl
  clear h
  intro l s b hr
  induction hr with
  | refl => intro l2 hl; cases l2 <;> cases hl
  | step hr1 hb hs ih =>
    intro l2 hl
    cases l2 with
    | nil =>
      obtain ⟨rfl, rfl⟩ := List.cons.inj hl
      exact ⟨_, hr1, hs⟩
    | cons x l2 => exact ih l2 (List.cons.inj hl).2

theorem failed_deliver {w w' : World M} {e : Env M} {c : Call M} {o : Out} (h : step w e c = .ok (w', o))
    (hf : o.failed = true) : ∃ i id st, c = .deliver i ∧ w.queue[i]? = some (id, st) := by
  cases c with
  | deliver i =>
    cases hq : w.queue[i]? with
    | none =>
      simp only [step, stepDeliver, hq] at h
      cases h
    | some x => exact ⟨i, x.1, x.2, rfl, hq⟩
  | propose p =>
    simp only [step, stepPropose, bind_ok, Prod.exists, Except.ok.injEq, Prod.mk.injEq] at h
    obtain ⟨_, _, _, _, _, _, _, _, _, _, _, ho⟩ := h
    rw [← ho] at hf; cases hf
  | pre m =>
    simp only [step, stepPre, bind_ok, Prod.exists, Except.ok.injEq, Prod.mk.injEq] at h
    obtain ⟨_, _, _, _, _, _, _, _, _, _, ho⟩ := h
    rw [← ho] at hf; cases hf
  | completed id st =>
    simp only [step, stepCompleted, bind_ok, Except.ok.injEq, Prod.mk.injEq] at h
    obtain ⟨_, _, _, _, _, _, _, ho⟩ := h
    rw [← ho] at hf; cases hf
  | module c =>
    simp only [step, stepModule, bind_ok, Prod.exists, Except.ok.injEq, Prod.mk.injEq] at h
    obtain ⟨_, _, _, _, _, _, _, _, ho⟩ := h
    rw [← ho] at hf; cases hf
  | take i =>
    simp only [step, stepTake] at h
    split at h
    · cases h
    · simp only [bind_ok, Except.ok.injEq, Prod.mk.injEq] at h
      obtain ⟨_, _, _, ho⟩ := h
      rw [← ho] at hf; cases hf
  | transfer src dst t n =>
    simp only [step, stepTransfer, bind_ok, Except.ok.injEq, Prod.mk.injEq] at h
    obtain ⟨_, _, _, _, _, ho⟩ := h
    rw [← ho] at hf; cases hf

/-- When a completion hook fails. -/
theorem hook_fails (L : Lawful M) {w w' : World M} {b : Block} {log : List (Event M)} (h : (sys M).Reach w b log)
    {e : Env M} {c : Call M} {o : Out} (hs : step w e c = .ok (w', o)) (hf : o.failed = true) :
    (∃ x ∈ log, ∃ t, x.call = .pre (.withdraw t) ∧ M.sender x.env.mod = x.pre.pre.dao) ∨ w.takes ≠ [] ∨
    ∃ x ∈ log, ∃ p d a, x.call = .propose p ∧ x.pre.pre.config.deposit = some d ∧
      U128 ≤ getD0 w.bal (d.token, a) + d.amount := by
  obtain ⟨i, id, st, rfl, hq⟩ := failed_deliver hs hf
  by_cases hw : ∀ x ∈ log, ¬ isWithdraw x
  · by_cases ht : w.takes = []
    · by_cases hroom : ∀ p ∈ payment (AMap.get (submissions log) id) w.pre.dao st,
          getD0 w.bal (p.token, p.to) + p.amount < U128
      · obtain ⟨w2, h2⟩ := C52_accepted L h hw ht hq hroom e
        have h2 := hs.symm.trans h2
        simp only [Except.ok.injEq, Prod.mk.injEq] at h2
        rw [h2.2] at hf
        cases hf
      · simp only [not_forall, not_lt] at hroom
        obtain ⟨p, hp, hle⟩ := hroom
        cases hg : AMap.get (submissions log) id with
        | none => rw [hg] at hp; cases hp
        | some r =>
          obtain ⟨d, a⟩ := r
          cases d with
          | none => rw [hg] at hp; cases hp
          | some d =>
            rw [hg] at hp
            simp only [payment, List.mem_singleton] at hp
            subst hp
            obtain ⟨x, hx, hsub⟩ := List.mem_filterMap.1 (AMap.mem_of_get hg)
            refine .inr (.inr ⟨x, hx, ?_⟩)
            unfold submission at hsub
            split at hsub
            · rename_i p id' hc _
              simp only [Option.some.injEq, Prod.mk.injEq] at hsub
              exact ⟨p, d, _, hc, hsub.2.1, hle⟩
            · cases hsub
    · exact .inr (.inl ht)
  · simp only [not_forall, not_not] at hw
    obtain ⟨x, hx, t, ht⟩ := hw
    refine .inl ⟨x, hx, t, ht, ?_⟩
    obtain ⟨b0, s0, _, hr⟩ := h
    obtain ⟨_, _, _, _, _, _, hs, _⟩ := hr.event x hx
    change step x.pre x.env x.call = _ at hs
    rw [ht] at hs
    simp only [step, stepPre, exec, execWithdraw, bind_ok, require_ok, Prod.exists] at hs
    obtain ⟨_, _, _, _, _, _, ⟨_, ⟨_, hd, _⟩, _⟩, _⟩ := hs
    exact of_decide_eq_true hd

end Verif.PrePropose

namespace Verif.DepositDao
open Verif Verif.Voting Verif.Spec Verif.Spec.DepositDao
open Verif.WholeDao (VotingModule)
open Verif.WholeCondorcet (Now)
open Verif.Spec.PrePropose (payment submissions isWithdraw)

variable {S E C O : Type} {V : VotingModule S E C O} {decode : Nat → DaoCore.CosmosMsg} {N : Now S}

theorem attached_step {w w' : World V decode} {e : Env} {c : Call V decode} {o : PrePropose.Out}
    (h : step V N decode w e c = .ok (w', o)) (hne : w'.mod.prop.policy ≠ w.mod.prop.policy) :
    (∃ i, c = .module (.prop (.updatePreProposeInfo i)) ∧ e.dao.sender = w.mod.prop.config.dao) ∨
    (∃ a, c = .module (.prop (.replyPreProposeInstantiated a))) ∨
    (∃ i, c = .deliver i ∧ o.failed = true) := by
  rcases dao_event h with ⟨env', c', o', hc, _, hs, _⟩ | ⟨_, hm, _⟩
  · cases c' with
    | core m =>
      simp only [WholeDao.step, bind_ok, Prod.exists, Except.ok.injEq, Prod.mk.injEq] at hs
      obtain ⟨_, _, _, _, _, hw, _⟩ := hs
      rw [← hw] at hne; exact absurd rfl hne
    | vote ve m =>
      simp only [WholeDao.step, bind_ok, Prod.exists, Except.ok.injEq, Prod.mk.injEq] at hs
      obtain ⟨_, _, _, _, _, hw, _⟩ := hs
      rw [← hw] at hne; exact absurd rfl hne
    | prop m =>
      simp only [WholeDao.step, bind_ok, Prod.exists, Except.ok.injEq, Prod.mk.injEq] at hs
      obtain ⟨p, _, hp, _, _, _, hw, _⟩ := hs
      rw [← hw] at hne
      change p.policy ≠ w.mod.prop.policy at hne
      have hpol := (Single.step_settings hp).2.2.2
      have hset : Single.setsPolicy m ≠ none := by
        intro hn; rw [hn] at hpol; exact hne hpol
      unfold daoCall at hc
      cases c with
      | propose q =>
        simp only [Option.some.injEq, Prod.mk.injEq] at hc
        obtain ⟨_, hc⟩ := hc
        injection hc with hc
        subst hc
        exact absurd rfl hset
      | module c =>
        simp only [Option.some.injEq, Prod.mk.injEq] at hc
        obtain ⟨rfl, rfl⟩ := hc
        cases m with
        | updatePreProposeInfo i =>
          refine .inl ⟨i, rfl, ?_⟩
          simp only [Single.step, Single.execUpdatePolicy, bind_ok, require_ok] at hp
          obtain ⟨_, hx, _⟩ := hp
          exact of_decide_eq_true hx
        | replyPreProposeInstantiated a => exact .inr (.inl ⟨a, rfl⟩)
        | replyFailedPreProposeHook =>
          unfold step PrePropose.step PrePropose.stepModule at h
          simp only [bind_ok, require_ok] at h
          obtain ⟨_, _, _, hx, _⟩ := h
          cases hx
        | _ => exact absurd rfl hset
      | deliver i =>
        refine .inr (.inr ⟨i, rfl, ?_⟩)
        by_contra hf
        simp only [hf] at hc
        cases hc
      | _ => cases hc
  · rw [hm] at hne; exact absurd rfl hne

/-- **C111.** The pre-propose module is detached by two things only: the DAO says so, after which a new one may take its
place; or a completion hook failed. -/
theorem C111_attached {w0 w : World V decode} {b0 b : Block} {log : List (Event V decode)}
    (h : (sys V N decode).Run w0 b0 log w b) {e : Event V decode} (he : e ∈ log)
    (hpre : e.pre.mod.prop.policy = .module e.pre.here) (hpost : e.post.mod.prop.policy ≠ .module e.pre.here) :
    (∃ i, e.call = .module (.prop (.updatePreProposeInfo i)) ∧ e.env.dao.sender = e.pre.mod.prop.config.dao) ∨
    (∃ a, e.call = .module (.prop (.replyPreProposeInstantiated a))) ∨
    (∃ i, e.call = .deliver i ∧ e.out.failed = true) := by
  obtain ⟨_, _, _, _, _, _, hs, _⟩ := h.event e he
  refine attached_step hs ?_
  rw [hpre]; exact hpost

/-- **C111.** And a completion hook fails only if the DAO had withdrawn deposits, a deposit has not been taken yet, or
the receiver has too much already. -/
theorem C111_hook_fails {w0 w : World V decode} {b0 b : Block} {l0 : List (WholeDao.Event S E C)}
    {later before : List (Event V decode)} {e : Event V decode} (h0 : (WholeDao.sys V decode).Reach w0.mod b0 l0)
    (hf : Fresh w0) (h : (sys V N decode).Run w0 b0 (later ++ e :: before) w b) (hfail : e.out.failed = true) :
    (∃ x ∈ before, ∃ t, x.call = .pre (.withdraw t) ∧ x.env.dao.sender = w0.pre.dao) ∨ e.pre.takes ≠ [] ∨
    ∃ x ∈ before, ∃ p d a, x.call = .propose p ∧ x.pre.pre.config.deposit = some d ∧
      U128 ≤ getD0 e.pre.bal (d.token, a) + d.amount := by
  obtain ⟨b1, hr, hs⟩ := PrePropose.run_at h
  have hp := PrePropose.hook_fails whole_lawful (pre_reach h0 hf hr) hs hfail
  rcases hp with ⟨x, hx, t, ht, hd⟩ | hp | ⟨x, hx, hp⟩
  · obtain ⟨y, hy, rfl⟩ := List.mem_map.1 hx
    refine .inl ⟨y, hy, t, ht, hd.trans ?_⟩
    obtain ⟨_, _, _, _, hr', _⟩ := hr.event y hy
    exact (fixed hr').2.1
  · exact .inr (.inl hp)
  · obtain ⟨y, hy, rfl⟩ := List.mem_map.1 hx
    exact .inr (.inr ⟨y, hy, hp⟩)

end Verif.DepositDao

namespace Verif.DepositMulti
open Verif Verif.Voting Verif.Spec Verif.Spec.DepositMulti
open Verif.WholeDao (VotingModule)
open Verif.WholeCondorcet (Now)
open Verif.Spec.PrePropose (payment submissions isWithdraw)

variable {S E C O : Type} {V : VotingModule S E C O} {decode : Nat → DaoCore.CosmosMsg} {N : Now S}

theorem attached_step {w w' : World V N decode} {e : Env} {c : Call V N decode} {o : PrePropose.Out}
    (h : step V N decode w e c = .ok (w', o)) (hne : w'.mod.prop.policy ≠ w.mod.prop.policy) :
    (∃ i, c = .module (.prop (.updatePreProposeInfo i)) ∧ e.dao.sender = w.mod.prop.config.dao) ∨
    (∃ a, c = .module (.prop (.replyPreProposeInstantiated a))) ∨
    (∃ i, c = .deliver i ∧ o.failed = true) := by
  rcases dao_event h with ⟨env', c', o', hc, _, hs, _⟩ | ⟨_, hm, _⟩
  · cases c' with
    | core m =>
      simp only [WholeMulti.step, bind_ok, Prod.exists, Except.ok.injEq, Prod.mk.injEq] at hs
      obtain ⟨_, _, _, _, _, hw, _⟩ := hs
      rw [← hw] at hne; exact absurd rfl hne
    | vote ve m =>
      simp only [WholeMulti.step, bind_ok, Prod.exists, Except.ok.injEq, Prod.mk.injEq] at hs
      obtain ⟨_, _, _, _, _, hw, _⟩ := hs
      rw [← hw] at hne; exact absurd rfl hne
    | prop m =>
      simp only [WholeMulti.step, bind_ok, Prod.exists, Except.ok.injEq, Prod.mk.injEq] at hs
      obtain ⟨p, _, hp, _, _, _, hw, _⟩ := hs
      rw [← hw] at hne
      change p.policy ≠ w.mod.prop.policy at hne
      have hpol := (Multiple.step_settings hp).2.2.2
      have hset : Multiple.setsPolicy m ≠ none := by
        intro hn; rw [hn] at hpol; exact hne hpol
      unfold daoCall at hc
      cases c with
      | propose q =>
        simp only [Option.some.injEq, Prod.mk.injEq] at hc
        obtain ⟨_, hc⟩ := hc
        injection hc with hc
        subst hc
        exact absurd rfl hset
      | module c =>
        simp only [Option.some.injEq, Prod.mk.injEq] at hc
        obtain ⟨rfl, rfl⟩ := hc
        cases m with
        | updatePreProposeInfo i =>
          refine .inl ⟨i, rfl, ?_⟩
          simp only [Multiple.step, Multiple.execUpdatePolicy, bind_ok, require_ok] at hp
          obtain ⟨_, hx, _⟩ := hp
          exact of_decide_eq_true hx
        | replyPreProposeInstantiated a => exact .inr (.inl ⟨a, rfl⟩)
        | replyFailedPreProposeHook =>
          unfold step PrePropose.step PrePropose.stepModule at h
          simp only [bind_ok, require_ok] at h
          obtain ⟨_, _, _, hx, _⟩ := h
          cases hx
        | _ => exact absurd rfl hset
      | deliver i =>
        refine .inr (.inr ⟨i, rfl, ?_⟩)
        by_contra hf
        simp only [hf] at hc
        cases hc
      | _ => cases hc
  · rw [hm] at hne; exact absurd rfl hne

/-- **C116.** The pre-propose module is detached by two things only: the DAO says so, after which a new one may take its
place; or a completion hook failed. -/
theorem C116_attached {w0 w : World V N decode} {b0 b : Block} {log : List (Event V N decode)}
    (h : (sys V N decode).Run w0 b0 log w b) {e : Event V N decode} (he : e ∈ log)
    (hpre : e.pre.mod.prop.policy = .module e.pre.here) (hpost : e.post.mod.prop.policy ≠ .module e.pre.here) :
    (∃ i, e.call = .module (.prop (.updatePreProposeInfo i)) ∧ e.env.dao.sender = e.pre.mod.prop.config.dao) ∨
    (∃ a, e.call = .module (.prop (.replyPreProposeInstantiated a))) ∨
    (∃ i, e.call = .deliver i ∧ e.out.failed = true) := by
  obtain ⟨_, _, _, _, _, _, hs, _⟩ := h.event e he
  refine attached_step hs ?_
  rw [hpre]; exact hpost

/-- **C116.** And a completion hook fails only if the DAO had withdrawn deposits, a deposit has not been taken yet, or
the receiver has too much already. -/
theorem C116_hook_fails {w0 w : World V N decode} {b0 b : Block} {l0 : List (WholeMulti.Event S E C)}
    {later before : List (Event V N decode)} {e : Event V N decode} (h0 : (WholeMulti.sys V N.total decode).Reach w0.mod b0 l0)
    (hf : Fresh w0) (h : (sys V N decode).Run w0 b0 (later ++ e :: before) w b) (hfail : e.out.failed = true) :
    (∃ x ∈ before, ∃ t, x.call = .pre (.withdraw t) ∧ x.env.dao.sender = w0.pre.dao) ∨ e.pre.takes ≠ [] ∨
    ∃ x ∈ before, ∃ p d a, x.call = .propose p ∧ x.pre.pre.config.deposit = some d ∧
      U128 ≤ getD0 e.pre.bal (d.token, a) + d.amount := by
  obtain ⟨b1, hr, hs⟩ := PrePropose.run_at h
  have hp := PrePropose.hook_fails whole_lawful (pre_reach h0 hf hr) hs hfail
  rcases hp with ⟨x, hx, t, ht, hd⟩ | hp | ⟨x, hx, hp⟩
  · obtain ⟨y, hy, rfl⟩ := List.mem_map.1 hx
    refine .inl ⟨y, hy, t, ht, hd.trans ?_⟩
    obtain ⟨_, _, _, _, hr', _⟩ := hr.event y hy
    exact (fixed hr').2.1
  · exact .inr (.inl hp)
  · obtain ⟨y, hy, rfl⟩ := List.mem_map.1 hx
    exact .inr (.inr ⟨y, hy, hp⟩)

end Verif.DepositMulti

namespace Verif.DepositDao.Example
open Verif Verif.DepositDao
open Verif.WholeDao (tokenStaked)
open Verif.WholeCondorcet (tokenStakedNow)
open Verif.WholeDao.Example (decode env)

/-- **C111**, a case: the DAO (1) withdraws the deposit before the proposal is over; then it cannot be paid back, the
completion hook fails and the pre-propose module is detached. -/
theorem C111_attached_example : ∃ (w : World tokenStaked decode) (b : Block) (e : Event tokenStaked decode)
    (before : List (Event tokenStaked decode)),
    (sys tokenStaked tokenStakedNow decode).Run w0 ⟨1, 1⟩ (e :: before) w b ∧ e.out.failed = true ∧
    e.pre.mod.prop.policy = .module e.pre.here ∧ e.post.mod.prop.policy = .anyone := by
  obtain ⟨w, b, log, hr, hp⟩ := Sys.check_run (M := sys tokenStaked tokenStakedNow decode) (s := w0) (b := ⟨1, 1⟩)
    (cs := calls.take 5 ++ [(at' (env 5 1), .pre (.withdraw none))] ++ calls.drop 5)
    (p := fun w b log => match log with
      | e :: _ => decide (e.out.failed = true ∧ e.pre.mod.prop.policy = .module e.pre.here ∧
          e.post.mod.prop.policy = .anyone)
      | [] => false) (by decide +kernel)
  cases log with
  | nil => cases hp
  | cons e log => exact ⟨w, b, e, log, hr, of_decide_eq_true hp⟩

end Verif.DepositDao.Example

namespace Verif.DepositMulti.Example
open Verif Verif.DepositMulti
open Verif.WholeDao (tokenStaked)
open Verif.WholeCondorcet (tokenStakedNow)
open Verif.WholeMulti.Example (env)
open Verif.WholeDao.Example (decode)

/-- **C116**, a case, as `C111_attached_example`. -/
theorem C116_attached_example : ∃ (w : World tokenStaked tokenStakedNow decode) (b : Block)
    (e : Event tokenStaked tokenStakedNow decode) (before : List (Event tokenStaked tokenStakedNow decode)),
    (sys tokenStaked tokenStakedNow decode).Run w0 ⟨1, 1⟩ (e :: before) w b ∧ e.out.failed = true ∧
    e.pre.mod.prop.policy = .module e.pre.here ∧ e.post.mod.prop.policy = .anyone := by
  obtain ⟨w, b, log, hr, hp⟩ := Sys.check_run (M := sys tokenStaked tokenStakedNow decode) (s := w0) (b := ⟨1, 1⟩)
    (cs := calls.take 5 ++ [(at' (env 5 1), .pre (.withdraw none))] ++ calls.drop 5)
    (p := fun w b log => match log with
      | e :: _ => decide (e.out.failed = true ∧ e.pre.mod.prop.policy = .module e.pre.here ∧
          e.post.mod.prop.policy = .anyone)
      | [] => false) (by decide +kernel)
  cases log with
  | nil => cases hp
  | cons e log => exact ⟨w, b, e, log, hr, of_decide_eq_true hp⟩

end Verif.DepositMulti.Example
