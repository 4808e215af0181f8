import Verif.Proofs.Watch
import Verif.Props.PreProposeApprover
/-! The two DAOs see histories of their own. -/

namespace Verif.PrePropose
open Verif Verif.Voting

variable {M M1 M2 : PropModule}

/-- What a call of the approval contract or what surrounds it does to the proposal module. -/
theorem astep_mod {w w' : AWorld M} {e : Env M} {c : ACall M} {o : AOut} (h : astep w e c = .ok (w', o)) :
    (∃ id s mo, c = .approve id ∧ w.app.approver = M.sender e.mod ∧ w.app.pending.get id = some s ∧
      M.step w.base.mod (M.calledBy e.mod w.base.here) (M.propose s.proposer s.payload) = .ok (w'.base.mod, mo)) ∨
    (∃ m mo, c = .base (.module m) ∧ M.sender e.mod ≠ w.base.here ∧ M.step w.base.mod e.mod m = .ok (w'.base.mod, mo)) ∨
    (∃ i, c = .base (.deliver i) ∧ o.failed = true ∧ M.hookFailed w.base.mod = .ok w'.base.mod) ∨
    ((∀ id, c ≠ .approve id) ∧ (∀ m, c ≠ .base (.module m)) ∧ (∀ i, c = .base (.deliver i) → o.failed = false) ∧
      w'.base.mod = w.base.mod) := by
  cases c with
  | submit p =>
    simp only [astep, stepSubmit, bind_ok, Except.ok.injEq, Prod.mk.injEq] at h
    obtain ⟨_, _, _, _, _, _, _, _, _, _, rfl, rfl⟩ := h
    exact .inr (.inr (.inr ⟨by simp, by simp, by simp, rfl⟩))
  | approve id =>
    simp only [astep, stepApprove, bind_ok, require_ok, decide_eq_true_eq, orErr_ok] at h
    obtain ⟨_, ha, bal, hb, _, happ, s, hs0, ⟨mod, mo⟩, hm, hs⟩ := h
    simp only [Except.ok.injEq, Prod.mk.injEq] at hs
    obtain ⟨rfl, rfl⟩ := hs
    exact .inl ⟨id, s, mo, rfl, happ, hs0, hm⟩
  | reject id =>
    simp only [astep, stepReject, bind_ok, Except.ok.injEq, Prod.mk.injEq] at h
    obtain ⟨_, _, _, _, _, _, _, _, _, _, rfl, rfl⟩ := h
    exact .inr (.inr (.inr ⟨by simp, by simp, by simp, rfl⟩))
  | updateApprover a =>
    simp only [astep, stepUpdateApprover, bind_ok, Except.ok.injEq, Prod.mk.injEq] at h
    obtain ⟨_, _, _, _, _, _, rfl, rfl⟩ := h
    exact .inr (.inr (.inr ⟨by simp, by simp, by simp, rfl⟩))
  | addHook a =>
    simp only [astep, stepHook, bind_ok, Except.ok.injEq, Prod.mk.injEq] at h
    obtain ⟨_, _, _, _, _, _, _, _, rfl, rfl⟩ := h
    exact .inr (.inr (.inr ⟨by simp, by simp, by simp, rfl⟩))
  | removeHook a =>
    simp only [astep, stepHook, bind_ok, Except.ok.injEq, Prod.mk.injEq] at h
    obtain ⟨_, _, _, _, _, _, _, _, rfl, rfl⟩ := h
    exact .inr (.inr (.inr ⟨by simp, by simp, by simp, rfl⟩))
  | base c =>
    simp only [astep, stepBase, bind_ok, require_ok] at h
    obtain ⟨_, hc, ⟨b, o1⟩, hb, hs⟩ := h
    simp only [Except.ok.injEq, Prod.mk.injEq] at hs
    obtain ⟨rfl, rfl⟩ := hs
    cases c with
    | propose p => cases hc
    | pre m =>
      simp only [step, stepPre, bind_ok] at hb
      obtain ⟨_, _, _, _, ⟨_, _⟩, _, _, _, hb⟩ := hb
      injection hb with hb; injection hb with h1 h2; subst h1 h2
      exact .inr (.inr (.inr ⟨by simp, by simp, by simp, rfl⟩))
    | completed id st =>
      simp only [step, stepCompleted, bind_ok] at hb
      obtain ⟨_, _, _, _, _, _, hb⟩ := hb
      injection hb with hb; injection hb with h1 h2; subst h1 h2
      exact .inr (.inr (.inr ⟨by simp, by simp, by simp, rfl⟩))
    | module m =>
      simp only [step, stepModule, bind_ok, require_ok, decide_eq_true_eq] at hb
      obtain ⟨_, hne, _, _, ⟨mod, mo⟩, hm, hb⟩ := hb
      injection hb with hb; injection hb with h1 h2; subst h1 h2
      exact .inr (.inl ⟨m, mo, rfl, hne, hm⟩)
    | deliver i =>
      simp only [step, stepDeliver] at hb
      split at hb
      · cases hb
      · split at hb
        · injection hb with hb; injection hb with h1 h2; subst h1 h2
          exact .inr (.inr (.inr ⟨by simp, by simp, by simp, rfl⟩))
        · simp only [bind_ok] at hb
          obtain ⟨mod, hm, hb⟩ := hb
          injection hb with hb; injection hb with h1 h2; subst h1 h2
          exact .inr (.inr (.inl ⟨i, rfl, rfl, hm⟩))
    | take i =>
      simp only [step, stepTake] at hb
      split at hb
      · cases hb
      · simp only [bind_ok] at hb
        obtain ⟨_, _, hb⟩ := hb
        injection hb with hb; injection hb with h1 h2; subst h1 h2
        exact .inr (.inr (.inr ⟨by simp, by simp, by simp, rfl⟩))
    | transfer src dst t n =>
      simp only [step, stepTransfer, bind_ok] at hb
      obtain ⟨_, _, _, _, hb⟩ := hb
      injection hb with hb; injection hb with h1 h2; subst h1 h2
      exact .inr (.inr (.inr ⟨by simp, by simp, by simp, rfl⟩))

/-- What an event does to the approving DAO. -/
theorem tcall_two {f : M1.Payload → M2.Payload} {w w' : Two M1 M2} {e : TEnv M1 M2} {c : TCall M1 M2} {o : TOut}
    (h : tcall f w e c = .ok (w', o)) :
    (∃ m mo, c = .two m ∧ M2.step w.mod e.two m = .ok (w'.mod, mo)) ∨
    (∃ i id pl mo, c = .mirror i ∧ w.mirrors[i]? = some id ∧ payloadOf w.one id = some pl ∧
      M2.step w.mod (M2.calledBy e.two w.here) (M2.propose w.one.base.here (f pl)) = .ok (w'.mod, mo) ∧
      o.newId = mo.newId) ∨
    (∃ i, c = .deliver i ∧ o.failed = true ∧ M2.hookFailed w.mod = .ok w'.mod) ∨
    ((∀ m, c ≠ .two m) ∧ (∀ i, c ≠ .mirror i) ∧ (∀ i, c = .deliver i → o.failed = false) ∧ w'.mod = w.mod) := by
  cases c with
  | one c =>
    simp only [tcall, tstepOne, bind_ok, require_ok, Prod.exists] at h
    obtain ⟨_, _, one, o1, _, h⟩ := h
    injection h with h; injection h with h1 h2; subst h1 h2
    exact .inr (.inr (.inr ⟨by simp, by simp, by simp, rfl⟩))
  | two c =>
    simp only [tcall, tstepTwo, bind_ok, require_ok, Prod.exists] at h
    obtain ⟨_, _, _, _, m, mo, hm, h⟩ := h
    injection h with h; injection h with h1 h2; subst h1 h2
    exact .inl ⟨c, mo, rfl, hm⟩
  | mirror i =>
    simp only [tcall, tstepMirror] at h
    split at h
    · cases h
    · rename_i id hid
      simp only [bind_ok, orErr_ok, Prod.exists] at h
      obtain ⟨pl, hpl, appr, _, m, mo, hm, h⟩ := h
      injection h with h; injection h with h1 h2; subst h1 h2
      exact .inr (.inl ⟨i, id, pl, mo, rfl, hid, hpl, hm, rfl⟩)
  | deliver i =>
    simp only [tcall, tstepDeliver] at h
    split at h
    · cases h
    · split at h
      · injection h with h; injection h with h1 h2; subst h1 h2
        exact .inr (.inr (.inr ⟨by simp, by simp, by simp, rfl⟩))
      · simp only [bind_ok] at h
        obtain ⟨mod, hm, h⟩ := h
        injection h with h; injection h with h1 h2; subst h1 h2
        exact .inr (.inr (.inl ⟨i, rfl, rfl, hm⟩))
  | reset =>
    simp only [tcall, tstepReset, bind_ok, Prod.exists] at h
    obtain ⟨_, _, one1, o1, _, one2, o2, _, h⟩ := h
    injection h with h; injection h with h1 h2; subst h1 h2
    exact .inr (.inr (.inr ⟨by simp, by simp, by simp, rfl⟩))

/-- What an event does to the approval contract and its DAO. -/
theorem tcall_one {f : M1.Payload → M2.Payload} {w w' : Two M1 M2} {e : TEnv M1 M2} {c : TCall M1 M2} {o : TOut}
    (h : tcall f w e c = .ok (w', o)) :
    (∃ c' o', c = .one c' ∧ M1.sender e.one.mod ≠ w.here ∧ astep w.one e.one c' = .ok (w'.one, o') ∧
      o.one = some o' ∧ w'.mirrors = w.mirrors ++ mirrorsFor w.here o') ∨
    (∃ i pid st v o', c = .deliver i ∧ w.queue[i]? = some (pid, st) ∧
      w.appr.completed w.appr.module pid st = .ok v ∧ astep w.one (e.one.as w.here) v.call = .ok (w'.one, o') ∧
      o.failed = false ∧ w'.mirrors = w.mirrors) ∨
    (∃ i, c = .deliver i ∧ o.failed = true ∧ w'.one = w.one ∧ w'.mirrors = w.mirrors) ∨
    (c = .reset ∧ ∃ one1 o1 o2, astep w.one (e.one.as w.here) (.removeHook w.here) = .ok (one1, o1) ∧
      astep one1 (e.one.as w.here) (.updateApprover w.appr.dao) = .ok (w'.one, o2) ∧ w'.mirrors = w.mirrors) ∨
    (((∃ m, c = .two m) ∨ (∃ i, c = .mirror i)) ∧ w'.one = w.one) := by
  cases c with
  | one c =>
    simp only [tcall, tstepOne, bind_ok, require_ok, decide_eq_true_eq, Prod.exists] at h
    obtain ⟨_, hne, one, o1, h1, h⟩ := h
    injection h with h; injection h with h2 h3; subst h2 h3
    exact .inl ⟨c, o1, rfl, hne, h1, rfl, rfl⟩
  | two c =>
    simp only [tcall, tstepTwo, bind_ok, require_ok, Prod.exists] at h
    obtain ⟨_, _, _, _, m, mo, hm, h⟩ := h
    injection h with h; injection h with h1 h2; subst h1 h2
    exact .inr (.inr (.inr (.inr ⟨.inl ⟨c, rfl⟩, rfl⟩)))
  | mirror i =>
    simp only [tcall, tstepMirror] at h
    split at h
    · cases h
    · rename_i id hid
      simp only [bind_ok, orErr_ok, Prod.exists] at h
      obtain ⟨pl, hpl, appr, _, m, mo, hm, h⟩ := h
      injection h with h; injection h with h1 h2; subst h1 h2
      exact .inr (.inr (.inr (.inr ⟨.inr ⟨i, rfl⟩, rfl⟩)))
  | deliver i =>
    simp only [tcall, tstepDeliver] at h
    split at h
    · cases h
    · rename_i pid st hq
      split at h
      · rename_i one o1 hv
        injection h with h; injection h with h1 h2; subst h1 h2
        simp only [runVerdict, bind_ok] at hv
        obtain ⟨v, h1, h2⟩ := hv
        exact .inr (.inl ⟨i, pid, st, v, o1, rfl, hq, h1, h2, rfl, rfl⟩)
      · simp only [bind_ok] at h
        obtain ⟨mod, hm, h⟩ := h
        injection h with h; injection h with h1 h2; subst h1 h2
        exact .inr (.inr (.inl ⟨i, rfl, rfl, rfl, rfl⟩))
  | reset =>
    simp only [tcall, tstepReset, bind_ok, Prod.exists] at h
    obtain ⟨_, _, one1, o1, h1, one2, o2, h2, h⟩ := h
    injection h with h; injection h with h3 h4; subst h3 h4
    exact .inr (.inr (.inr (.inl ⟨rfl, one1, o1, o2, h1, h2, rfl⟩)))

theorem tstep_call {f : M1.Payload → M2.Payload} {w w' : Two M1 M2} {e : TEnv M1 M2} {c : TCall M1 M2} {o : TOut}
    (h : tstep f w e c = .ok (w', o)) : M2.block e.two = M1.block e.one.mod ∧ tcall f w e c = .ok (w', o) := by
  simp only [tstep, bind_ok, require_ok, decide_eq_true_eq] at h
  obtain ⟨_, h1, h2⟩ := h
  exact ⟨h1, h2⟩

theorem completed_ok {s : Approver} {a : Addr} {pid : Nat} {st : Status} {v : Verdict}
    (h : s.completed a pid st = .ok v) :
    ∃ id, s.toSub.get pid = some id ∧ ((st = .closed ∧ v = .reject id) ∨ (st = .executed ∧ v = .approve id)) := by
  simp only [Approver.completed, bind_ok, require_ok, orErr_ok] at h
  obtain ⟨_, _, id, h1, h⟩ := h
  refine ⟨id, h1, ?_⟩
  split at h
  · injection h with h; exact .inl ⟨rfl, h.symm⟩
  · injection h with h; exact .inr ⟨rfl, h.symm⟩
  · cases h

end Verif.PrePropose

namespace Verif.TwoHouses
open Verif Verif.Voting
open Verif.Spec.TwoHouses
open Verif.DepositDao (whole whole_step hookFailed_step)
open Verif.PrePropose (tcall_one tcall_two astep_mod tstep_call completed_ok)
open Verif.WholeDao (VotingModule)

variable {S1 E1 C1 O1 S2 E2 C2 O2 : Type} {V1 : VotingModule S1 E1 C1 O1} {V2 : VotingModule S2 E2 C2 O2}
  {d1 d2 : Nat → DaoCore.CosmosMsg}

/-- The DAO. -/
def one : Watch (sys V1 V2 d1 d2) V1 d1 where
  view := dao
  call := oneCall
  law := by
    intro w e c o w' h
    change PrePropose.tstep _ w e c = _ at h
    obtain ⟨_, h⟩ := tstep_call h
    have quiet : ∀ {a a' : PrePropose.AWorld (whole V1 d1)} {en x o'}, PrePropose.astep a en x = .ok (a', o') →
        (∀ id, x ≠ .approve id) → (∀ m, x ≠ .base m) → a'.base.mod = a.base.mod := by
      intro a a' en x o' hx h1 h2
      rcases astep_mod hx with ⟨id, _, _, h, _⟩ | ⟨m, _, h, _⟩ | ⟨i, h, _⟩ | ⟨_, _, _, h⟩
      · exact absurd h (h1 id)
      · exact absurd h (h2 _)
      · exact absurd h (h2 _)
      · exact h
    rcases tcall_one h with ⟨c', o', rfl, _, ha, ho, _⟩ | ⟨i, pid, st, v, o', rfl, hq, hv, ha, hf, _⟩ |
      ⟨i, rfl, hf, hw, _⟩ | ⟨rfl, a1, o1, o2, ha1, ha2, _⟩ | ⟨hc, hw⟩
    · rcases astep_mod ha with ⟨id, s, mo, rfl, _, hs, hm⟩ | ⟨m, mo, rfl, _, hm⟩ | ⟨i, rfl, hf, hm⟩ | ⟨h1, h2, h3, h4⟩
      · left
        obtain ⟨o1, hm1, _⟩ := whole_step hm
        refine ⟨_, _, o1, ?_, ?_, hm1⟩
        · simp only [oneCall, proposeCall, hs]
        · rfl
      · left
        obtain ⟨o1, hm1, _⟩ := whole_step hm
        exact ⟨_, _, o1, rfl, rfl, hm1⟩
      · left
        obtain ⟨o1, hm1⟩ := hookFailed_step e.one.mod hm
        refine ⟨_, _, o1, ?_, ?_, hm1⟩
        · simp only [oneCall, ho, hf, if_true]
        · rfl
      · right
        refine ⟨?_, h4⟩
        cases c' with
        | approve id => exact absurd rfl (h1 id)
        | base b =>
          cases b with
          | module m => exact absurd rfl (h2 m)
          | deliver i =>
            simp only [oneCall, ho, h3 i rfl]
            rfl
          | _ => rfl
        | _ => rfl
    · obtain ⟨id, hid, ⟨rfl, rfl⟩ | ⟨rfl, rfl⟩⟩ := completed_ok hv
      · right
        refine ⟨?_, quiet ha (by intro id h; cases h) (by intro m h; cases h)⟩
        simp only [oneCall, hq]
      · left
        rcases astep_mod ha with ⟨id', s, mo, h1, _, hs, hm⟩ | ⟨m, mo, h1, _⟩ | ⟨i, h1, _⟩ | ⟨h1, _⟩
        · injection h1 with h1; subst h1
          obtain ⟨o1, hm1, _⟩ := whole_step hm
          refine ⟨_, _, o1, ?_, ?_, hm1⟩
          · simp only [oneCall, hq, hf, hid, proposeCall, hs]; rfl
          · rfl
        · cases h1
        · cases h1
        · exact absurd rfl (h1 id)
    · right
      refine ⟨?_, by rw [dao, hw]; rfl⟩
      simp only [oneCall, hf]; split <;> simp_all
    · right
      refine ⟨rfl, ?_⟩
      rw [dao, quiet ha2 (by intro id h; cases h) (by intro m h; cases h),
        quiet ha1 (by intro id h; cases h) (by intro m h; cases h)]
      rfl
    · right
      refine ⟨?_, by rw [dao, hw]; rfl⟩
      rcases hc with ⟨m, rfl⟩ | ⟨i, rfl⟩ <;> rfl

/-- The approving DAO. -/
def two : Watch (sys V1 V2 d1 d2) V2 d2 where
  view := approving
  call := twoCall
  law := by
    intro w e c o w' h
    change PrePropose.tstep _ w e c = _ at h
    obtain ⟨hb, h⟩ := tstep_call h
    rcases tcall_two h with ⟨m, mo, rfl, hm⟩ | ⟨i, id, pl, mo, rfl, hid, hpl, hm, _⟩ | ⟨i, rfl, hf, hm⟩ | ⟨h1, h2, h3, h4⟩
    · left
      obtain ⟨o1, hm1, _⟩ := whole_step hm
      exact ⟨_, _, o1, rfl, hb, hm1⟩
    · left
      obtain ⟨o1, hm1, _⟩ := whole_step hm
      refine ⟨_, _, o1, ?_, ?_, hm1⟩
      · simp only [twoCall, hid, Option.bind_some, hpl]; rfl
      · exact hb
    · left
      obtain ⟨o1, hm1⟩ := hookFailed_step e.two hm
      refine ⟨_, _, o1, ?_, ?_, hm1⟩
      · simp only [twoCall, hf, if_true]
      · exact hb
    · right
      refine ⟨?_, h4⟩
      cases c with
      | two m => exact absurd rfl (h1 m)
      | mirror i => exact absurd rfl (h2 i)
      | deliver i =>
        simp only [twoCall, h3 i rfl]
        rfl
      | _ => rfl

end Verif.TwoHouses
