import Verif.Spec.TwoHouses
import Verif.Proofs.DepositDao
import Verif.Props.WholeDao
/-! A DAO inside a bigger system: what it sees is a history of its own, to which what is known of a DAO applies. -/

namespace Verif.Single
open Verif Verif.Voting Verif.Spec

/-- A proposal becomes executed by being executed. -/
theorem executed_by {s s' : State} {env : Env} {call : Call} {out : Out} {id : Nat} {p' : Proposal}
    (h : step s env call = .ok (s', out)) (hp' : s'.proposals.get id = some p')
    (hex : p'.status = .executed ∨ p'.status = .executionFailed) :
    (∃ f, call = .execute id f) ∨
      ∃ p, s.proposals.get id = some p ∧ (p.status = .executed ∨ p.status = .executionFailed) := by
  have hfin : Final p'.status := by rcases hex with h | h <;> rw [h] <;> trivial
  have same : s'.proposals = s.proposals →
      (∃ f, call = .execute id f) ∨
      ∃ p, s.proposals.get id = some p ∧ (p.status = .executed ∨ p.status = .executionFailed) :=
    fun h => .inr ⟨p', by rw [← h]; exact hp', hex⟩
  have set : ∀ {i : Nat} {q : Proposal} {st : Status}, s'.proposals = s.proposals.set i { q with status := st } →
      (i = id → st ≠ .executed ∧ st ≠ .executionFailed) → (∃ f, call = .execute id f) ∨
      ∃ p, s.proposals.get id = some p ∧ (p.status = .executed ∨ p.status = .executionFailed) := by
    intro i q st hs hne
    rw [hs, AMap.get_set] at hp'
    split at hp'
    · rename_i hi
      injection hp' with hp'; subst hp'
      obtain ⟨g1, g2⟩ := hne hi
      rcases hex with h | h
      · exact absurd h g1
      · exact absurd h g2
    · exact .inr ⟨p', hp', hex⟩
  cases call with
  | propose g c m v z =>
    obtain ⟨proposer, total, st, s1, _, _, _, h4, h5, h6, h7, rfl, _, h9⟩ := execPropose_inv h
    have hn : ∀ {q : Proposal}, (s.proposals.set (s.count + 1)
        { freshProposal s.config env.block proposer c m total with status := st }).get id = some q →
        (q.status = .executed ∨ q.status = .executionFailed) → s.proposals.get id = some q := by
      intro q hq hx
      rw [AMap.get_set] at hq
      split at hq
      · exfalso
        injection hq with hq; subst hq
        have hf : Final st := by rcases hx with h | h <;> simp only at h <;> rw [h] <;> trivial
        have := currentStatus_of_final h6 hf
        rw [← this] at hf
        exact hf
      · exact hq
    rcases h9 with ⟨_, rfl, _⟩ | ⟨v, r, out', _, hv, _⟩
    · exact .inr ⟨p', hn hp' hex, hex⟩
    · obtain ⟨p, power, w, votes, st2, hp, _, _, _, _, _, _, hst, rfl, _⟩ := execVote_inv hv
      simp only [AMap.get_set] at hp'
      split at hp'
      · rename_i hi
        injection hp' with hp'; subst hp'
        have := currentStatus_of_final hst hfin
        simp only at this hex
        rw [← this] at hex
        exact .inr ⟨p, hn (hi ▸ hp) hex, hex⟩
      · exact .inr ⟨p', hp', hex⟩
  | vote i v r =>
    obtain ⟨p, power, w, votes, st, hp, _, _, _, _, _, _, hst, rfl, _⟩ := execVote_inv h
    simp only [AMap.get_set] at hp'
    split at hp'
    · rename_i hi
      injection hp' with hp'; subst hp'
      have := currentStatus_of_final hst hfin
      simp only at this hex
      exact .inr ⟨p, hi ▸ hp, by rw [this]; exact hex⟩
    · exact .inr ⟨p', hp', hex⟩
  | updateRationale i r =>
    unfold step execUpdateRationale at h
    simp only [bind_ok, orErr_ok, Except.ok.injEq, Prod.mk.injEq] at h
    obtain ⟨b, hb, rfl, _⟩ := h
    exact same rfl
  | execute i f =>
    obtain ⟨p, st, st', hp, hst, hm, _, _, rfl, _⟩ := execExecute_inv h
    by_cases hi : i = id
    · exact .inl ⟨f, by rw [hi]⟩
    · exact set rfl (fun h => absurd h hi)
  | close i =>
    obtain ⟨p, hp, hst, rfl, _⟩ := execClose_inv h
    exact set rfl (fun _ => ⟨by simp, by simp⟩)
  | veto i =>
    obtain ⟨p, st, hp, hst, hm, rfl, _⟩ := execVeto_inv h
    exact set rfl (fun _ => ⟨by simp, by simp⟩)
  | updateConfig c =>
    unfold step execUpdateConfig at h
    simp only [bind_ok, require_ok, Except.ok.injEq, Prod.mk.injEq] at h
    obtain ⟨_, _, _, hv, rfl, _⟩ := h
    exact same rfl
  | updatePreProposeInfo i =>
    unfold step execUpdatePolicy at h
    simp only [bind_ok, require_ok, Except.ok.injEq, Prod.mk.injEq] at h
    obtain ⟨_, _, rfl, _⟩ := h
    exact same rfl
  | addProposalHook a =>
    unfold step execAddProposalHook at h
    simp only [bind_ok, require_ok, Except.ok.injEq, Prod.mk.injEq] at h
    obtain ⟨_, _, _, _, rfl, _⟩ := h
    exact same rfl
  | removeProposalHook a =>
    unfold step execRemoveProposalHook at h
    simp only [bind_ok, require_ok, Except.ok.injEq, Prod.mk.injEq] at h
    obtain ⟨_, _, _, _, rfl, _⟩ := h
    exact same rfl
  | addVoteHook a =>
    unfold step execAddVoteHook at h
    simp only [bind_ok, require_ok, Except.ok.injEq, Prod.mk.injEq] at h
    obtain ⟨_, _, _, _, rfl, _⟩ := h
    exact same rfl
  | removeVoteHook a =>
    unfold step execRemoveVoteHook at h
    simp only [bind_ok, require_ok, Except.ok.injEq, Prod.mk.injEq] at h
    obtain ⟨_, _, _, _, rfl, _⟩ := h
    exact same rfl
  | replyFailedProposalHook i =>
    unfold step replyProposalHook at h
    simp only [bind_ok, Except.ok.injEq, Prod.mk.injEq, Prod.exists] at h
    obtain ⟨_, _, _, rfl, _⟩ := h
    exact same rfl
  | replyFailedVoteHook i =>
    unfold step replyVoteHook at h
    simp only [bind_ok, Except.ok.injEq, Prod.mk.injEq, Prod.exists] at h
    obtain ⟨_, _, _, rfl, _⟩ := h
    exact same rfl
  | replyPreProposeInstantiated a =>
    simp only [step, Except.ok.injEq, Prod.mk.injEq] at h
    obtain ⟨rfl, _⟩ := h
    exact same rfl
  | replyFailedPreProposeHook =>
    simp only [step, replyPreProposeFailed] at h
    split at h
    · simp at h
    · simp only [Except.ok.injEq, Prod.mk.injEq] at h
      obtain ⟨rfl, _⟩ := h
      exact same rfl

end Verif.Single

namespace Verif
open Verif.Voting Verif.Spec
open Verif.DepositDao (whole whole_cases whole_of_step lawful reachable)
open Verif.WholeDao (VotingModule)
open Verif.Spec.WholeDao (Lawful Steady Decided NearlyDecided coreEvent)
open Verif.Spec.TwoHouses (seen)

/-- A DAO inside a system. -/
structure Watch {St En Ca Ou S E C O : Type} (M : Sys St En Ca Ou) (V : VotingModule S E C O)
    (decode : Nat → DaoCore.CosmosMsg) where
  view : St → WholeDao.World S
  call : Ev St En Ca Ou → Option (WholeDao.Env × WholeDao.Call E C)
  law : ∀ {w e c o w'}, M.step w e c = .ok (w', o) →
    (∃ env' c' o', call ⟨w, e, c, o, w'⟩ = some (env', c') ∧ env'.block = M.block e ∧
      WholeDao.step V decode (view w) env' c' = .ok (view w', o')) ∨
    (call ⟨w, e, c, o, w'⟩ = none ∧ view w' = view w)

namespace Watch

variable {St En Ca Ou S E C O : Type} {M : Sys St En Ca Ou} {V : VotingModule S E C O}
  {decode : Nat → DaoCore.CosmosMsg} (W : Watch M V decode)

/-- What the DAO sees of an event. -/
def event (e : Ev St En Ca Ou) : Option (WholeDao.Event S E C) := seen V decode (W.view e.pre) (W.view e.post) (W.call e)

/-- What the DAO sees of a history. -/
def log (l : List (Ev St En Ca Ou)) : List (WholeDao.Event S E C) := l.filterMap W.event

theorem event_some {e : Ev St En Ca Ou} {env : WholeDao.Env} {c : WholeDao.Call E C} {w' : WholeDao.World S}
    {o : WholeDao.Out} (hc : W.call e = some (env, c)) (hs : WholeDao.step V decode (W.view e.pre) env c = .ok (w', o)) :
    W.event e = some ⟨W.view e.pre, env, c, o, W.view e.post⟩ := by
  unfold event seen
  rw [hc]
  simp only [hs]

theorem event_none {e : Ev St En Ca Ou} (hc : W.call e = none) : W.event e = none := by
  unfold event seen
  rw [hc]

theorem log_append (a b : List (Ev St En Ca Ou)) : W.log (a ++ b) = W.log a ++ W.log b := List.filterMap_append

theorem log_some {e : Ev St En Ca Ou} {d : WholeDao.Event S E C} (h : W.event e = some d) (l : List (Ev St En Ca Ou)) :
    W.log (e :: l) = d :: W.log l := by
  unfold log
  rw [List.filterMap_cons, h]

theorem log_none {e : Ev St En Ca Ou} (h : W.event e = none) (l : List (Ev St En Ca Ou)) : W.log (e :: l) = W.log l := by
  unfold log
  rw [List.filterMap_cons, h]

theorem run {w w' : St} {b b' b0 : Block} {l : List (Ev St En Ca Ou)} (h : M.Run w b l w' b')
    {l0 : List (WholeDao.Event S E C)} (hb0 : b0.le b) (h0 : (WholeDao.sys V decode).Reach (W.view w) b0 l0) :
    ∃ b1, b1.le b' ∧ (WholeDao.sys V decode).Reach (W.view w') b1 (W.log l ++ l0) := by
  induction h with
  | refl => exact ⟨b0, hb0, h0⟩
  | @step w1 w2 _ l e c o hr hb hs ih =>
    obtain ⟨b1, hb1, h1⟩ := ih
    rcases W.law hs with ⟨env', c', o', h2, hbl, h3⟩ | ⟨h2, h3⟩
    · refine ⟨M.block e, Block.le_refl _, ?_⟩
      rw [W.log_some (W.event_some h2 h3), List.cons_append, ← hbl]
      exact Sys.Reach.step (M := WholeDao.sys V decode) (env := env') (call := c') (out := o') h1
        (by change Block.le _ env'.block; rw [hbl]; exact Block.le_trans hb1 hb) h3
    · refine ⟨b1, Block.le_trans hb1 hb, ?_⟩
      rw [W.log_none (W.event_none h2), h3]
      exact h1

theorem inv {w w' : St} {b b' b0 : Block} {l : List (Ev St En Ca Ou)} (h : M.Run w b l w' b')
    {l0 : List (WholeDao.Event S E C)} (hb0 : b0.le b) (h0 : (WholeDao.sys V decode).Reach (W.view w) b0 l0) :
    Single.Inv (W.view w').prop := by
  obtain ⟨b1, _, h1⟩ := W.run h hb0 h0
  exact PrePropose.reachable_inv lawful (reachable h1)

/-- A proposal that is executed was decided when it was. -/
theorem executed (hV : Lawful V) {w0 w : St} {b0 b b' : Block} {l : List (Ev St En Ca Ou)} (h : M.Run w0 b0 l w b)
    {l0 : List (WholeDao.Event S E C)} (hb' : b'.le b0) (h0 : (WholeDao.sys V decode).Reach (W.view w0) b' l0)
    (hst : Steady (W.log l ++ l0)) {id : Nat} (hnone : (W.view w0).prop.proposals.get id = none)
    {p : Single.Proposal} (hp : (W.view w).prop.proposals.get id = some p)
    (hex : p.status = .executed ∨ p.status = .executionFailed) :
    ∃ later x before env f q, l = later ++ x :: before ∧ W.call x = some (env, .prop (.execute id f)) ∧
      (W.view x.pre).prop.proposals.get id = some q ∧ Single.SameRules q p ∧
      (NineDecAll q.threshold → Decided V (W.log before ++ l0) (W.view x.pre).vote env.block id q) ∧
      NearlyDecided V (W.log before ++ l0) (W.view x.pre).vote env.block id q := by
  induction h generalizing p with
  | refl => rw [hnone] at hp; cases hp
  | @step w1 w2 b1 l e c o hr hb hs ih =>
    have keep : ∀ {p1 : Single.Proposal}, (W.view w1).prop.proposals.get id = some p1 → Single.SameRules p1 p →
        (p1.status = .executed ∨ p1.status = .executionFailed) →
        ∃ later x before env f q, (⟨w1, e, c, o, w2⟩ : Ev St En Ca Ou) :: l = later ++ x :: before ∧
          W.call x = some (env, .prop (.execute id f)) ∧
          (W.view x.pre).prop.proposals.get id = some q ∧ Single.SameRules q p ∧
          (NineDecAll q.threshold → Decided V (W.log before ++ l0) (W.view x.pre).vote env.block id q) ∧
          NearlyDecided V (W.log before ++ l0) (W.view x.pre).vote env.block id q := by
      intro p1 hp1 hsame hx
      obtain ⟨later, x, before, env, f, q, k1, k2, k3, k4, k5⟩ := ih (fun y hy => hst y (by
        cases hev : W.event ⟨w1, e, c, o, w2⟩ with
        | none => rw [W.log_none hev]; exact hy
        | some d => rw [W.log_some hev]; exact List.mem_cons_of_mem _ hy)) hp1 hx
      exact ⟨_ :: later, x, before, env, f, q, by rw [k1]; rfl, k2, k3, k4.trans hsame, k5⟩
    rcases W.law hs with ⟨env', c', o', h2, hbl, h3⟩ | ⟨h2, h3⟩
    · rcases whole_cases (whole_of_step h3) with ⟨m, rfl, hm⟩ | ⟨hm, _⟩
      · obtain ⟨o2, hm1, _⟩ := Single.module_step hm
        have hi1 := W.inv hr hb' h0
        rcases Single.executed_by hm1 hp hex with ⟨f, rfl⟩ | ⟨p1, hp1, hx1⟩
        · obtain ⟨b2, hb2, hre⟩ := W.run hr hb' h0
          have hev := W.event_some (e := ⟨w1, e, c, o, w2⟩) h2 h3
          rw [W.log_some hev, List.cons_append] at hst
          have hre' : (WholeDao.sys V decode).Reach (W.view w2) env'.block
              ((⟨W.view w1, env', .prop (.execute id f), o', W.view w2⟩ : WholeDao.Event S E C) :: (W.log l ++ l0)) :=
            Sys.Reach.step (M := WholeDao.sys V decode) (env := env') (call := .prop (.execute id f)) (out := o') hre
              (by change Block.le _ env'.block; rw [hbl]; exact Block.le_trans hb2 hb) h3
          obtain ⟨q, hq, hdec⟩ := WholeDao.C80_decided hV hre' hst (later := []) rfl rfl
          obtain ⟨q', hq', hnear⟩ := WholeDao.C80_nearly_decided hV hre' hst (later := []) rfl rfl
          simp only at hq hq'
          rw [hq] at hq'; injection hq' with hq'; subst hq'
          obtain ⟨p2, hp2, hsame, _⟩ := Single.run_prop (.step .refl (b1 := env'.block) (Block.le_refl _) hm1) hi1 hq
          rw [hp] at hp2; injection hp2 with hp2; subst hp2
          exact ⟨[], _, l, env', f, q, rfl, h2, hq, hsame, hdec, hnear⟩
        · obtain ⟨p2, hp2, hsame, _⟩ := Single.run_prop (.step .refl (b1 := env'.block) (Block.le_refl _) hm1) hi1 hp1
          rw [hp] at hp2; injection hp2 with hp2; subst hp2
          exact keep hp1 hsame hx1
      · rw [hm] at hp
        exact keep hp (.refl _) hex
    · rw [h3] at hp
      exact keep hp (.refl _) hex

/-- What the DAO sends for its proposal module comes from proposals that were decided. -/
theorem mandate (hV : Lawful V) {w0 w : St} {b0 b b' : Block} {l : List (Ev St En Ca Ou)} (h : M.Run w0 b0 l w b)
    {l0 : List (WholeDao.Event S E C)} (hb' : b'.le b0) (h0 : (WholeDao.sys V decode).Reach (W.view w0) b' l0)
    (hst : Steady (W.log l ++ l0)) {ev : Ev St En Ca Ou} (hev : ev ∈ l) {dev : WholeDao.Event S E C}
    (hdev : W.event ev = some dev) {d : DaoCore.Sub} (hd : d ∈ dev.out.core) :
    (∃ m, d = .send m ∧ ∃ later before b1 id q n env, l = later ++ ev :: before ∧ M.Run w0 b0 before ev.pre b1 ∧
      W.call ev = some (env, .prop (.execute id false)) ∧
      (W.view ev.pre).prop.proposals.get id = some q ∧ n ∈ q.msgs ∧ m = decode n ∧
      (NineDecAll q.threshold → Decided V (W.log before ++ l0) (W.view ev.pre).vote env.block id q) ∧
      NearlyDecided V (W.log before ++ l0) (W.view ev.pre).vote env.block id q) ∨
    ∃ c, coreEvent dev = some c ∧ DaoCore.MaySend c d ∧
      ∀ sender m, c.call = .call sender m → sender ≠ dev.pre.propAddr := by
  obtain ⟨before, later, b1, hl, hr1, hb1, hs, hr2⟩ := h.event ev hev
  subst hl
  obtain ⟨pre, e, c, o, post⟩ := ev
  simp only at hs hr1
  obtain ⟨b2, hb2, hreach⟩ := W.run hr1 hb' h0
  rcases W.law hs with ⟨env', c', o', hcall, hbl, hstep⟩ | ⟨hno, _⟩
  swap
  · rw [W.event_none hno] at hdev; cases hdev
  have hev' := W.event_some (e := ⟨pre, e, c, o, post⟩) hcall hstep
  rw [hev'] at hdev; injection hdev with hdev; subst hdev
  have hst' : Steady ((⟨W.view pre, env', c', o', W.view post⟩ : WholeDao.Event S E C) :: (W.log before ++ l0)) := by
    intro x hx
    apply hst x
    rw [W.log_append, W.log_some hev']
    simp only [List.append_assoc, List.cons_append, List.mem_append]
    exact .inr hx
  have hre : (WholeDao.sys V decode).Reach (W.view post) env'.block
      ((⟨W.view pre, env', c', o', W.view post⟩ : WholeDao.Event S E C) :: (W.log before ++ l0)) :=
    Sys.Reach.step (M := WholeDao.sys V decode) (env := env') (call := c') (out := o') hreach
      (by change Block.le _ env'.block; rw [hbl]; exact Block.le_trans hb2 hb1) hstep
  rcases WholeDao.C80_mandate hV hre hst' (List.mem_cons_self) hd with ⟨m, hm, hby, _⟩ | hother
  · left
    refine ⟨m, hm, ?_⟩
    obtain ⟨later', before', id, p, n, hl', ⟨hc', hp⟩, hn, hmn, _⟩ := hby
    simp only at hc' hp
    subst hc'
    obtain ⟨q, hq, hdec⟩ := WholeDao.C80_decided hV hre hst' (later := []) rfl rfl
    obtain ⟨q', hq', hnear⟩ := WholeDao.C80_nearly_decided hV hre hst' (later := []) rfl rfl
    simp only at hq hq'
    rw [hp] at hq hq'
    injection hq with hq; subst hq
    injection hq' with hq'; subst hq'
    exact ⟨later, before, b1, id, p, n, env', rfl, hr1, hcall, hp, hn, hmn, hdec, hnear⟩
  · exact .inr hother

end Watch
end Verif
