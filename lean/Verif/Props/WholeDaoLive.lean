import Verif.Props.WholeDao
import Verif.Props.SingleLive
/-!
# C80: what the members have decided for is carried out
-/

namespace Verif.WholeDao
open Verif Verif.Voting Verif.Spec Verif.Spec.WholeDao

variable {S E C O : Type} {V : VotingModule S E C O} {decode : Nat → DaoCore.CosmosMsg}

/-- The proposal module is another contract than the DAO. -/
theorem apart {w : World S} {b : Block} {log : List (Event S E C)} (h : (sys V decode).Reach w b log) :
    w.propAddr ≠ w.core.core.me := by
  obtain ⟨b0, w0, hi, hr⟩ := h
  induction hr with
  | refl => exact hi.1
  | @step s1 s2 b3 log env call out hr hb3 hs ih =>
    cases call with
    | vote ve c =>
      obtain ⟨_, _, _, hw, hpa, _⟩ := vote_effect (decode := decode) hs
      rw [hw, hpa]; exact ih
    | prop c =>
      obtain ⟨_, _, hpa, _, he⟩ := prop_effect (decode := decode) hs
      rcases he with ⟨he, _⟩ | ⟨id, p, rfl, hg, hc⟩
      · rw [hpa, he]; exact ih
      · have := DaoCore.does_me (DaoCore.step_does hc)
        simp only at this
        rw [hpa, this]; exact ih
    | core c =>
      obtain ⟨hn, hc, _, _, hpa, _⟩ := core_effect (V := V) (decode := decode) hs
      have := DaoCore.does_me (DaoCore.step_does hc)
      simp only at this
      rw [hpa, this]; exact ih

theorem sum_same {l m : List Addr} (hl : l.Nodup) (hm : m.Nodup) (h : ∀ a, a ∈ l ↔ a ∈ m) (f : Addr → Nat) :
    (l.map f).sum = (m.map f).sum :=
  ((List.perm_ext_iff_of_nodup hl hm).2 h |>.map f).sum_nat

/-- The DAO takes the messages of an enabled proposal module unless it is paused. -/
theorem hook_accepted {c : DaoCore.World} {e : Env} {pa : Addr} {msgs : List DaoCore.CosmosMsg} (hne : pa ≠ c.core.me)
    (hp : DaoCore.isPaused c.core e.block = false) (hen : DaoCore.Enabled c.core pa) :
    DaoCore.step c (coreEnv e) (.call pa (.executeProposalHook msgs)) =
      .ok (⟨c.core, msgs.map .send ++ c.stack⟩, msgs.map .send) := by
  obtain ⟨m, hm, hen⟩ := hen
  simp only [DaoCore.step, DaoCore.execute, DaoCore.dispatch, DaoCore.proposalHook, coreEnv, hp, hm, hen, orErr,
    require, hne, ne_eq, not_false_eq_true, decide_true, if_true, Bool.not_false, Bool.true_or, ok_bind]

/-- **C80.** What the members have decided for is carried out: anybody (with members-only execution, any member) can
execute the proposal in any later block, and the DAO then has to send exactly its messages, in order, before anything
else. The DAO must not be paused and its module must still be enabled, and there is no veto. -/
theorem C80_carried_out (hV : Lawful V) {w : World S} {b : Block} {log : List (Event S E C)}
    (h : (sys V decode).Reach w b log) (hst : Steady log)
    (hnow : w.core.core.voting = some w.voteAddr ∧ w.prop.config.dao = w.core.core.me)
    {id : Nat} {p : Single.Proposal} (hp : w.prop.proposals.get id = some p)
    (hopen : p.status = .opened ∨ p.status = .passed) (hveto : p.veto = none) {e : Env}
    (hdec : Decided V log w.vote e.block id p)
    (hmem : w.prop.config.onlyMembersExecute = true → V.power w.vote e.sender p.startHeight ≠ 0)
    (hpause : DaoCore.isPaused w.core.core e.block = false) (hen : DaoCore.Enabled w.core.core w.propAddr) :
    ∃ w' out, (sys V decode).step w e (.prop (.execute id false)) = .ok (w', out) ∧
      out.core = p.msgs.map (fun n => .send (decode n)) ∧ w'.core.stack = out.core ++ w.core.stack := by
  obtain ⟨bp, l, _, hrl, hll, hpl⟩ := prop_stable hV h hst
  obtain ⟨ht, hv⟩ := Single.C07_tally_is_last_votes hrl hpl hp
  have hs := Single.sane_prop (Single.inv_reach hrl) (Single.powInv_reach hrl hpl) hpl.bounded hp
  have hwired : Wired w w.prop.config.dao := ⟨hnow.2, hnow.1⟩
  have hcur : p.currentStatus e.block = .ok .passed := by
    rcases hopen with ho | ho
    · obtain ⟨hm1, hm2, yes, no, abstain, ⟨hy1, hy2⟩, ⟨hn1, hn2⟩, ⟨ha1, ha2⟩, hsp⟩ := hdec
      have same : ∀ (v : Vote) (m : List Addr), m.Nodup → (∀ a, a ∈ m ↔ lastVote a id (propLog V log) = some v) →
          countOf p.votes v = powerOf V w.vote p.startHeight m := by
        intro v m hm hmm
        obtain ⟨q, hq1, hq2, hq3⟩ := hv v
        rw [hll] at hq2
        simp only [lastVote_fix] at hq2
        rw [hq3]
        exact sum_same hq1 hm (fun a => by rw [hq2, hmm]) _
      rw [← same .yes yes hy1 hy2, ← same .no no hn1 hn2, ← same .abstain abstain ha1 ha2, ← ht] at hsp
      have hpass := Single.C10_pass_complete p e.block hs.valid hs.u128 hs.fits ⟨hm1, hm2⟩ hsp
      unfold Single.Proposal.currentStatus
      rw [ho]
      simp only [hpass, ok_bind, if_true, hveto]
    · unfold Single.Proposal.currentStatus
      rw [ho]
  have hmem' : w.prop.config.onlyMembersExecute = true →
      (propEnv V w e).power w.prop.config.dao (propEnv V w e).sender p.startHeight ≠ 0 ∧
      (propEnv V w e).power w.prop.config.dao (propEnv V w e).sender p.startHeight < U128 := by
    intro ho
    simp only [propEnv, if_pos hwired]
    refine ⟨hmem ho, ?_⟩
    have := hpl.bounded p.startHeight [e.sender] (by simp)
    simp only [List.map_cons, List.map_nil, List.sum_cons, List.sum_nil, Nat.add_zero] at this
    have h2 := hs.u128
    rw [ht] at h2
    omega
  obtain ⟨s', o, hstep⟩ := Single.C61_passed_executable (env := propEnv V w e) (f := false) hp hcur hmem'
    (fun hf => by cases hf)
  obtain ⟨q, st, st', hq, _, _, _, _, _, ho, _⟩ := Single.execExecute_inv hstep
  rw [hp] at hq; injection hq with hq; subst hq
  have hno : ∀ {st st'}, ∀ m ∈ Single.statusChangedHooks w.prop.proposalHooks id st st' ++
      Single.completedHooks w.prop.policy id st', isExecuteOnDao m.msg = false := by
    intro st st' m hm
    rcases List.mem_append.1 hm with hm | hm
    · exact Single.status_not_exec m hm
    · exact Single.completed_not_exec m hm
  have hpass : ∃ c, passOn decode e w (.execute id false) o.msgs = .ok (c, p.msgs.map (fun n => .send (decode n))) ∧
      c.stack = p.msgs.map (fun n => .send (decode n)) ++ w.core.stack := by
    unfold passOn
    simp only [daoFails, Bool.false_eq_true, if_false]
    rcases ho with ⟨hmsgs, _, ho⟩ | ⟨_, _, _, rid, ho⟩
    · rw [ho, handOn_none hno, hmsgs]
      exact ⟨_, rfl, rfl⟩
    · rw [ho]
      simp only [handOn, if_pos hnow.2, hook_accepted (apart h) hpause hen, ok_bind, handOn_none hno, List.append_nil,
        List.map_map]
      exact ⟨_, rfl, rfl⟩
  obtain ⟨c, hpass, hstack⟩ := hpass
  refine ⟨{ w with prop := s', core := c }, ⟨some o, _⟩, ?_, rfl, hstack⟩
  simp only [sys, step, hstep, ok_bind, hpass]

end Verif.WholeDao
