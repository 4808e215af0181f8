import Verif.Props.WholeMulti
import Verif.Props.WholeDaoLive
import Verif.Props.MultipleLive
/-!
# C81: what the members have decided for is carried out
-/

namespace Verif.WholeMulti
open Verif
open Verif.Voting hiding Vote Votes
open Verif.Spec hiding StablePowers isExecuteOf isExecuteOnDao lastVote ballotCast
open Verif.Spec.WholeMulti Verif.Spec.Multi
open Verif.Multiple (Vote)
open Verif.WholeDao (VotingModule sum_same)
open Verif.Spec.WholeDao (Lawful)

variable {S E C O : Type} {V : VotingModule S E C O} {N : TotalNow S} {decode : Nat → DaoCore.CosmosMsg}

/-- The proposal module is another contract than the DAO. -/
theorem apart {w : World S} {b : Block} {log : List (Event S E C)} (h : (sys V N decode).Reach w b log) :
    w.propAddr ≠ w.core.core.me := by
  obtain ⟨b0, w0, hi, hr⟩ := h
  induction hr with
  | refl => exact hi.1
  | @step s1 s2 b3 log env call out hr hb3 hs ih =>
    cases call with
    | vote ve c =>
      obtain ⟨_, _, _, hw, hpa, _⟩ := vote_effect (N := N) (decode := decode) hs
      rw [hw, hpa]; exact ih
    | prop c =>
      obtain ⟨_, _, hpa, _, he⟩ := prop_effect (decode := decode) hs
      rcases he with ⟨he, _⟩ | ⟨id, p, ms, rfl, hg, hwm, hc⟩
      · rw [hpa, he]; exact ih
      · have := DaoCore.does_me (DaoCore.step_does hc)
        simp only at this
        rw [hpa, this]; exact ih
    | core c =>
      obtain ⟨hn, hc, _, _, hpa, _⟩ := core_effect (V := V) (N := N) (decode := decode) hs
      have := DaoCore.does_me (DaoCore.step_does hc)
      simp only at this
      rw [hpa, this]; exact ih

theorem hook_accepted {c : DaoCore.World} {e : Env} {pa : Addr} {msgs : List DaoCore.CosmosMsg} (hne : pa ≠ c.core.me)
    (hp : DaoCore.isPaused c.core e.block = false) (hen : DaoCore.Enabled c.core pa) :
    DaoCore.step c (coreEnv e) (.call pa (.executeProposalHook msgs)) =
      .ok (⟨c.core, msgs.map .send ++ c.stack⟩, msgs.map .send) := by
  obtain ⟨m, hm, hen⟩ := hen
  simp only [DaoCore.step, DaoCore.execute, DaoCore.dispatch, DaoCore.proposalHook, coreEnv, hp, hm, hen, orErr,
    require, hne, ne_eq, not_false_eq_true, decide_true, if_true, Bool.not_false, Bool.true_or, ok_bind]

/-- A proposal the members have decided for is taken for passed, with the messages of that option. -/
theorem decided_passed (hV : Lawful V) {w : World S} {b b' : Block} {log : List (Event S E C)}
    (h : (sys V N decode).Reach w b log) (hst : Steady log) (hN : TotalsOfHeight V N log) {id i : Nat} {p : Multiple.Proposal}
    (hp : w.prop.proposals.get id = some p) (hdec : Decided V N log w.vote b' id p i) :
    p.isPassed b' = .ok true ∧ ∃ c, p.choices[i]? = some c ∧ Multiple.winningMsgs p = .ok c.msgs := by
  obtain ⟨hs, ht, voters, hv1, hv2⟩ := tally hV h hst hN hp
  obtain ⟨hm1, hm2, hi, voters', hu1, hq, hlead, hx⟩ := hdec
  have same : ∀ j, powerOf V w.vote p.startHeight (voters' j) = weight p.votes j := by
    intro j
    rw [hv2]
    exact sum_same (hu1 j).1 (hv1 j).1 (fun a => by rw [(hu1 j).2, (hv1 j).2]) _
  have hlen := hs.shape.len
  have hsame : ∀ j, weight p.votes j = powerOf V w.vote p.startHeight (voters' j) := fun j => (same j).symm
  rw [← cast_eq hs.shape hsame, ← ht] at hq hx
  have hw : StrictWinner p.votes i := by
    refine ⟨by rw [← hlen]; omega, fun j hj hne => ?_⟩
    rw [hsame, hsame]
    exact hlead j (by rw [hlen]; exact hj) hne
  have hnn : ¬ IsNone p i := by
    unfold IsNone; rw [← hlen]; omega
  have hpass : p.isPassed b' = .ok true := by
    refine (Multiple.C19_pass_iff p b' hs.valid hs.shape hs.u128 hs.fits).2 ⟨hm1, hm2, (quorum_iff hs).2
      (Single.passB_of_meets hq), i, hw, hnn, hx.imp (fun h => h) (fun hx j hj hne => ?_)⟩
    have := hx j (by rw [hlen]; exact hj) hne
    rw [same, same] at this
    exact this
  refine ⟨hpass, ?_⟩
  obtain ⟨_, i', c, hw', _, hc, hr⟩ := Multiple.C19_pass_needs_plurality p b' hs.valid hs.shape hs.u128 hs.fits hpass
  have := Multiple.strict_unique hw hw'; subst this
  exact ⟨c, hc, by simp only [Multiple.winningMsgs, hr, ok_bind]⟩

/-- **C81.** What the members have decided for is carried out: anybody (with members-only execution, any member) can
execute the proposal in any later block, and the DAO then has to send exactly the messages of the option decided for,
in order, before anything else. The DAO must not be paused and its module must still be enabled, and there is no
veto. -/
theorem C81_carried_out (hV : Lawful V) {w : World S} {b : Block} {log : List (Event S E C)}
    (h : (sys V N decode).Reach w b log) (hst : Steady log) (hN : TotalsOfHeight V N log)
    (hnow : w.core.core.voting = some w.voteAddr ∧ w.prop.config.dao = w.core.core.me)
    {id i : Nat} {p : Multiple.Proposal} (hp : w.prop.proposals.get id = some p)
    (hopen : p.status = .opened ∨ p.status = .passed) (hveto : p.veto = none) {e : Env}
    (hdec : Decided V N log w.vote e.block id p i)
    (hmem : w.prop.config.onlyMembersExecute = true → V.power w.vote e.sender p.startHeight ≠ 0)
    (hpause : DaoCore.isPaused w.core.core e.block = false) (hen : DaoCore.Enabled w.core.core w.propAddr) :
    ∃ c w' out, p.choices[i]? = some c ∧ (sys V N decode).step w e (.prop (.execute id false)) = .ok (w', out) ∧
      out.core = c.msgs.map (fun n => .send (decode n)) ∧ w'.core.stack = out.core ++ w.core.stack := by
  obtain ⟨bp, l, _, hrl, hll, hpl⟩ := prop_stable hV h hst hN
  obtain ⟨hs, ht, _⟩ := tally hV h hst hN hp
  obtain ⟨hpass, ch, hch, hwm⟩ := decided_passed hV h hst hN hp hdec
  have hwired : Wired w w.prop.config.dao := ⟨hnow.2, hnow.1⟩
  have hcur : p.currentStatus e.block = .ok .passed := by
    unfold Multiple.Proposal.currentStatus
    rcases hopen with ho | ho
    · rw [ho]
      simp only [hpass, ok_bind, if_true, hveto]
    · rw [ho]
  have hmem' : w.prop.config.onlyMembersExecute = true →
      (propEnv V N w e).power w.prop.config.dao (propEnv V N w e).sender p.startHeight ≠ 0 ∧
      (propEnv V N w e).power w.prop.config.dao (propEnv V N w e).sender p.startHeight < U128 := by
    intro ho
    simp only [propEnv, if_pos hwired]
    refine ⟨hmem ho, ?_⟩
    have := hpl.bounded p.startHeight [e.sender] (by simp)
    simp only [List.map_cons, List.map_nil, List.sum_cons, List.sum_nil, Nat.add_zero] at this
    have h2 := hs.u128
    rw [ht] at h2
    omega
  obtain ⟨s', o, hstep⟩ := Multiple.C61_passed_executable_given_winner (env := propEnv V N w e) (f := false) hp hcur ⟨_, hwm⟩
    hmem' (fun hf => by cases hf)
  obtain ⟨q, st, st', ms, hq, _, hwm', _, _, _, _, ho, _⟩ := Multiple.execExecute_inv hstep
  rw [hp] at hq; injection hq with hq; subst hq
  rw [hwm] at hwm'; injection hwm' with hwm'; subst hwm'
  have hno : ∀ {st st'}, ∀ m ∈ Multiple.statusChangedHooks w.prop.proposalHooks id st st' ++
      Multiple.completedHooks w.prop.policy id st', isExecuteOnDao m.msg = false := by
    intro st st' m hm
    rcases List.mem_append.1 hm with hm | hm
    · exact Multiple.status_not_exec m hm
    · exact Multiple.completed_not_exec m hm
  have hpass : ∃ c, passOn decode e w (.execute id false) o.msgs = .ok (c, ch.msgs.map (fun n => .send (decode n))) ∧
      c.stack = ch.msgs.map (fun n => .send (decode n)) ++ w.core.stack := by
    unfold passOn
    simp only [daoFails, Bool.false_eq_true, if_false]
    rcases ho with ⟨hmsgs, _, ho⟩ | ⟨_, _, _, rid, ho⟩
    · rw [ho, handOn_none hno, hmsgs]
      exact ⟨_, rfl, rfl⟩
    · rw [ho]
      simp only [handOn, if_pos hnow.2, hook_accepted (apart h) hpause hen, ok_bind, handOn_none hno, List.append_nil,
        List.map_map]
      exact ⟨_, rfl, rfl⟩
  obtain ⟨c, hpass, hstack⟩ := hpass
  refine ⟨ch, { w with prop := s', core := c }, ⟨some o, _⟩, hch, ?_, rfl, hstack⟩
  simp only [sys, step, hstep, ok_bind, hpass]

end Verif.WholeMulti
