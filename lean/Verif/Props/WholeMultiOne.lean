import Verif.Props.WholeMultiLive
import Verif.Props.MultipleOne
/-!
# C81, C104: one proposal at a time

The theorems of C81 suppose of the history so far that every proposal was recorded with the total power of its block.
Here the same is supposed of the one proposal in question only, so that nothing that happened to other proposals matters.
-/

namespace Verif.WholeMulti
open Verif
open Verif.Voting hiding Vote Votes
open Verif.Spec hiding StablePowers isExecuteOf isExecuteOnDao lastVote ballotCast
open Verif.Spec.WholeMulti Verif.Spec.Multi
open Verif.Multiple (Vote)
open Verif.WholeDao (VotingModule sum_same lawful_bounded)
open Verif.Spec.WholeDao (Lawful)

variable {S E C O : Type} {V : VotingModule S E C O} {N : TotalNow S} {decode : Nat → DaoCore.CosmosMsg}

/-- The same call with powers taken from `P`. -/
def fixPow (P : Addr → Nat → Nat) (e : Multiple.Event) : Multiple.Event :=
  ⟨e.pre, { e.env with power := fun _ => P }, e.call, e.out, e.post⟩

theorem lastVote_pow {P : Addr → Nat → Nat} {a : Addr} {id : Nat} {l : List Multiple.Event} :
    lastVote a id (l.map (fixPow P)) = lastVote a id l := by
  induction l with
  | nil => rfl
  | cons e l ih => simp only [List.map_cons, lastVote, ih]; rfl

theorem powers_reach {w : World S} {b : Block}
    {log : List (Event S E C)} (h : (sys V N decode).Reach w b log) (hst : Steady log) {P : Addr → Nat → Nat}
    (hA : ∀ ev ∈ log, ∀ x, x ≤ ev.env.block.height → (∀ a, P a x = V.power ev.pre.vote a x)) :
    ∃ b1, b1.le b ∧ Multiple.Reach w.prop b1 ((propLog V N log).map (fixPow P)) := by
  obtain ⟨b0, w0, ⟨_, _, _, env0, c0, i0, out0, hb0, _, hi⟩, hr⟩ := h
  induction hr with
  | refl => exact ⟨b0, Block.le_refl _, env0, c0, i0, _, out0, hi, by rw [hb0]; exact .refl⟩
  | @step s1 s2 b3 log env call out hr hb3 hs ih =>
    obtain ⟨b1, hb1, env1, c1, i1, s0, o1, h1, h2⟩ := ih (fun e he => hst e (List.mem_cons_of_mem _ he))
      (fun e he => hA e (List.mem_cons_of_mem _ he))
    cases call with
    | core c =>
      obtain ⟨_, _, hw, _⟩ := core_effect (V := V) (N := N) (decode := decode) hs
      rw [hw]
      exact ⟨b1, Block.le_trans hb1 hb3, env1, c1, i1, s0, o1, h1, h2⟩
    | vote ve c =>
      obtain ⟨_, _, hw, _⟩ := vote_effect (N := N) (decode := decode) hs
      rw [hw]
      exact ⟨b1, Block.le_trans hb1 hb3, env1, c1, i1, s0, o1, h1, h2⟩
    | prop c =>
      obtain ⟨⟨o, ho, hp⟩, _⟩ := prop_effect (decode := decode) hs
      obtain ⟨hw1, hw2⟩ := hst _ (List.mem_cons_self)
      have hag := hA _ (List.mem_cons_self)
      simp only at hw1 hw2 hag
      have hwired : Wired s1 s1.prop.config.dao := ⟨hw2, hw1⟩
      have hle : b1.le env.block := Block.le_trans hb1 hb3
      have hstarted := started ⟨env1, c1, i1, s0, o1, h1, h2⟩
      have hstep : Multiple.step s1.prop { propEnv V N s1 env with power := fun _ => P } c = .ok (s2.prop, o) := by
        rw [← hp]
        refine step_congr (env := propEnv V N s1 env) (P := fun _ => P) (T := (propEnv V N s1 env).totalNow) ?_ ?_ c ?_
        · intro a x hx
          simp only [propEnv, if_pos hwired]
          exact hag x hx a
        · intro id p hg
          exact Nat.le_trans (hstarted id p hg) hle.1
        · intro _; rfl
      refine ⟨env.block, Block.le_refl _, env1, c1, i1, s0, o1, h1, ?_⟩
      have he : propLog V N ((⟨s1, env, .prop c, out, s2⟩ : Event S E C) :: log) =
          ⟨s1.prop, propEnv V N s1 env, c, o, s2.prop⟩ :: propLog V N log := by
        simp only [propLog, ho]
      rw [he]
      exact .step h2 hle hstep

/-- The history of the proposal module in which all powers are those of the voting module at the end. -/
theorem prop_one (hV : Lawful V) {w : World S} {b : Block} {log : List (Event S E C)}
    (h : (sys V N decode).Reach w b log) (hst : Steady log) :
    ∃ b1 l, b1.le b ∧ Multiple.Reach w.prop b1 l ∧ l = (propLog V N log).map (fixPow (V.power w.vote)) ∧
      (∀ e ∈ l, ∀ a x, e.env.power e.pre.config.dao a x = V.power w.vote a x) ∧
      ∀ x (L : List Addr), L.Nodup → (L.map (fun a => V.power w.vote a x)).sum ≤ V.total w.vote x := by
  obtain ⟨b1, hb, hr⟩ := powers_reach (P := V.power w.vote) h hst (fun ev hev x hx => (vote_agree hV h ev hev x hx).1)
  obtain ⟨l, b2, hv, _⟩ := vote_reach h
  refine ⟨b1, _, hb, hr, rfl, ?_, fun x L hL => lawful_bounded hV hv x L hL⟩
  intro e he a x
  obtain ⟨e', _, rfl⟩ := List.mem_map.1 he
  rfl

/-- The tally of a proposal in terms of the last votes and the powers. -/
theorem tally_one {w : World S} {b : Block} {log : List (Event S E C)} (hV : Lawful V)
    (h : (sys V N decode).Reach w b log) (hst : Steady log) {id : Nat} {p : Multiple.Proposal}
    (hp : w.prop.proposals.get id = some p) (htot : p.totalPower = V.total w.vote p.startHeight) :
    p.Sane ∧ ∃ voters : Nat → List Addr,
      (∀ j, (voters j).Nodup ∧ ∀ a, a ∈ voters j ↔ Multi.lastVote a id (propLog V N log) = some j) ∧
      (∀ j, weight p.votes j = powerOf V w.vote p.startHeight (voters j)) := by
  obtain ⟨bp, l, _, hrl, hll, hpl, hbd⟩ := prop_one hV h hst
  have hv := Multiple.C07_tally_is_last_votes_one hrl hpl hp
  rw [hll] at hv
  simp only [lastVote_pow] at hv
  have hs := Multiple.sane_one (Multiple.inv_reach hrl) (Multiple.balInv_reach hrl hpl) hbd hp htot
  refine ⟨hs, fun j => Classical.choose (hv j), fun j => ?_, fun j => (Classical.choose_spec (hv j)).2.2⟩
  exact ⟨(Classical.choose_spec (hv j)).1, (Classical.choose_spec (hv j)).2.1⟩

/-- **C81.** A proposal the contract takes for passed is one the members have decided for. -/
theorem C81_passed_decided_one (hV : Lawful V) {w : World S} {b b' : Block} {log : List (Event S E C)}
    (h : (sys V N decode).Reach w b log) (hst : Steady log) {id : Nat} {p : Multiple.Proposal}
    (hp : w.prop.proposals.get id = some p)
    (htot : p.totalPower = V.total w.vote p.startHeight) (hpass : p.isPassed b' = .ok true) :
    ∃ i c, p.choices[i]? = some c ∧ Multiple.winningMsgs p = .ok c.msgs ∧
      (NineDec p.quorum → Decided V N log w.vote b' id p i) := by
  obtain ⟨hs, voters, hv1, hv2⟩ := tally_one hV h hst hp htot
  have ht := htot
  obtain ⟨_, i, c, hw, hni, hc, hr⟩ := Multiple.C19_pass_needs_plurality p b' hs.valid hs.shape hs.u128 hs.fits hpass
  obtain ⟨hm1, hm2, hq, i', hw', _, hx⟩ := (Multiple.C19_pass_iff p b' hs.valid hs.shape hs.u128 hs.fits).1 hpass
  have := Multiple.strict_unique hw hw'; subst this
  have hlen := hs.shape.len
  refine ⟨i, c, hc, by simp only [Multiple.winningMsgs, hr, ok_bind], fun h9 => ⟨hm1, hm2, ?_, voters, hv1, ?_, ?_, ?_⟩⟩
  · have h1 := hw.1
    unfold IsNone at hni
    rw [← hlen] at h1 hni
    omega
  · rw [← cast_eq hs.shape hv2, ← ht]
    exact Single.meets_of_passB h9 ((quorum_iff hs).1 hq)
  · intro j hj hne
    rw [← hv2, ← hv2]
    exact hw.2 j (by rw [← hlen]; exact hj) hne
  · refine hx.imp (fun hx => hx) (fun hx j hj hne => ?_)
    rw [← cast_eq hs.shape hv2, ← ht]
    have := hx j (by rw [← hlen]; exact hj) hne
    rw [hv2, hv2] at this
    exact this

/-- A proposal the members have decided for is taken for passed, with the messages of that option. -/
theorem decided_passed_one (hV : Lawful V) {w : World S} {b b' : Block} {log : List (Event S E C)}
    (h : (sys V N decode).Reach w b log) (hst : Steady log) {id i : Nat} {p : Multiple.Proposal}
    (hp : w.prop.proposals.get id = some p)
    (htot : p.totalPower = V.total w.vote p.startHeight) (hdec : Decided V N log w.vote b' id p i) :
    p.isPassed b' = .ok true ∧ ∃ c, p.choices[i]? = some c ∧ Multiple.winningMsgs p = .ok c.msgs := by
  obtain ⟨hs, voters, hv1, hv2⟩ := tally_one hV h hst hp htot
  have ht := htot
  obtain ⟨hm1, hm2, hi, voters', hu1, hq, hlead, hx⟩ := hdec
  have same : ∀ j, powerOf V w.vote p.startHeight (voters' j) = weight p.votes j := by
    intro j
    rw [hv2]
    exact sum_same (hu1 j).1 (hv1 j).1 (fun a => by rw [(hu1 j).2, (hv1 j).2]) _
  have hlen := hs.shape.len
  have hsame : ∀ j, weight p.votes j = powerOf V w.vote p.startHeight (voters' j) := fun j => (same j).symm
  rw [← cast_eq hs.shape hsame, ← ht] at hq hx
  have hw : StrictWinner p.votes i := by
    refine ⟨by rw [← hlen]; omega, fun j hj hne => ?_⟩
    rw [hsame, hsame]
    exact hlead j (by rw [hlen]; exact hj) hne
  have hnn : ¬ IsNone p i := by
    unfold IsNone; rw [← hlen]; omega
  have hpass : p.isPassed b' = .ok true := by
    refine (Multiple.C19_pass_iff p b' hs.valid hs.shape hs.u128 hs.fits).2 ⟨hm1, hm2, (quorum_iff hs).2
      (Single.passB_of_meets hq), i, hw, hnn, hx.imp (fun h => h) (fun hx j hj hne => ?_)⟩
    have := hx j (by rw [hlen]; exact hj) hne
    rw [same, same] at this
    exact this
  refine ⟨hpass, ?_⟩
  obtain ⟨_, i', c, hw', _, hc, hr⟩ := Multiple.C19_pass_needs_plurality p b' hs.valid hs.shape hs.u128 hs.fits hpass
  have := Multiple.strict_unique hw hw'; subst this
  exact ⟨c, hc, by simp only [Multiple.winningMsgs, hr, ok_bind]⟩

/-- **C81.** What the members have decided for is carried out: anybody (with members-only execution, any member) can
execute the proposal in any later block, and the DAO then has to send exactly the messages of the option decided for,
in order, before anything else. The DAO must not be paused and its module must still be enabled, and there is no
veto. -/
theorem C81_carried_out_one (hV : Lawful V) {w : World S} {b : Block} {log : List (Event S E C)}
    (h : (sys V N decode).Reach w b log) (hst : Steady log)
    (hnow : w.core.core.voting = some w.voteAddr ∧ w.prop.config.dao = w.core.core.me)
    {id i : Nat} {p : Multiple.Proposal} (hp : w.prop.proposals.get id = some p)
    (htot : p.totalPower = V.total w.vote p.startHeight)
    (hopen : p.status = .opened ∨ p.status = .passed) (hveto : p.veto = none) {e : Env}
    (hdec : Decided V N log w.vote e.block id p i)
    (hmem : w.prop.config.onlyMembersExecute = true → V.power w.vote e.sender p.startHeight ≠ 0)
    (hpause : DaoCore.isPaused w.core.core e.block = false) (hen : DaoCore.Enabled w.core.core w.propAddr) :
    ∃ c w' out, p.choices[i]? = some c ∧ (sys V N decode).step w e (.prop (.execute id false)) = .ok (w', out) ∧
      out.core = c.msgs.map (fun n => .send (decode n)) ∧ w'.core.stack = out.core ++ w.core.stack := by
  obtain ⟨bp, l, _, hrl, hll, hpl, hbd⟩ := prop_one hV h hst
  obtain ⟨hs, _⟩ := tally_one hV h hst hp htot
  have ht := htot
  obtain ⟨hpass, ch, hch, hwm⟩ := decided_passed_one hV h hst hp htot hdec
  have hwired : Wired w w.prop.config.dao := ⟨hnow.2, hnow.1⟩
  have hcur : p.currentStatus e.block = .ok .passed := by
    unfold Multiple.Proposal.currentStatus
    rcases hopen with ho | ho
    · rw [ho]
      simp only [hpass, ok_bind, if_true, hveto]
    · rw [ho]
  have hmem' : w.prop.config.onlyMembersExecute = true →
      (propEnv V N w e).power w.prop.config.dao (propEnv V N w e).sender p.startHeight ≠ 0 ∧
      (propEnv V N w e).power w.prop.config.dao (propEnv V N w e).sender p.startHeight < U128 := by
    intro ho
    simp only [propEnv, if_pos hwired]
    refine ⟨hmem ho, ?_⟩
    have := hbd p.startHeight [e.sender] (by simp)
    simp only [List.map_cons, List.map_nil, List.sum_cons, List.sum_nil, Nat.add_zero] at this
    have h2 := hs.u128
    rw [ht] at h2
    omega
  obtain ⟨s', o, hstep⟩ := Multiple.C61_passed_executable_given_winner (env := propEnv V N w e) (f := false) hp hcur ⟨_, hwm⟩
    hmem' (fun hf => by cases hf)
  obtain ⟨q, st, st', ms, hq, _, hwm', _, _, _, _, ho, _⟩ := Multiple.execExecute_inv hstep
  rw [hp] at hq; injection hq with hq; subst hq
  rw [hwm] at hwm'; injection hwm' with hwm'; subst hwm'
  have hno : ∀ {st st'}, ∀ m ∈ Multiple.statusChangedHooks w.prop.proposalHooks id st st' ++
      Multiple.completedHooks w.prop.policy id st', isExecuteOnDao m.msg = false := by
    intro st st' m hm
    rcases List.mem_append.1 hm with hm | hm
    · exact Multiple.status_not_exec m hm
    · exact Multiple.completed_not_exec m hm
  have hpass : ∃ c, passOn decode e w (.execute id false) o.msgs = .ok (c, ch.msgs.map (fun n => .send (decode n))) ∧
      c.stack = ch.msgs.map (fun n => .send (decode n)) ++ w.core.stack := by
    unfold passOn
    simp only [daoFails, Bool.false_eq_true, if_false]
    rcases ho with ⟨hmsgs, _, ho⟩ | ⟨_, _, _, rid, ho⟩
    · rw [ho, handOn_none hno, hmsgs]
      exact ⟨_, rfl, rfl⟩
    · rw [ho]
      simp only [handOn, if_pos hnow.2, hook_accepted (apart h) hpause hen, ok_bind, handOn_none hno, List.append_nil,
        List.map_map]
      exact ⟨_, rfl, rfl⟩
  obtain ⟨c, hpass, hstack⟩ := hpass
  refine ⟨ch, { w with prop := s', core := c }, ⟨some o, _⟩, hch, ?_, rfl, hstack⟩
  simp only [sys, step, hstep, ok_bind, hpass]

end Verif.WholeMulti
