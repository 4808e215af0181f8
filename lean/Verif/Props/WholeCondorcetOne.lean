import Verif.Props.WholeCondorcetLive
/-!
# C94, C105: one proposal at a time

The theorems of C94 suppose of the history so far that every proposal was recorded with the total power of its block.
Here the same is supposed of the one proposal in question only, so that nothing that happened to other proposals matters.
-/

namespace Verif.WholeCondorcet
open Verif
open Verif.Voting hiding Vote Votes
open Verif.Spec hiding StablePowers isExecuteOf isExecuteOnDao lastVote ballotCast
open Verif.Spec.WholeCondorcet Verif.Spec.Condorcet
open Verif.WholeDao (VotingModule lawful_bounded)
open Verif.Spec.WholeDao (Lawful)

variable {S E C O : Type} {V : VotingModule S E C O} {N : Now S} {decode : Nat → DaoCore.CosmosMsg}

/-- The same call with powers taken from `P`. -/
def fixPow (P : Addr → Nat → Nat) (e : Condorcet.Event) : Condorcet.Event :=
  ⟨e.pre, { e.env with power := fun _ => P }, e.call, e.out, e.post⟩

theorem rankings_pow {P : Addr → Nat → Nat} {id : Nat} {l : List Condorcet.Event} :
    rankings id (l.map (fixPow P)) = rankings id l := by
  induction l with
  | nil => rfl
  | cons e l ih => simp only [List.map_cons, rankings, ih]; rfl

theorem powers_reach {w : World S} {b : Block}
    {log : List (Event S E C)} (h : (sys V N decode).Reach w b log) (hst : Steady log) {P : Addr → Nat → Nat}
    (hA : ∀ ev ∈ log, ∀ x, x ≤ ev.env.block.height → (∀ a, P a x = V.power ev.pre.vote a x)) :
    ∃ b1, b1.le b ∧ Condorcet.Reach w.prop b1 ((propLog V N log).map (fixPow P)) := by
  obtain ⟨b0, w0, hi, hr⟩ := h
  have hi' := hi
  obtain ⟨_, _, _, env0, c0, hb0, _, hi'⟩ := hi'
  induction hr with
  | refl => exact ⟨b0, Block.le_refl _, env0, c0, _, hi', by rw [hb0]; exact .refl⟩
  | @step s1 s2 b3 log env call out hr hb3 hs ih =>
    obtain ⟨b1, hb1, env1, c1, s0, h1, h2⟩ := ih (fun e he => hst e (List.mem_cons_of_mem _ he))
      (fun e he => hA e (List.mem_cons_of_mem _ he))
    cases call with
    | core c =>
      obtain ⟨_, _, hw, _⟩ := core_effect (V := V) (N := N) (decode := decode) hs
      rw [hw]
      exact ⟨b1, Block.le_trans hb1 hb3, env1, c1, s0, h1, h2⟩
    | vote ve c =>
      obtain ⟨_, _, hw, _⟩ := vote_effect (N := N) (decode := decode) hs
      rw [hw]
      exact ⟨b1, Block.le_trans hb1 hb3, env1, c1, s0, h1, h2⟩
    | prop c =>
      obtain ⟨⟨o, ho, hp⟩, _⟩ := prop_effect (decode := decode) hs
      have hw1 := hst _ (List.mem_cons_self)
      have hag := hA _ (List.mem_cons_self)
      simp only at hw1 hag
      have hwired : Wired s1 s1.prop.dao := ⟨(belongs ⟨b0, w0, hi, hr⟩).1, hw1⟩
      have hle : b1.le env.block := Block.le_trans hb1 hb3
      have hstarted := started ⟨env1, c1, s0, h1, h2⟩
      have hstep : Condorcet.step s1.prop { propEnv V N s1 env with power := fun _ => P } c = .ok (s2.prop, o) := by
        rw [← hp]
        refine step_congr (env := propEnv V N s1 env) (P := fun _ => P) (T := (propEnv V N s1 env).totalNow) ?_ ?_ c ?_
        · intro a x hx
          simp only [propEnv, if_pos hwired]
          exact hag x hx a
        · intro id p hg
          exact Nat.le_trans (hstarted id p hg) hle.1
        · intro _; rfl
      refine ⟨env.block, Block.le_refl _, env1, c1, s0, h1, ?_⟩
      rw [prop_cons ho]
      exact .step h2 hle hstep

/-- A proposal in terms of the votes and the powers. -/
theorem tally_one {w : World S} {b : Block} {log : List (Event S E C)} (hV : Lawful V)
    (h : (sys V N decode).Reach w b log) (hst : Steady log) {id : Nat}
    {t : Condorcet.Tally} (ht : w.prop.tallies.get id = some t) :
    ∃ bp l, bp.le b ∧ Condorcet.Reach w.prop bp l ∧
      ballotsOn id l = ballots V w.vote t.startHeight (votesOn id log) ∧ votersOn id l = (votesOn id log).map Prod.fst ∧
      ((votesOn id log).map Prod.fst).Nodup := by
  obtain ⟨bp, hb, hrl⟩ := powers_reach (P := V.power w.vote) h hst
    (fun ev hev x hx => (vote_agree hV h ev hev x hx).1)
  obtain ⟨b0, w0, hi, hr⟩ := h
  have hrk : rankings id ((propLog V N log).map (fixPow (V.power w.vote))) = votesOn id log := by
    rw [rankings_pow, votes_log hr]
  have hP : ∀ e ∈ (propLog V N log).map (fixPow (V.power w.vote)), ∀ d a x, e.env.power d a x = V.power w.vote a x := by
    intro e he d a x
    obtain ⟨e', _, rfl⟩ := List.mem_map.1 he
    rfl
  refine ⟨bp, _, hb, hrl, ?_, ?_, ?_⟩
  · rw [ballots_eq hrl hP id t ht, hrk]; rfl
  · rw [← rankings_voters, hrk]
  · rw [← hrk, rankings_voters]; exact (Condorcet.inv_reach hrl).once id

/-- **C94.** A proposal the contract takes for passed is one the members have decided for. -/
theorem C94_passed_decided_one (hV : Lawful V) {w : World S} {b b' : Block} {log : List (Event S E C)}
    (h : (sys V N decode).Reach w b log) (hst : Steady log) {id i : Nat}
    {p : Condorcet.Proposal} {t : Condorcet.Tally} (hp : w.prop.proposals.get id = some p)
    (ht : w.prop.tallies.get id = some t) (htot : p.totalPower = V.total w.vote t.startHeight) (hpass : p.status t b' = .ok (.passed i)) (h9 : NineDec p.quorum) :
    Decided V log w.vote b' id p t i := by
  obtain ⟨bp, l, _, hrl, hb, _, hnd⟩ := tally_one hV h hst ht
  have hi := Condorcet.reach_prop hrl hp ht
  obtain ⟨ho, hmin, hq, _⟩ := Condorcet.status_passed hi hpass
  obtain ⟨_, _, hw⟩ := (Condorcet.C25_passed_iff hrl hp ht ho b' i).1 hpass
  have hout := hi.tally.out
  rw [hb, htot] at hq
  rw [hb] at hw hout
  refine ⟨min_iff.1 hmin, hnd, Single.meets_of_passB h9 hq, ?_⟩
  have he : t.outstanding = V.total w.vote t.startHeight - castPower (ballots V w.vote t.startHeight (votesOn id log)) := by
    omega
  rw [he] at hw
  exact hw

/-- A proposal the members have decided for is taken for passed. -/
theorem decided_passed_one (hV : Lawful V) {w : World S} {b b' : Block} {log : List (Event S E C)}
    (h : (sys V N decode).Reach w b log) (hst : Steady log) {id i : Nat}
    {p : Condorcet.Proposal} {t : Condorcet.Tally} (hp : w.prop.proposals.get id = some p)
    (ht : w.prop.tallies.get id = some t) (htot : p.totalPower = V.total w.vote t.startHeight) (ho : p.lastStatus = .opened) (hdec : Decided V log w.vote b' id p t i) :
    p.status t b' = .ok (.passed i) := by
  obtain ⟨bp, l, _, hrl, hb, _, _⟩ := tally_one hV h hst ht
  have hi := Condorcet.reach_prop hrl hp ht
  have hout := hi.tally.out
  obtain ⟨hmin, _, hq, hw⟩ := hdec
  rw [Condorcet.C25_passed_iff hrl hp ht ho b' i]
  have he : t.outstanding = V.total w.vote t.startHeight - castPower (ballots V w.vote t.startHeight (votesOn id log)) := by
    rw [hb] at hout; omega
  refine ⟨hmin, ?_, ?_⟩
  · rw [pass_eq (by have := hi.tally.fits; omega) hi.tally.fits hi.quorum, hb, htot, Single.passB_of_meets hq]
  · rw [hb, he]; exact hw

/-- **C94.** What the members have decided for is carried out: every member of the time of the proposal can execute it in
any later block, and the DAO then has to send exactly the messages of the choice decided for, in order, before anything
else. The DAO must not be paused and its module must still be enabled. -/
theorem C94_carried_out_one (hV : Lawful V) {w : World S} {b : Block} {log : List (Event S E C)}
    (h : (sys V N decode).Reach w b log) (hst : Steady log)
    (hnow : w.core.core.voting = some w.voteAddr)
    {id i : Nat} {p : Condorcet.Proposal} {t : Condorcet.Tally} (hp : w.prop.proposals.get id = some p)
    (ht : w.prop.tallies.get id = some t) (htot : p.totalPower = V.total w.vote t.startHeight) (hopen : p.lastStatus = .opened) {e : Env}
    (hdec : Decided V log w.vote e.block id p t i) (hmem : V.power w.vote e.sender t.startHeight ≠ 0)
    (hpause : DaoCore.isPaused w.core.core e.block = false) (hen : DaoCore.Enabled w.core.core w.propAddr) :
    ∃ msgs w' out, p.choices[i]? = some msgs ∧ (sys V N decode).step w e (.prop (.execute id false)) = .ok (w', out) ∧
      out.core = msgs.map (fun n => .send (decode n)) ∧ w'.core.stack = out.core ++ w.core.stack := by
  obtain ⟨bp, l, _, hrl, _, _, _⟩ := tally_one hV h hst ht
  have hpass := decided_passed_one hV h hst hp ht htot hopen hdec
  obtain ⟨hdao, hne⟩ := belongs h
  have hwired : Wired w w.prop.dao := ⟨hdao, hnow⟩
  have hpow : (propEnv V N w e).power w.prop.dao (propEnv V N w e).sender t.startHeight =
      V.power w.vote e.sender t.startHeight := by simp only [propEnv, if_pos hwired]
  have hu : V.power w.vote e.sender t.startHeight < U128 := by
    obtain ⟨lv, bv, hv, _⟩ := vote_reach h
    have := lawful_bounded hV hv t.startHeight [e.sender] (by simp)
    simp only [List.map_cons, List.map_nil, List.sum_cons, List.sum_nil, Nat.add_zero] at this
    have h2 := (Condorcet.reach_prop hrl hp ht).tally.fits
    rw [htot] at h2
    omega
  obtain ⟨s', o, hstep⟩ := Condorcet.C61_passed_executable hrl hp ht (env := propEnv V N w e) (f := false) (w := i)
    hpass (by rw [hpow]; exact hmem) (by rw [hpow]; exact hu) (fun hf => by cases hf)
  have hstep' := hstep
  simp only [Condorcet.step] at hstep'
  obtain ⟨t', p', i', msgs, _, ht', hp', _, hpass', hm, _, _, rfl⟩ := Condorcet.execute_inv hstep'
  rw [hp] at hp'; injection hp' with hp'; subst hp'
  rw [ht] at ht'; injection ht' with ht'; subst ht'
  have hpass'' : p.status t e.block = .ok (.passed i') := hpass'
  rw [hpass] at hpass''
  injection hpass'' with hx; injection hx with hx; subst hx
  refine ⟨msgs, { w with prop := s', core := ⟨w.core.core, (msgs.map decode).map .send ++ w.core.stack⟩ },
    ⟨some { toDao := some (w.prop.dao, msgs) }, (msgs.map decode).map .send⟩, hm, ?_, by simp only [List.map_map]; rfl, rfl⟩
  simp only [sys, step, hstep, ok_bind, passOn, daoFails, Bool.false_eq_true, if_false, handOn, if_pos hdao,
    hook_accepted hne hpause hen]

/-- **C94.** Every member of the time of the proposal who has not voted yet can cast any ranking of all its choices until
the voting period ends, whatever the others have done. -/
theorem C94_vote_accepted_one (hV : Lawful V) {w : World S} {b : Block} {log : List (Event S E C)}
    (h : (sys V N decode).Reach w b log) (hst : Steady log)
    (hnow : w.core.core.voting = some w.voteAddr)
    {id : Nat} {p : Condorcet.Proposal} {t : Condorcet.Tally} (hp : w.prop.proposals.get id = some p)
    (ht : w.prop.tallies.get id = some t) (htot : p.totalPower = V.total w.vote t.startHeight) {e : Env} {r : List Nat} (hr : IsRanking p.choices.length r)
    (hopen : t.expiration.isExpired e.block = false) (hmem : V.power w.vote e.sender t.startHeight ≠ 0)
    (hnew : e.sender ∉ (votesOn id log).map Prod.fst) :
    ∃ w' out, (sys V N decode).step w e (.prop (.vote id r)) = .ok (w', out) ∧ w'.core = w.core := by
  obtain ⟨bp, l, _, hrl, hb, hvo, hnd⟩ := tally_one hV h hst ht
  obtain ⟨hdao, hne⟩ := belongs h
  have hwired : Wired w w.prop.dao := ⟨hdao, hnow⟩
  have hpow : (propEnv V N w e).power w.prop.dao (propEnv V N w e).sender t.startHeight =
      V.power w.vote e.sender t.startHeight := by simp only [propEnv, if_pos hwired]
  obtain ⟨lv, bv, hv, _⟩ := vote_reach h
  have hle := lawful_bounded hV hv t.startHeight (e.sender :: (votesOn id log).map Prod.fst) (List.nodup_cons.2 ⟨hnew, hnd⟩)
  rw [List.map_cons, List.sum_cons, ← cast_ballots] at hle
  obtain ⟨s', o, hstep⟩ := Condorcet.C61_vote_accepted hrl hp ht (env := propEnv V N w e) (r := r) hopen hr
    (by rw [hvo]; exact hnew) (by rw [hpow]; exact hmem) (by rw [hpow, hb, htot]; exact hle)
  have hnone := Condorcet.C25_only_execute_sends hstep (fun _ _ hc => by cases hc)
  refine ⟨{ w with prop := s', core := w.core }, ⟨some o, []⟩, ?_, rfl⟩
  simp only [sys, step, hstep, ok_bind, passOn, daoFails, Bool.false_eq_true, if_false, hnone, handOn]

end Verif.WholeCondorcet
