import Verif.Props.WholeCondorcet
import Verif.Props.WholeDaoLive
/-!
# C94: what the members have decided for is carried out, and every member can vote
-/

namespace Verif.WholeCondorcet
open Verif
open Verif.Voting hiding Vote Votes
open Verif.Spec hiding StablePowers isExecuteOf isExecuteOnDao lastVote ballotCast
open Verif.Spec.WholeCondorcet Verif.Spec.Condorcet
open Verif.WholeDao (VotingModule lawful_bounded)
open Verif.Spec.WholeDao (Lawful)

variable {S E C O : Type} {V : VotingModule S E C O} {N : Now S} {decode : Nat → DaoCore.CosmosMsg}

theorem hook_accepted {c : DaoCore.World} {e : Env} {pa : Addr} {msgs : List DaoCore.CosmosMsg} (hne : pa ≠ c.core.me)
    (hp : DaoCore.isPaused c.core e.block = false) (hen : DaoCore.Enabled c.core pa) :
    DaoCore.step c (coreEnv e) (.call pa (.executeProposalHook msgs)) =
      .ok (⟨c.core, msgs.map .send ++ c.stack⟩, msgs.map .send) := by
  obtain ⟨m, hm, hen⟩ := hen
  simp only [DaoCore.step, DaoCore.execute, DaoCore.dispatch, DaoCore.proposalHook, coreEnv, hp, hm, hen, orErr,
    require, hne, ne_eq, not_false_eq_true, decide_true, if_true, Bool.not_false, Bool.true_or, ok_bind]

theorem cast_ballots (s : S) (x : Nat) (l : List (Addr × List Nat)) :
    castPower (ballots V s x l) = ((l.map Prod.fst).map (fun a => V.power s a x)).sum := by
  induction l with
  | nil => rfl
  | cons v l ih =>
    show V.power s v.1 x + castPower (ballots V s x l) = _
    rw [ih]; rfl

/-- A proposal the members have decided for is taken for passed. -/
theorem decided_passed (hV : Lawful V) {w : World S} {b b' : Block} {log : List (Event S E C)}
    (h : (sys V N decode).Reach w b log) (hst : Steady log) (hN : TotalsOfHeight V N log) {id i : Nat}
    {p : Condorcet.Proposal} {t : Condorcet.Tally} (hp : w.prop.proposals.get id = some p)
    (ht : w.prop.tallies.get id = some t) (ho : p.lastStatus = .opened) (hdec : Decided V log w.vote b' id p t i) :
    p.status t b' = .ok (.passed i) := by
  obtain ⟨bp, l, _, hrl, hb, _, htot, _⟩ := tally hV h hst hN hp ht
  have hi := Condorcet.reach_prop hrl hp ht
  have hout := hi.tally.out
  obtain ⟨hmin, _, hq, hw⟩ := hdec
  rw [Condorcet.C25_passed_iff hrl hp ht ho b' i]
  have he : t.outstanding = V.total w.vote t.startHeight - castPower (ballots V w.vote t.startHeight (votesOn id log)) := by
    rw [hb] at hout; omega
  refine ⟨hmin, ?_, ?_⟩
  · rw [pass_eq (by have := hi.tally.fits; omega) hi.tally.fits hi.quorum, hb, htot, Single.passB_of_meets hq]
  · rw [hb, he]; exact hw

/-- **C94.** What the members have decided for is carried out: every member of the time of the proposal can execute it in
any later block, and the DAO then has to send exactly the messages of the choice decided for, in order, before anything
else. The DAO must not be paused and its module must still be enabled. -/
theorem C94_carried_out (hV : Lawful V) {w : World S} {b : Block} {log : List (Event S E C)}
    (h : (sys V N decode).Reach w b log) (hst : Steady log) (hN : TotalsOfHeight V N log)
    (hnow : w.core.core.voting = some w.voteAddr)
    {id i : Nat} {p : Condorcet.Proposal} {t : Condorcet.Tally} (hp : w.prop.proposals.get id = some p)
    (ht : w.prop.tallies.get id = some t) (hopen : p.lastStatus = .opened) {e : Env}
    (hdec : Decided V log w.vote e.block id p t i) (hmem : V.power w.vote e.sender t.startHeight ≠ 0)
    (hpause : DaoCore.isPaused w.core.core e.block = false) (hen : DaoCore.Enabled w.core.core w.propAddr) :
    ∃ msgs w' out, p.choices[i]? = some msgs ∧ (sys V N decode).step w e (.prop (.execute id false)) = .ok (w', out) ∧
      out.core = msgs.map (fun n => .send (decode n)) ∧ w'.core.stack = out.core ++ w.core.stack := by
  obtain ⟨bp, l, _, hrl, _, _, htot, _⟩ := tally hV h hst hN hp ht
  have hpass := decided_passed hV h hst hN hp ht hopen hdec
  obtain ⟨hdao, hne⟩ := belongs h
  have hwired : Wired w w.prop.dao := ⟨hdao, hnow⟩
  have hpow : (propEnv V N w e).power w.prop.dao (propEnv V N w e).sender t.startHeight =
      V.power w.vote e.sender t.startHeight := by simp only [propEnv, if_pos hwired]
  have hu : V.power w.vote e.sender t.startHeight < U128 := by
    obtain ⟨lv, bv, hv, _⟩ := vote_reach h
    have := lawful_bounded hV hv t.startHeight [e.sender] (by simp)
    simp only [List.map_cons, List.map_nil, List.sum_cons, List.sum_nil, Nat.add_zero] at this
    have h2 := (Condorcet.reach_prop hrl hp ht).tally.fits
    rw [htot] at h2
    omega
  obtain ⟨s', o, hstep⟩ := Condorcet.C61_passed_executable hrl hp ht (env := propEnv V N w e) (f := false) (w := i)
    hpass (by rw [hpow]; exact hmem) (by rw [hpow]; exact hu) (fun hf => by cases hf)
  have hstep' := hstep
  simp only [Condorcet.step] at hstep'
  obtain ⟨t', p', i', msgs, _, ht', hp', _, hpass', hm, _, _, rfl⟩ := Condorcet.execute_inv hstep'
  rw [hp] at hp'; injection hp' with hp'; subst hp'
  rw [ht] at ht'; injection ht' with ht'; subst ht'
  have hpass'' : p.status t e.block = .ok (.passed i') := hpass'
  rw [hpass] at hpass''
  injection hpass'' with hx; injection hx with hx; subst hx
  refine ⟨msgs, { w with prop := s', core := ⟨w.core.core, (msgs.map decode).map .send ++ w.core.stack⟩ },
    ⟨some { toDao := some (w.prop.dao, msgs) }, (msgs.map decode).map .send⟩, hm, ?_, by simp only [List.map_map]; rfl, rfl⟩
  simp only [sys, step, hstep, ok_bind, passOn, daoFails, Bool.false_eq_true, if_false, handOn, if_pos hdao,
    hook_accepted hne hpause hen]

/-- **C94.** Every member of the time of the proposal who has not voted yet can cast any ranking of all its choices until
the voting period ends, whatever the others have done. -/
theorem C94_vote_accepted (hV : Lawful V) {w : World S} {b : Block} {log : List (Event S E C)}
    (h : (sys V N decode).Reach w b log) (hst : Steady log) (hN : TotalsOfHeight V N log)
    (hnow : w.core.core.voting = some w.voteAddr)
    {id : Nat} {p : Condorcet.Proposal} {t : Condorcet.Tally} (hp : w.prop.proposals.get id = some p)
    (ht : w.prop.tallies.get id = some t) {e : Env} {r : List Nat} (hr : IsRanking p.choices.length r)
    (hopen : t.expiration.isExpired e.block = false) (hmem : V.power w.vote e.sender t.startHeight ≠ 0)
    (hnew : e.sender ∉ (votesOn id log).map Prod.fst) :
    ∃ w' out, (sys V N decode).step w e (.prop (.vote id r)) = .ok (w', out) ∧ w'.core = w.core := by
  obtain ⟨bp, l, _, hrl, hb, hvo, htot, hnd⟩ := tally hV h hst hN hp ht
  obtain ⟨hdao, hne⟩ := belongs h
  have hwired : Wired w w.prop.dao := ⟨hdao, hnow⟩
  have hpow : (propEnv V N w e).power w.prop.dao (propEnv V N w e).sender t.startHeight =
      V.power w.vote e.sender t.startHeight := by simp only [propEnv, if_pos hwired]
  obtain ⟨lv, bv, hv, _⟩ := vote_reach h
  have hle := lawful_bounded hV hv t.startHeight (e.sender :: (votesOn id log).map Prod.fst) (List.nodup_cons.2 ⟨hnew, hnd⟩)
  rw [List.map_cons, List.sum_cons, ← cast_ballots] at hle
  obtain ⟨s', o, hstep⟩ := Condorcet.C61_vote_accepted hrl hp ht (env := propEnv V N w e) (r := r) hopen hr
    (by rw [hvo]; exact hnew) (by rw [hpow]; exact hmem) (by rw [hpow, hb, htot]; exact hle)
  have hnone := Condorcet.C25_only_execute_sends hstep (fun _ _ hc => by cases hc)
  refine ⟨{ w with prop := s', core := w.core }, ⟨some o, []⟩, ?_, rfl⟩
  simp only [sys, step, hstep, ok_bind, passOn, daoFails, Bool.false_eq_true, if_false, hnone, handOn]

end Verif.WholeCondorcet
