import Verif.Props.FullDao
import Verif.Props.WholeDaoLive
import Verif.Props.WholeMultiLive
import Verif.Props.WholeCondorcetLive
/-!
# C95: what the members decide in any of the proposal modules is carried out; modules do not disturb each other
-/

namespace Verif.FullDao
open Verif Verif.Voting Verif.Spec Verif.Spec.FullDao
open Verif.Spec.WholeDao (Lawful)
open Verif.WholeDao (VotingModule)
open Verif.WholeCondorcet (Now)
open Verif.Spec.DaoCore (Enabled)

variable {S E C O : Type} {V : VotingModule S E C O} {N : Now S} {decode : Nat → DaoCore.CosmosMsg}

/-- **C95.** What the members have decided in a module of dao-proposal-single is carried out: whoever may execute does so
successfully, and the DAO sends the messages of the proposal, all of them, in order, before anything else. -/
theorem C95_carried_out_single (hV : Lawful V) {w : World S} {b : Block} {log : List (Event S E C)}
    (h : (sys V N decode).Reach w b log) (hst : Steady log) {a : Addr} {s : Single.State}
    (hs : w.mods.get a = some (.single s))
    (hnow : w.core.core.voting = some w.voteAddr ∧ s.config.dao = w.core.core.me)
    {id : Nat} {p : Single.Proposal} (hp : s.proposals.get id = some p)
    (hopen : p.status = .opened ∨ p.status = .passed) (hveto : p.veto = none) {e : Env}
    (hdec : DecidedSingle V (fun x => lastSingle a id x log) w.vote e.block p)
    (hmem : s.config.onlyMembersExecute = true → V.power w.vote e.sender p.startHeight ≠ 0)
    (hpause : DaoCore.isPaused w.core.core e.block = false) (hen : Enabled w.core.core a) :
    ∃ w' out, (sys V N decode).step w e (.single a (.execute id false)) = .ok (w', out) ∧
      out.core = p.msgs.map (fun n => .send (decode n)) ∧ w'.core.stack = out.core ++ w.core.stack := by
  obtain ⟨b1, log', _, h1, h2, h3, _⟩ := project_single h hs
  have hx : (fun x => lastSingle a id x log) = (fun x => lastVote x id (Spec.WholeDao.propLog V log')) :=
    funext (fun x => (h2 id x).symm)
  rw [hx] at hdec
  obtain ⟨w', out, h4, h5, h6⟩ := WholeDao.C80_carried_out hV h1 (h3 hst) hnow hp hopen hveto (e := e.single) hdec hmem
    hpause hen
  refine ⟨{ w with core := w'.core, mods := w.mods.set a (.single w'.prop) }, Out.mk (ofSingle out.prop) out.core, ?_,
    h5, h6⟩
  show step V N decode w e (.single a (.execute id false)) = _
  simp only [step, singleAt_ok.2 hs, ok_bind]
  rw [show WholeDao.step V decode (viewSingle w a s) e.single (.prop (.execute id false)) = .ok (w', out) from h4, ok_bind]

/-- **C95.** Likewise in a module of dao-proposal-multiple. -/
theorem C95_carried_out_multi (hV : Lawful V) {w : World S} {b : Block} {log : List (Event S E C)}
    (h : (sys V N decode).Reach w b log) (hst : Steady log) (hN : TotalsOfHeight V N log) {a : Addr} {s : Multiple.State}
    (hs : w.mods.get a = some (.multi s))
    (hnow : w.core.core.voting = some w.voteAddr ∧ s.config.dao = w.core.core.me)
    {id i : Nat} {p : Multiple.Proposal} (hp : s.proposals.get id = some p)
    (hopen : p.status = .opened ∨ p.status = .passed) (hveto : p.veto = none) {e : Env}
    (hdec : DecidedMulti V (fun x => lastMulti a id x log) w.vote e.block p i)
    (hmem : s.config.onlyMembersExecute = true → V.power w.vote e.sender p.startHeight ≠ 0)
    (hpause : DaoCore.isPaused w.core.core e.block = false) (hen : Enabled w.core.core a) :
    ∃ c w' out, p.choices[i]? = some c ∧ (sys V N decode).step w e (.multi a (.execute id false)) = .ok (w', out) ∧
      out.core = c.msgs.map (fun n => .send (decode n)) ∧ w'.core.stack = out.core ++ w.core.stack := by
  obtain ⟨b1, log', _, h1, h2, h3, h3', _⟩ := project_multi h hs
  have hx : (fun x => lastMulti a id x log) = (fun x => Multi.lastVote x id (Spec.WholeMulti.propLog V N.total log')) :=
    funext (fun x => (h2 id x).symm)
  rw [hx] at hdec
  obtain ⟨c, w', out, h7, h4, h5, h6⟩ := WholeMulti.C81_carried_out hV h1 (h3 hst) (h3' hN) hnow hp hopen hveto
    (e := e.multi) hdec hmem hpause hen
  refine ⟨c, { w with core := w'.core, mods := w.mods.set a (.multi w'.prop) }, Out.mk (ofMulti out.prop) out.core, h7,
    ?_, h5, h6⟩
  show step V N decode w e (.multi a (.execute id false)) = _
  simp only [step, multiAt_ok.2 hs, ok_bind]
  rw [show WholeMulti.step V N.total decode (viewMulti w a s) e.multi (.prop (.execute id false)) = .ok (w', out) from h4,
    ok_bind]

/-- **C95.** Likewise in a module of dao-proposal-condorcet. -/
theorem C95_carried_out_condorcet (hV : Lawful V) {w : World S} {b : Block} {log : List (Event S E C)}
    (h : (sys V N decode).Reach w b log) (hst : Steady log) (hN : TotalsOfHeight V N log) {a : Addr}
    {s : Condorcet.State} (hs : w.mods.get a = some (.condorcet s)) (hnow : w.core.core.voting = some w.voteAddr)
    {id i : Nat} {p : Condorcet.Proposal} {t : Condorcet.Tally} (hp : s.proposals.get id = some p)
    (ht : s.tallies.get id = some t) (hopen : p.lastStatus = .opened) {e : Env}
    (hdec : DecidedCondorcet V (rankings a id log) w.vote e.block p t i)
    (hmem : V.power w.vote e.sender t.startHeight ≠ 0)
    (hpause : DaoCore.isPaused w.core.core e.block = false) (hen : Enabled w.core.core a) :
    ∃ msgs w' out, p.choices[i]? = some msgs ∧
      (sys V N decode).step w e (.condorcet a (.execute id false)) = .ok (w', out) ∧
      out.core = msgs.map (fun n => .send (decode n)) ∧ w'.core.stack = out.core ++ w.core.stack := by
  obtain ⟨b1, log', _, h1, h2, h3, h3', _⟩ := project_condorcet h hs
  rw [← h2 id] at hdec
  obtain ⟨msgs, w', out, h7, h4, h5, h6⟩ := WholeCondorcet.C94_carried_out hV h1 (h3 hst) (h3' hN) hnow hp ht hopen
    (e := e.condorcet) hdec hmem hpause hen
  refine ⟨msgs, { w with core := w'.core, mods := w.mods.set a (.condorcet w'.prop) },
    Out.mk (ofCondorcet out.prop) out.core, h7, ?_, h5, h6⟩
  show step V N decode w e (.condorcet a (.execute id false)) = _
  simp only [step, condorcetAt_ok.2 hs, ok_bind]
  rw [show WholeCondorcet.step V N decode (viewCondorcet w a s) e.condorcet (.prop (.execute id false)) = .ok (w', out)
    from h4, ok_bind]

/-- **C95.** Proposal modules do not disturb each other: as long as nobody calls a module, it stays as it is, and so do
the votes in it, whatever happens in the other modules, in the DAO and in the voting module. -/
theorem C95_isolated {w w' : World S} {b b' : Block} {log : List (Event S E C)} (hr : (sys V N decode).Run w b log w' b')
    {a : Addr} (hq : ∀ e ∈ log, touches a e.call = false) :
    w'.mods.get a = w.mods.get a ∧ ∀ (before : List (Event S E C)) (id : Nat),
      (∀ x, lastSingle a id x (log ++ before) = lastSingle a id x before) ∧
      (∀ x, lastMulti a id x (log ++ before) = lastMulti a id x before) ∧
      rankings a id (log ++ before) = rankings a id before := by
  induction hr with
  | refl => exact ⟨rfl, fun _ _ => ⟨fun _ => rfl, fun _ => rfl, rfl⟩⟩
  | @step s1 s2 b3 log env call out hr hb3 hs ih =>
    obtain ⟨h1, h2⟩ := ih (fun e he => hq e (List.mem_cons_of_mem _ he))
    have ht : touches a call = false := hq _ List.mem_cons_self
    have hev : touches a (⟨s1, env, call, out, s2⟩ : Event S E C).call = false := ht
    refine ⟨by rw [(effect hs).2.1 a ht, h1], fun before id => ?_⟩
    obtain ⟨h3, h4, h5⟩ := h2 before id
    refine ⟨fun x => ?_, fun x => ?_, ?_⟩
    · rw [List.cons_append, lastSingle_other hev]; exact h3 x
    · rw [List.cons_append, lastMulti_other hev]; exact h4 x
    · rw [List.cons_append, rankings_other hev]; exact h5

/-- **C95.** A module the DAO has disabled, or not enabled, has no effect: whatever anybody does in it, the DAO stays as
it is and sends nothing. -/
theorem C95_disabled {w w' : World S} {e : Env} {call : Call E C} {out : Out}
    (hs : (sys V N decode).step w e call = .ok (w', out)) {a : Addr} (ht : touches a call = true)
    (hen : ¬ Enabled w.core.core a) : w'.core = w.core ∧ out.core = [] := by
  have key : ∀ {msgs : List DaoCore.CosmosMsg} {e' : DaoCore.Env} {c : DaoCore.World} {o : List DaoCore.Sub},
      DaoCore.step w.core e' (.call a (.executeProposalHook msgs)) = .ok (c, o) → False := by
    intro msgs e' c o h
    simp only [DaoCore.step, DaoCore.execute, DaoCore.dispatch, DaoCore.proposalHook, bind_ok, require_ok, orErr_ok,
      Prod.exists] at h
    obtain ⟨_, _, s, o', ⟨_, _, m, hm, _, he, _⟩, _⟩ := h
    exact hen ⟨m, hm, he⟩
  have hs' : step V N decode w e call = .ok (w', out) := hs
  cases call with
  | core c => cases ht
  | vote ve c => cases ht
  | spawn a' k =>
    simp only [step, bind_ok, require_ok, Except.ok.injEq, Prod.mk.injEq] at hs'
    obtain ⟨_, _, _, _, _, _, rfl, rfl⟩ := hs'
    exact ⟨rfl, rfl⟩
  | single a' c =>
    obtain rfl := of_decide_eq_true ht
    obtain ⟨s, s', o, _, _, hstep, ho, _⟩ := single_effect (N := N) hs'
    obtain ⟨_, _, _, _, ⟨h3, h4⟩ | ⟨id, p, _, _, h5⟩⟩ := WholeDao.prop_effect (decode := decode) hstep
    · exact ⟨h3, by rw [ho]; exact h4⟩
    · exact (key h5).elim
  | multi a' c =>
    obtain rfl := of_decide_eq_true ht
    obtain ⟨s, s', o, _, _, hstep, ho, _⟩ := multi_effect hs'
    obtain ⟨_, _, _, _, ⟨h3, h4⟩ | ⟨id, p, ms, _, _, _, h5⟩⟩ := WholeMulti.prop_effect (decode := decode) hstep
    · exact ⟨h3, by rw [ho]; exact h4⟩
    · exact (key h5).elim
  | condorcet a' c =>
    obtain rfl := of_decide_eq_true ht
    obtain ⟨s, s', o, _, _, hstep, ho, _⟩ := condorcet_effect hs'
    obtain ⟨_, _, _, _, ⟨h3, h4⟩ | ⟨id, p, t, i, ms, _, _, _, _, _, h5⟩⟩ := WholeCondorcet.prop_effect (decode := decode) hstep
    · exact ⟨h3, by rw [ho]; exact h4⟩
    · exact (key h5).elim

end Verif.FullDao
