import Verif.Props.Federation
import Verif.Props.FullDaoLive
import Verif.Props.WholeDaoMajority
import Verif.Props.WholeMultiMajority
import Verif.Props.TreasuryLive
/-!
# C136: the vote that the members of a DAO decided on is cast in the other DAO, and counts
-/

namespace Verif.Federation
open Verif Verif.Voting Verif.Spec Verif.Spec.Federation
open Verif.Spec.FullDao (singleBallot lastSingle multiBallot lastMulti rankings Steady TotalsOfHeight)
open Verif.WholeDao (VotingModule)
open Verif.WholeCondorcet (Now)
open Verif.Spec.WholeDao (Lawful)
open Verif.Spec.Condorcet (IsRanking)
open Verif.FullDao (Env)

variable {I : Type} [DecidableEq I] [Fintype I] {T F D P : I → Type} {U : ∀ i, VotingModule (T i) (F i) (D i) (P i)}
  {N : ∀ i, Now (T i)} {decode : I → Nat → DaoCore.CosmosMsg} {r : Reading I}

/-- The next message of a DAO is carried out if the DAO it is for accepts what it says. -/
theorem fed_carried {w : World T} {e : Env} {i j : I} (hij : i ≠ j) {n : Nat} {rest : List DaoCore.Sub} {m : Order}
    (hs : (w.dao j).core.stack = .send (.other n) :: rest) (hn : r j n = some (i, m)) {q : FullDao.World (T i)} {o : FullDao.Out}
    (h : FullDao.step (U i) (N i) (decode i) (w.dao i) { e with sender := (w.dao j).core.core.me }
      (m.call (w.dao j).core.core.me) = .ok (q, o)) :
    ∃ w' out, (sys U N decode r).step w e (.pass j) = .ok (w', out) ∧ (w'.dao j).core.stack = rest ∧
      daoEvent (F := F) (D := D) r i ⟨w, e, .pass j, out, w'⟩ = some ⟨w.dao i, { e with sender := (w.dao j).core.core.me },
        m.call (w.dao j).core.core.me, out.told, w'.dao i⟩ := by
  have h1 : FullDao.step (U j) (N j) (decode j) (w.dao j) e (.core (.deliver ⟨0, []⟩)) =
      .ok ({ w.dao j with core := ⟨(w.dao j).core.core, rest⟩ }, ⟨.none, []⟩) := by
    simp only [FullDao.step, FullDao.notByModule, require, if_true, ok_bind, DaoCore.step, hs]
  have hnext : next r j (w.dao j).core.stack = some (i, m) := by rw [hs]; exact hn
  refine ⟨⟨Function.update (Function.update w.dao j { w.dao j with core := ⟨(w.dao j).core.core, rest⟩ }) i q⟩,
    ⟨⟨.none, []⟩, o⟩, ?_, ?_, ?_⟩
  · simp only [sys, step, hnext, orErr, ok_bind, hij, ne_eq, not_false_eq_true, decide_true, require, if_true, h1, h]
  · simp only [Function.update_of_ne (Ne.symm hij), Function.update_self]
  · simp only [daoEvent, if_neg (Ne.symm hij), hnext, if_true]

/-- **C136.** If the next thing DAO `j` has to send is a vote in a module of dao-proposal-single of DAO `i`, `j` had power there when
the proposal was made, the voting period is not over, and `j` has not voted yet or may change its vote and does, then the vote is
cast, and it is from then on what counts as the vote of `j`. -/
theorem C136_counts_single (hU : ∀ i, Lawful (U i)) {w0 w : World T} {b0 b : Block} {log : List (Event T F D)} (hi : Init U b0 w0)
    (h : (sys U N decode r).Run w0 b0 log w b) {i j : I} (hij : i ≠ j) (hst : Steady (daoLog r i log)) {n : Nat}
    {rest : List DaoCore.Sub} (hs : (w.dao j).core.stack = .send (.other n) :: rest) {a : Addr} {id : Nat} {v : Voting.Vote}
    {x : Option Nat} (hn : r j n = some (i, .single a (.vote id v x))) {s : Single.State}
    (hm : (w.dao i).mods.get a = some (.single s))
    (hnow : (w.dao i).core.core.voting = some (w.dao i).voteAddr ∧ s.config.dao = (w.dao i).core.core.me)
    {p : Single.Proposal} (hp : s.proposals.get id = some p) {e : Env} (hopen : p.expiration.isExpired e.block = false)
    (hpow : (U i).power (w.dao i).vote (w.dao j).core.core.me p.startHeight ≠ 0)
    (hlast : lastSingle a id (w.dao j).core.core.me (daoLog r i log) = none ∨
      (p.allowRevoting = true ∧ lastSingle a id (w.dao j).core.core.me (daoLog r i log) ≠ some v)) :
    ∃ w' out, (sys U N decode r).step w e (.pass j) = .ok (w', out) ∧ (w'.dao j).core.stack = rest ∧
      lastSingle a id (w.dao j).core.core.me (daoLog r i (⟨w, e, .pass j, out, w'⟩ :: log)) = some v := by
  obtain ⟨b1, hr, _⟩ := C136_dao h i
  obtain ⟨b2, log', _, h1, h2, h3, _⟩ := FullDao.project_single ⟨_, _, hi.1 i, hr⟩ hm
  rw [← h2] at hlast
  obtain ⟨w1, out, h4⟩ := WholeDao.C87_vote_accepted (hU i) h1 (h3 hst) hnow hp
    (e := Env.single { e with sender := (w.dao j).core.core.me }) (v := v) (r := x) hopen hpow hlast
  obtain ⟨w', o, h5, h6, h7⟩ := fed_carried (U := U) (N := N) (decode := decode) (e := e) hij hs hn
    (q := { w.dao i with core := w1.core, mods := (w.dao i).mods.set a (.single w1.prop) })
    (o := ⟨FullDao.ofSingle out.prop, out.core⟩) (by
      simp only [Order.call, FullDao.step, FullDao.singleAt_ok.2 hm, ok_bind]
      rw [show WholeDao.step (U i) (decode i) (FullDao.viewSingle (w.dao i) a s)
        (Env.single { e with sender := (w.dao j).core.core.me }) (.prop (.vote id v x)) = .ok (w1, out) from h4, ok_bind])
  refine ⟨w', o, h5, h6, ?_⟩
  simp only [daoLog, List.filterMap_cons_some h7, lastSingle, singleBallot, Order.call, hm, if_true, and_self]

/-- **C136.** The same in a module of dao-proposal-multiple. -/
theorem C136_counts_multi (hU : ∀ i, Lawful (U i)) {w0 w : World T} {b0 b : Block} {log : List (Event T F D)} (hi : Init U b0 w0)
    (h : (sys U N decode r).Run w0 b0 log w b) {i j : I} (hij : i ≠ j) (hst : Steady (daoLog r i log))
    (hN : TotalsOfHeight (U i) (N i) (daoLog r i log)) {n : Nat}
    {rest : List DaoCore.Sub} (hs : (w.dao j).core.stack = .send (.other n) :: rest) {a : Addr} {id v : Nat}
    {x : Option Nat} (hn : r j n = some (i, .multi a (.vote id v x))) {s : Multiple.State}
    (hm : (w.dao i).mods.get a = some (.multi s))
    (hnow : (w.dao i).core.core.voting = some (w.dao i).voteAddr ∧ s.config.dao = (w.dao i).core.core.me)
    {p : Multiple.Proposal} (hp : s.proposals.get id = some p) (hv : v < p.choices.length) {e : Env}
    (hopen : p.expiration.isExpired e.block = false)
    (hpow : (U i).power (w.dao i).vote (w.dao j).core.core.me p.startHeight ≠ 0)
    (hlast : lastMulti a id (w.dao j).core.core.me (daoLog r i log) = none ∨
      (p.allowRevoting = true ∧ lastMulti a id (w.dao j).core.core.me (daoLog r i log) ≠ some v)) :
    ∃ w' out, (sys U N decode r).step w e (.pass j) = .ok (w', out) ∧ (w'.dao j).core.stack = rest ∧
      lastMulti a id (w.dao j).core.core.me (daoLog r i (⟨w, e, .pass j, out, w'⟩ :: log)) = some v := by
  obtain ⟨b1, hr, _⟩ := C136_dao h i
  obtain ⟨b2, log', _, h1, h2, h3, h3', _⟩ := FullDao.project_multi ⟨_, _, hi.1 i, hr⟩ hm
  rw [← h2] at hlast
  obtain ⟨_, htot, _⟩ := WholeMulti.tally (hU i) h1 (h3 hst) (h3' hN) (id := id) (p := p) hp
  obtain ⟨w1, out, h4⟩ := WholeMulti.C104_vote_accepted (hU i) h1 (h3 hst) hnow hp htot
    (e := Env.multi { e with sender := (w.dao j).core.core.me }) (v := v) (r := x) hv hopen hpow hlast
  obtain ⟨w', o, h5, h6, h7⟩ := fed_carried (U := U) (N := N) (decode := decode) (e := e) hij hs hn
    (q := { w.dao i with core := w1.core, mods := (w.dao i).mods.set a (.multi w1.prop) })
    (o := ⟨FullDao.ofMulti out.prop, out.core⟩) (by
      simp only [Order.call, FullDao.step, FullDao.multiAt_ok.2 hm, ok_bind]
      rw [show WholeMulti.step (U i) (N i).total (decode i) (FullDao.viewMulti (w.dao i) a s)
        (Env.multi { e with sender := (w.dao j).core.core.me }) (.prop (.vote id v x)) = .ok (w1, out) from h4, ok_bind])
  refine ⟨w', o, h5, h6, ?_⟩
  simp only [daoLog, List.filterMap_cons_some h7, lastMulti, multiBallot, Order.call, hm, if_true, and_self]

/-- **C136.** The same in a module of dao-proposal-condorcet, where everybody votes once. -/
theorem C136_counts_condorcet (hU : ∀ i, Lawful (U i)) {w0 w : World T} {b0 b : Block} {log : List (Event T F D)}
    (hi : Init U b0 w0) (h : (sys U N decode r).Run w0 b0 log w b) {i j : I} (hij : i ≠ j) (hst : Steady (daoLog r i log))
    (hN : TotalsOfHeight (U i) (N i) (daoLog r i log)) {n : Nat} {rest : List DaoCore.Sub}
    (hs : (w.dao j).core.stack = .send (.other n) :: rest) {a : Addr} {id : Nat} {l : List Nat}
    (hn : r j n = some (i, .condorcet a (.vote id l))) {s : Condorcet.State} (hm : (w.dao i).mods.get a = some (.condorcet s))
    (hnow : (w.dao i).core.core.voting = some (w.dao i).voteAddr) {p : Condorcet.Proposal} {t : Condorcet.Tally}
    (hp : s.proposals.get id = some p) (ht : s.tallies.get id = some t) (hl : IsRanking p.choices.length l) {e : Env}
    (hopen : t.expiration.isExpired e.block = false)
    (hpow : (U i).power (w.dao i).vote (w.dao j).core.core.me t.startHeight ≠ 0)
    (hnew : (w.dao j).core.core.me ∉ (rankings a id (daoLog r i log)).map Prod.fst) :
    ∃ w' out, (sys U N decode r).step w e (.pass j) = .ok (w', out) ∧ (w'.dao j).core.stack = rest ∧
      rankings a id (daoLog r i (⟨w, e, .pass j, out, w'⟩ :: log)) =
        rankings a id (daoLog r i log) ++ [((w.dao j).core.core.me, l)] := by
  obtain ⟨b1, hr, _⟩ := C136_dao h i
  obtain ⟨b2, log', _, h1, h2, h3, h3', _⟩ := FullDao.project_condorcet ⟨_, _, hi.1 i, hr⟩ hm
  rw [← h2] at hnew
  obtain ⟨w1, out, h4, _⟩ := WholeCondorcet.C94_vote_accepted (hU i) h1 (h3 hst) (h3' hN) hnow hp ht
    (e := Env.condorcet { e with sender := (w.dao j).core.core.me }) (r := l) hl hopen hpow hnew
  obtain ⟨w', o, h5, h6, h7⟩ := fed_carried (U := U) (N := N) (decode := decode) (e := e) hij hs hn
    (q := { w.dao i with core := w1.core, mods := (w.dao i).mods.set a (.condorcet w1.prop) })
    (o := ⟨FullDao.ofCondorcet out.prop, out.core⟩) (by
      simp only [Order.call, FullDao.step, FullDao.condorcetAt_ok.2 hm, ok_bind]
      rw [show WholeCondorcet.step (U i) (N i) (decode i) (FullDao.viewCondorcet (w.dao i) a s)
        (Env.condorcet { e with sender := (w.dao j).core.core.me }) (.prop (.vote id l)) = .ok (w1, out) from h4, ok_bind])
  refine ⟨w', o, h5, h6, ?_⟩
  simp only [daoLog, List.filterMap_cons_some h7, rankings, Order.call, if_true, and_self]

/-- The decision of the members of `j` is executed, whatever the kind of their module: what they decided on is then what `j` has to
send next, and nothing changes for the other DAOs. -/
theorem fed_executed (hU : ∀ i, Lawful (U i)) {w0 w : World T} {b0 b : Block} {log : List (Event T F D)} (hi : Init U b0 w0)
    (h : (sys U N decode r).Run w0 b0 log w b) {i j : I} (hij : i ≠ j) (hsj : Steady (daoLog r j log))
    (hNj : TotalsOfHeight (U j) (N j) (daoLog r j log)) {e : Env} (hb : b.le e.block)
    (hex : ∀ k, (w.dao k).core.core.me ≠ e.sender) {k n : Nat} {ks : List Nat} {c : FullDao.Call (F j) (D j)}
    (hp : Spec.Treasury.Resolved (U j) (w.dao j) (daoLog r j log) e (k :: ks) c) (hk : decode j k = .other n) :
    ∃ w1 o1 rest, (sys U N decode r).step w e (.dao j c) = .ok (w1, o1) ∧
      (sys U N decode r).Run w0 b0 (⟨w, e, .dao j c, o1, w1⟩ :: log) w1 e.block ∧
      (w1.dao j).core.stack = .send (.other n) :: rest ∧ w1.dao i = w.dao i ∧
      (w1.dao j).core.core.me = (w.dao j).core.core.me ∧ daoLog r i (⟨w, e, .dao j c, o1, w1⟩ :: log) = daoLog r i log := by
  obtain ⟨b1, hrj, _⟩ := C136_dao h j
  obtain ⟨_, q, o, h1, h3⟩ := Treasury.resolved_executes (N := N j) (decode := decode j) (hU j) ⟨_, _, hi.1 j, hrj⟩ hsj hNj hp
  have hd : w.isDao e.sender = false := by
    cases hd : w.isDao e.sender with
    | false => rfl
    | true =>
      obtain ⟨k', hk'⟩ := isDao_iff.1 hd
      exact absurd hk' (hex k')
  have hal : alone r j w.isDao e.sender (w.dao j).core.stack c = true := by
    cases hp <;> simp only [alone, hd, Bool.not_false]
  have hstep : (sys U N decode r).step w e (.dao j c) = .ok (⟨Function.update w.dao j q⟩, ⟨o, silent⟩) := by
    simp only [sys, step, hal, require, if_true, ok_bind, h1]
  have hrun := Sys.Run.step (M := sys U N decode r) (env := e) (call := .dao j c) h hb hstep
  have hdj : ((⟨Function.update w.dao j q⟩ : World T).dao j) = q := Function.update_self _ _ _
  refine ⟨_, _, ks.map (fun n => .send (decode j n)) ++ (w.dao j).core.stack, hstep, hrun,
    by rw [hdj, h3, List.map_cons, hk]; rfl, Function.update_of_ne hij _ _, by rw [fed_me hrun j, fed_me h j], ?_⟩
  refine List.filterMap_cons_none ?_
  simp only [daoEvent, dif_neg (Ne.symm hij)]

/-- **C136.** From the decision of the members of `j` to the vote of `j` in `i`. If the members of `j` have decided, in a module of any
kind, that `j` is to vote in `i`, anybody outside the federation who may execute the decision does so, and then the vote is cast and
counts, under the conditions of `C136_counts_single`. -/
theorem C136_members_single (hU : ∀ i, Lawful (U i)) {w0 w : World T} {b0 b : Block} {log : List (Event T F D)} (hi : Init U b0 w0)
    (h : (sys U N decode r).Run w0 b0 log w b) {i j : I} (hij : i ≠ j) (hst : Steady (daoLog r i log))
    -- the decision
    (hsj : Steady (daoLog r j log)) (hNj : TotalsOfHeight (U j) (N j) (daoLog r j log)) {e : Env} (hb : b.le e.block)
    (hex : ∀ k, (w.dao k).core.core.me ≠ e.sender) {k n : Nat} {ks : List Nat} {c : FullDao.Call (F j) (D j)}
    (hd : Spec.Treasury.Resolved (U j) (w.dao j) (daoLog r j log) e (k :: ks) c) (hk : decode j k = .other n)
    -- the vote
    {a : Addr} {id : Nat} {v : Voting.Vote} {x : Option Nat} (hn : r j n = some (i, .single a (.vote id v x))) {s : Single.State}
    (hm : (w.dao i).mods.get a = some (.single s))
    (hnow : (w.dao i).core.core.voting = some (w.dao i).voteAddr ∧ s.config.dao = (w.dao i).core.core.me)
    {p : Single.Proposal} (hp : s.proposals.get id = some p) (hopen : p.expiration.isExpired e.block = false)
    (hpow : (U i).power (w.dao i).vote (w.dao j).core.core.me p.startHeight ≠ 0)
    (hlast : lastSingle a id (w.dao j).core.core.me (daoLog r i log) = none ∨
      (p.allowRevoting = true ∧ lastSingle a id (w.dao j).core.core.me (daoLog r i log) ≠ some v)) :
    ∃ w1 o1 w2 o2, (sys U N decode r).step w e (.dao j c) = .ok (w1, o1) ∧
      (sys U N decode r).step w1 e (.pass j) = .ok (w2, o2) ∧
      lastSingle a id (w.dao j).core.core.me
        (daoLog r i (⟨w1, e, .pass j, o2, w2⟩ :: ⟨w, e, .dao j c, o1, w1⟩ :: log)) = some v := by
  obtain ⟨w1, o1, rest, h1, hrun, h2, hdi, hme, hlog⟩ := fed_executed hU hi h hij hsj hNj hb hex hd hk
  obtain ⟨w2, o2, h4, _, h5⟩ := C136_counts_single hU hi hrun hij (by rw [hlog]; exact hst) h2 hn (by rw [hdi]; exact hm)
    (by rw [hdi]; exact hnow) hp (e := e) hopen (by rw [hdi, hme]; exact hpow) (by rw [hlog, hme]; exact hlast)
  rw [hme] at h5
  exact ⟨w1, o1, w2, o2, h1, h4, h5⟩

/-- **C136.** The same if the vote is in a module of dao-proposal-multiple. -/
theorem C136_members_multi (hU : ∀ i, Lawful (U i)) {w0 w : World T} {b0 b : Block} {log : List (Event T F D)} (hi : Init U b0 w0)
    (h : (sys U N decode r).Run w0 b0 log w b) {i j : I} (hij : i ≠ j) (hst : Steady (daoLog r i log))
    (hN : TotalsOfHeight (U i) (N i) (daoLog r i log))
    -- the decision
    (hsj : Steady (daoLog r j log)) (hNj : TotalsOfHeight (U j) (N j) (daoLog r j log)) {e : Env} (hb : b.le e.block)
    (hex : ∀ k, (w.dao k).core.core.me ≠ e.sender) {k n : Nat} {ks : List Nat} {c : FullDao.Call (F j) (D j)}
    (hd : Spec.Treasury.Resolved (U j) (w.dao j) (daoLog r j log) e (k :: ks) c) (hk : decode j k = .other n)
    -- the vote
    {a : Addr} {id v : Nat} {x : Option Nat} (hn : r j n = some (i, .multi a (.vote id v x))) {s : Multiple.State}
    (hm : (w.dao i).mods.get a = some (.multi s))
    (hnow : (w.dao i).core.core.voting = some (w.dao i).voteAddr ∧ s.config.dao = (w.dao i).core.core.me)
    {p : Multiple.Proposal} (hp : s.proposals.get id = some p) (hv : v < p.choices.length)
    (hopen : p.expiration.isExpired e.block = false)
    (hpow : (U i).power (w.dao i).vote (w.dao j).core.core.me p.startHeight ≠ 0)
    (hlast : lastMulti a id (w.dao j).core.core.me (daoLog r i log) = none ∨
      (p.allowRevoting = true ∧ lastMulti a id (w.dao j).core.core.me (daoLog r i log) ≠ some v)) :
    ∃ w1 o1 w2 o2, (sys U N decode r).step w e (.dao j c) = .ok (w1, o1) ∧
      (sys U N decode r).step w1 e (.pass j) = .ok (w2, o2) ∧
      lastMulti a id (w.dao j).core.core.me
        (daoLog r i (⟨w1, e, .pass j, o2, w2⟩ :: ⟨w, e, .dao j c, o1, w1⟩ :: log)) = some v := by
  obtain ⟨w1, o1, rest, h1, hrun, h2, hdi, hme, hlog⟩ := fed_executed hU hi h hij hsj hNj hb hex hd hk
  obtain ⟨w2, o2, h4, _, h5⟩ := C136_counts_multi hU hi hrun hij (by rw [hlog]; exact hst) (by rw [hlog]; exact hN) h2 hn
    (by rw [hdi]; exact hm) (by rw [hdi]; exact hnow) hp hv (e := e) hopen (by rw [hdi, hme]; exact hpow)
    (by rw [hlog, hme]; exact hlast)
  rw [hme] at h5
  exact ⟨w1, o1, w2, o2, h1, h4, h5⟩

/-- **C136.** The same if the vote is in a module of dao-proposal-condorcet. -/
theorem C136_members_condorcet (hU : ∀ i, Lawful (U i)) {w0 w : World T} {b0 b : Block} {log : List (Event T F D)}
    (hi : Init U b0 w0) (h : (sys U N decode r).Run w0 b0 log w b) {i j : I} (hij : i ≠ j) (hst : Steady (daoLog r i log))
    (hN : TotalsOfHeight (U i) (N i) (daoLog r i log))
    -- the decision
    (hsj : Steady (daoLog r j log)) (hNj : TotalsOfHeight (U j) (N j) (daoLog r j log)) {e : Env} (hb : b.le e.block)
    (hex : ∀ k, (w.dao k).core.core.me ≠ e.sender) {k n : Nat} {ks : List Nat} {c : FullDao.Call (F j) (D j)}
    (hd : Spec.Treasury.Resolved (U j) (w.dao j) (daoLog r j log) e (k :: ks) c) (hk : decode j k = .other n)
    -- the vote
    {a : Addr} {id : Nat} {l : List Nat} (hn : r j n = some (i, .condorcet a (.vote id l))) {s : Condorcet.State}
    (hm : (w.dao i).mods.get a = some (.condorcet s)) (hnow : (w.dao i).core.core.voting = some (w.dao i).voteAddr)
    {p : Condorcet.Proposal} {t : Condorcet.Tally} (hp : s.proposals.get id = some p) (ht : s.tallies.get id = some t)
    (hl : IsRanking p.choices.length l) (hopen : t.expiration.isExpired e.block = false)
    (hpow : (U i).power (w.dao i).vote (w.dao j).core.core.me t.startHeight ≠ 0)
    (hnew : (w.dao j).core.core.me ∉ (rankings a id (daoLog r i log)).map Prod.fst) :
    ∃ w1 o1 w2 o2, (sys U N decode r).step w e (.dao j c) = .ok (w1, o1) ∧
      (sys U N decode r).step w1 e (.pass j) = .ok (w2, o2) ∧
      rankings a id (daoLog r i (⟨w1, e, .pass j, o2, w2⟩ :: ⟨w, e, .dao j c, o1, w1⟩ :: log)) =
        rankings a id (daoLog r i log) ++ [((w.dao j).core.core.me, l)] := by
  obtain ⟨w1, o1, rest, h1, hrun, h2, hdi, hme, hlog⟩ := fed_executed hU hi h hij hsj hNj hb hex hd hk
  obtain ⟨w2, o2, h4, _, h5⟩ := C136_counts_condorcet hU hi hrun hij (by rw [hlog]; exact hst) (by rw [hlog]; exact hN) h2 hn
    (by rw [hdi]; exact hm) (by rw [hdi]; exact hnow) hp ht hl (e := e) hopen (by rw [hdi, hme]; exact hpow)
    (by rw [hlog, hme]; exact hnew)
  rw [hme, hlog] at h5
  exact ⟨w1, o1, w2, o2, h1, h4, h5⟩

end Verif.Federation
