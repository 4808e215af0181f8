import Verif.Proofs.WholeCondorcet
import Verif.Props.SingleDecision
import Verif.Props.SingleExecuted
/-!
# C94: from the stakes of the members to the messages of the DAO, with a condorcet election
-/

namespace Verif.WholeCondorcet
open Verif
open Verif.Voting hiding Vote Votes
open Verif.Spec hiding StablePowers isExecuteOf isExecuteOnDao lastVote ballotCast
open Verif.Spec.WholeCondorcet Verif.Spec.Condorcet
open Verif.WholeDao (VotingModule run_blocks lawful_bounded)
open Verif.Spec.WholeDao (Lawful)

variable {S E C O : Type} {V : VotingModule S E C O} {N : Now S} {decode : Nat → DaoCore.CosmosMsg}

/-- **C94.** Every proposal is executed at most once in the life of the DAO. -/
theorem C94_once {w : World S} {b : Block} {log : List (Event S E C)} (h : (sys V N decode).Reach w b log) (id : Nat) :
    (log.filter (executesId id)).length ≤ 1 := by
  obtain ⟨b0, w0, hi, hr⟩ := h
  induction hr with
  | refl => simp
  | @step s1 s2 b3 log env call out hr hb3 hs ih =>
    by_cases hx : executesId id (⟨s1, env, call, out, s2⟩ : Event S E C) = true
    · have hc : ∃ f, call = .prop (.execute id f) := by
        unfold executesId at hx
        simp only at hx
        split at hx
        · rename_i i f
          rw [of_decide_eq_true hx]; exact ⟨f, rfl⟩
        · cases hx
      obtain ⟨f, rfl⟩ := hc
      rw [List.filter_cons_of_pos hx]
      have hnone : log.filter (executesId id) = [] := by
        rw [List.filter_eq_nil_iff]
        intro e he hxe
        obtain ⟨l1, l2, b1, _, h1, h2, h3, h4⟩ := hr.event e he
        obtain ⟨pre, env', call', out', post⟩ := e
        have hc' : ∃ f', call' = .prop (.execute id f') := by
          unfold executesId at hxe
          simp only at hxe
          split at hxe
          · rw [of_decide_eq_true hxe]; exact ⟨_, rfl⟩
          · cases hxe
        obtain ⟨f', rfl⟩ := hc'
        simp only at h1 h2 h3 h4
        obtain ⟨⟨o, ho, hp⟩, _⟩ := prop_effect (decode := decode) h3
        obtain ⟨bp, hbp, hrp⟩ := prop_history ⟨b0, w0, hi, h1⟩
        have hrun : (sys V N decode).Run post env'.block (⟨s1, env, .prop (.execute id f), out, s2⟩ :: l2) s2 env.block :=
          .step h4 hb3 hs
        obtain ⟨b2, _, hrp2⟩ := prop_run hrun (Block.le_refl _)
        obtain ⟨⟨o2, ho2, hp2⟩, _⟩ := prop_effect (decode := decode) hs
        rw [prop_cons ho2] at hrp2
        exact Condorcet.C25_execute_once hrp (Block.le_trans hbp h2) hp hrp2 _ (List.mem_cons_self) f rfl
      rw [hnone]; simp
    · rw [List.filter_cons_of_neg hx]; exact ih

/-- The total of a proposal is that of the height at which it was made. -/
theorem totals_eq {s : Condorcet.State} {b : Block} {log : List Condorcet.Event} (h : Condorcet.Reach s b log)
    {T : Nat → Nat} (hT : ∀ e ∈ log, ∀ d, e.env.totalNow d = T e.env.block.height) :
    ∀ id p t, s.proposals.get id = some p → s.tallies.get id = some t → p.totalPower = T t.startHeight := by
  obtain ⟨env, c, s0, h0, hr⟩ := h
  induction hr with
  | refl =>
    simp only [Condorcet.instantiate, bind_ok, Except.ok.injEq] at h0
    obtain ⟨_, _, rfl⟩ := h0
    intro id p t hp; cases hp
  | @step s1 s2 b1 log env' call out hr hb hs ih =>
    have ih := ih (fun e he => hT e (List.mem_cons_of_mem _ he))
    have hT1 := hT ⟨s1, env', call, out, s2⟩ (List.mem_cons_self)
    simp only at hT1
    intro id p t hp ht
    have keep : ∀ {q : Condorcet.Proposal}, s1.proposals.get id = some q → q.totalPower = p.totalPower →
        (∀ c, call ≠ .propose c) → p.totalPower = T t.startHeight := by
      intro q hq he hc
      rcases tally_step hs ht with ⟨t0, h1, h2, _⟩ | ⟨⟨c, h1⟩, _⟩
      · rw [h2, ← he]; exact ih id q t0 hq h1
      · exact absurd h1 (hc c)
    cases call with
    | propose c =>
      simp only [Condorcet.step] at hs
      obtain ⟨t1, st, total, htot, _, _, _, _, hnew, _, rfl, _⟩ := Condorcet.propose_inv hs
      simp only [AMap.get_set] at hp ht
      split at ht
      · rename_i he
        rw [if_pos he] at hp
        injection ht with ht; injection hp with hp; subst ht hp
        simp only [Condorcet.newTally, bind_ok, Except.ok.injEq] at hnew
        obtain ⟨_, _, _, _, rfl⟩ := hnew
        simp only [Condorcet.freshProposal]
        rw [htot, hT1]
      · rename_i he
        rw [if_neg he] at hp
        exact ih id p t hp ht
    | vote i v =>
      have hs' := hs
      simp only [Condorcet.step] at hs'
      obtain ⟨_, _, _, _, _, _, _, _, _, rfl, _⟩ := Condorcet.vote_inv hs'
      exact keep hp rfl (fun c hc => by cases hc)
    | execute i f =>
      have hs' := hs
      simp only [Condorcet.step] at hs'
      obtain ⟨_, q, _, _, _, _, hq, _, _, _, _, rfl, _⟩ := Condorcet.execute_inv hs'
      simp only [AMap.get_set] at hp
      split at hp
      · rename_i he
        subst he
        injection hp with hp; subst hp
        exact keep hq rfl (fun c hc => by cases hc)
      · exact keep hp rfl (fun c hc => by cases hc)
    | close i =>
      have hs' := hs
      simp only [Condorcet.step] at hs'
      obtain ⟨_, q, _, hq, _, rfl, _⟩ := Condorcet.close_inv hs'
      simp only [AMap.get_set] at hp
      split at hp
      · rename_i he
        subst he
        injection hp with hp; subst hp
        exact keep hq rfl (fun c hc => by cases hc)
      · exact keep hp rfl (fun c hc => by cases hc)
    | setConfig c =>
      have hs' := hs
      simp only [Condorcet.step] at hs'
      obtain ⟨_, _, rfl, _⟩ := Condorcet.setConfig_inv hs'
      exact keep hp rfl (fun c hc => by cases hc)

/-- A proposal in terms of the votes and the powers. -/
theorem tally {w : World S} {b : Block} {log : List (Event S E C)} (hV : Lawful V)
    (h : (sys V N decode).Reach w b log) (hst : Steady log) (hN : TotalsOfHeight V N log) {id : Nat}
    {p : Condorcet.Proposal} {t : Condorcet.Tally} (hp : w.prop.proposals.get id = some p)
    (ht : w.prop.tallies.get id = some t) :
    ∃ bp l, bp.le b ∧ Condorcet.Reach w.prop bp l ∧
      ballotsOn id l = ballots V w.vote t.startHeight (votesOn id log) ∧ votersOn id l = (votesOn id log).map Prod.fst ∧
      p.totalPower = V.total w.vote t.startHeight ∧ ((votesOn id log).map Prod.fst).Nodup := by
  obtain ⟨bp, l, hb, hrl, hl⟩ := prop_stable hV h hst hN
  obtain ⟨b0, w0, hi, hr⟩ := h
  have hrk : rankings id l = votesOn id log := by rw [hl, rankings_fix, votes_log hr]
  have hP : ∀ e ∈ l, ∀ d a x, e.env.power d a x = V.power w.vote a x := by
    intro e he d a x
    rw [hl] at he
    obtain ⟨e', _, rfl⟩ := List.mem_map.1 he
    rfl
  have hT : ∀ e ∈ l, ∀ d, e.env.totalNow d = V.total w.vote e.env.block.height := by
    intro e he d
    rw [hl] at he
    obtain ⟨e', _, rfl⟩ := List.mem_map.1 he
    rfl
  refine ⟨bp, l, hb, hrl, ?_, ?_, totals_eq hrl hT id p t hp ht, ?_⟩
  · rw [ballots_eq hrl hP id t ht, hrk]; rfl
  · rw [← rankings_voters, hrk]
  · rw [← hrk, rankings_voters]; exact (Condorcet.inv_reach hrl).once id

theorem min_iff {p : Condorcet.Proposal} {b : Block} :
    p.minPeriodRunning b = false ↔ ∀ m, p.minVotingPeriod = some m → m.isExpired b = true := by
  unfold Condorcet.Proposal.minPeriodRunning
  cases p.minVotingPeriod <;> simp

/-- A proposal the contract takes for passed is one the members have decided for. -/
theorem passed_decided (hV : Lawful V) {w : World S} {b b' : Block} {log : List (Event S E C)}
    (h : (sys V N decode).Reach w b log) (hst : Steady log) (hN : TotalsOfHeight V N log) {id i : Nat}
    {p : Condorcet.Proposal} {t : Condorcet.Tally} (hp : w.prop.proposals.get id = some p)
    (ht : w.prop.tallies.get id = some t) (hpass : p.status t b' = .ok (.passed i)) (h9 : NineDec p.quorum) :
    Decided V log w.vote b' id p t i := by
  obtain ⟨bp, l, _, hrl, hb, _, htot, hnd⟩ := tally hV h hst hN hp ht
  have hi := Condorcet.reach_prop hrl hp ht
  obtain ⟨ho, hmin, hq, _⟩ := Condorcet.status_passed hi hpass
  obtain ⟨_, _, hw⟩ := (Condorcet.C25_passed_iff hrl hp ht ho b' i).1 hpass
  have hout := hi.tally.out
  rw [hb, htot] at hq
  rw [hb] at hw hout
  refine ⟨min_iff.1 hmin, hnd, Single.meets_of_passB h9 hq, ?_⟩
  have he : t.outstanding = V.total w.vote t.startHeight - castPower (ballots V w.vote t.startHeight (votesOn id log)) := by
    omega
  rw [he] at hw
  exact hw

/-- What is executed is the choice the members have decided for. -/
theorem executed_for (hV : Lawful V) {w : World S} {b : Block} {log : List (Event S E C)}
    (h : (sys V N decode).Reach w b log) (hst : Steady log) (hN : TotalsOfHeight V N log) {later before : List (Event S E C)} {ev : Event S E C}
    (hl : log = later ++ ev :: before) {id i : Nat} {p : Condorcet.Proposal} {t : Condorcet.Tally}
    (hp : ev.pre.prop.proposals.get id = some p)
    (ht : ev.pre.prop.tallies.get id = some t) (hpass : p.status t ev.env.block = .ok (.passed i)) (h9 : NineDec p.quorum) :
    Decided V before ev.pre.vote ev.env.block id p t i := by
  obtain ⟨b0, w0, hi, hr⟩ := h
  subst hl
  obtain ⟨s1, b1, h1, h2⟩ := hr.split
  cases h1 with
  | @step s1' _ b1' _ env call out h1 hb hs =>
  exact passed_decided hV ⟨b0, w0, hi, h1⟩ (fun e he => hst e (by simp [he])) (fun e he => hN e (by simp [he])) hp ht hpass h9

/-- **C94.** When a proposal is executed the members have decided for one of its choices. -/
theorem C94_decided (hV : Lawful V) {w : World S} {b : Block} {log : List (Event S E C)}
    (h : (sys V N decode).Reach w b log) (hst : Steady log) (hN : TotalsOfHeight V N log) {later before : List (Event S E C)} {ev : Event S E C}
    (hl : log = later ++ ev :: before) {id : Nat} {f : Bool} (hc : ev.call = .prop (.execute id f)) :
    ∃ p t i, ev.pre.prop.proposals.get id = some p ∧ ev.pre.prop.tallies.get id = some t ∧
      (NineDec p.quorum → Decided V before ev.pre.vote ev.env.block id p t i) := by
  have h' := h
  obtain ⟨b0, w0, hi, hr⟩ := h'
  obtain ⟨_, _, b1, _, _, _, hs, _⟩ := hr.event ev (by rw [hl]; simp)
  obtain ⟨pre, env, call, out, post⟩ := ev
  simp only at hs hc
  subst hc
  obtain ⟨⟨o, _, hp⟩, _⟩ := prop_effect (decode := decode) hs
  simp only [Condorcet.step] at hp
  obtain ⟨t, p, i, _, _, ht, hg, _, hst', _⟩ := Condorcet.execute_inv hp
  exact ⟨p, t, i, hg, ht, executed_for hV h hst hN hl hg ht hst'⟩

theorem passed_nearly (hV : Lawful V) {w : World S} {b b' : Block} {log : List (Event S E C)}
    (h : (sys V N decode).Reach w b log) (hst : Steady log) (hN : TotalsOfHeight V N log) {id i : Nat}
    {p : Condorcet.Proposal} {t : Condorcet.Tally} (hp : w.prop.proposals.get id = some p)
    (ht : w.prop.tallies.get id = some t) (hpass : p.status t b' = .ok (.passed i)) :
    NearlyDecided V log w.vote b' id p t i := by
  obtain ⟨bp, l, _, hrl, hb, _, htot, hnd⟩ := tally hV h hst hN hp ht
  have hi := Condorcet.reach_prop hrl hp ht
  obtain ⟨ho, hmin, hq, _⟩ := Condorcet.status_passed hi hpass
  obtain ⟨_, _, hw⟩ := (Condorcet.C25_passed_iff hrl hp ht ho b' i).1 hpass
  have hout := hi.tally.out
  rw [hb, htot] at hq
  rw [hb] at hw hout
  refine ⟨min_iff.1 hmin, hnd, Single.nearly_of_passB hq, ?_⟩
  have he : t.outstanding = V.total w.vote t.startHeight - castPower (ballots V w.vote t.startHeight (votesOn id log)) := by
    omega
  rw [he] at hw
  exact hw

theorem executed_nearly (hV : Lawful V) {w : World S} {b : Block} {log : List (Event S E C)}
    (h : (sys V N decode).Reach w b log) (hst : Steady log) (hN : TotalsOfHeight V N log) {later before : List (Event S E C)} {ev : Event S E C}
    (hl : log = later ++ ev :: before) {id i : Nat} {p : Condorcet.Proposal} {t : Condorcet.Tally}
    (hp : ev.pre.prop.proposals.get id = some p)
    (ht : ev.pre.prop.tallies.get id = some t) (hpass : p.status t ev.env.block = .ok (.passed i)) :
    NearlyDecided V before ev.pre.vote ev.env.block id p t i := by
  obtain ⟨b0, w0, hi, hr⟩ := h
  subst hl
  obtain ⟨s1, b1, h1, h2⟩ := hr.split
  cases h1 with
  | @step s1' _ b1' _ env call out h1 hb hs =>
  exact passed_nearly hV ⟨b0, w0, hi, h1⟩ (fun e he => hst e (by simp [he])) (fun e he => hN e (by simp [he])) hp ht hpass

/-- **C94.** When a proposal is executed the members have decided for one of its choices,
whatever the decimals of the quorum: it is met but for less than a billionth of a vote. -/
theorem C94_nearly_decided (hV : Lawful V) {w : World S} {b : Block} {log : List (Event S E C)}
    (h : (sys V N decode).Reach w b log) (hst : Steady log) (hN : TotalsOfHeight V N log) {later before : List (Event S E C)} {ev : Event S E C}
    (hl : log = later ++ ev :: before) {id : Nat} {f : Bool} (hc : ev.call = .prop (.execute id f)) :
    ∃ p t i, ev.pre.prop.proposals.get id = some p ∧ ev.pre.prop.tallies.get id = some t ∧
      NearlyDecided V before ev.pre.vote ev.env.block id p t i := by
  have h' := h
  obtain ⟨b0, w0, hi, hr⟩ := h'
  obtain ⟨_, _, b1, _, _, _, hs, _⟩ := hr.event ev (by rw [hl]; simp)
  obtain ⟨pre, env, call, out, post⟩ := ev
  simp only at hs hc
  subst hc
  obtain ⟨⟨o, _, hp⟩, _⟩ := prop_effect (decode := decode) hs
  simp only [Condorcet.step] at hp
  obtain ⟨t, p, i, _, _, ht, hg, _, hst', _⟩ := Condorcet.execute_inv hp
  exact ⟨p, t, i, hg, ht, executed_nearly hV h hst hN hl hg ht hst'⟩

/-- **C94.** Whatever the DAO sends comes from a proposal the members have decided for, which is executed in this very
transaction, or from one of the other sources C47 lists: then it is not the proposal module that called. -/
theorem C94_mandate (hV : Lawful V) {w : World S} {b : Block} {log : List (Event S E C)}
    (h : (sys V N decode).Reach w b log) (hst : Steady log) (hN : TotalsOfHeight V N log) {ev : Event S E C} (hev : ev ∈ log) {d : DaoCore.Sub}
    (hd : d ∈ ev.out.core) :
    (∃ m, d = .send m ∧ ByProposal V decode log ev m ∧ DaoCore.Enabled ev.pre.core.core ev.pre.propAddr) ∨
    ∃ c, coreEvent ev = some c ∧ DaoCore.MaySend c d ∧ ∀ sender m, c.call = .call sender m → sender ≠ ev.pre.propAddr := by
  obtain ⟨b0, w0, hi, hr⟩ := id h
  obtain ⟨before, later, b1, hl, _, _, hs, _⟩ := hr.event ev hev
  obtain ⟨pre, env, call, out, post⟩ := ev
  simp only at hd hs ⊢
  cases call with
  | vote ve c =>
    obtain ⟨_, _, _, _, _, _, ho⟩ := vote_effect (N := N) (decode := decode) hs
    rw [ho] at hd; cases hd
  | core c =>
    obtain ⟨hn, hc, _⟩ := core_effect (V := V) (N := N) (decode := decode) hs
    refine Or.inr ⟨_, rfl, DaoCore.C47_who (.step .refl (Block.le_refl _) hc) _ (by simp) d hd, ?_⟩
    intro sender m hcall
    simp only at hcall
    subst hcall
    simpa [notBy] using hn
  | prop c =>
    obtain ⟨⟨o, ho, hp⟩, _, _, _, he⟩ := prop_effect (decode := decode) hs
    rcases he with ⟨_, he⟩ | ⟨id, p, t, i, ms, rfl, hg, ht, hpass, hci, hc⟩
    · rw [he] at hd; cases hd
    · have hrun : DaoCore.sys.Run pre.core env.block _ post.core env.block := .step (env := coreEnv env)
        (call := DaoCore.Call.call pre.propAddr (.executeProposalHook (ms.map decode))) (out := out.core) .refl (Block.le_refl _) hc
      have hms := DaoCore.C47_who hrun _ (List.mem_singleton.2 rfl) d hd
      have hdec := executed_for hV h hst hN hl (id := id) (i := i) hg ht hpass
      cases hms with
      | hook hh ha hm =>
        injection hh with hh
        injection hh with h1 h2
        injection h2 with h2
        subst h1 h2
        obtain ⟨n, hn, rfl⟩ := List.mem_map.1 hm
        exact Or.inl ⟨_, rfl, ⟨later, before, id, p, t, i, ms, n, hl, ⟨rfl, hg, ht⟩, hci, hn, rfl, hdec,
          executed_nearly hV h hst hN hl (id := id) (i := i) hg ht hpass⟩, ha⟩
      | admin hh hm => injection hh with hh; injection hh with h1 h2; cases h2
      | callback hh hr' hm => cases hh
      | voting hh => injection hh with hh; injection hh with h1 h2; cases h2
      | proposal hh => injection hh with hh; injection hh with h1 h2; cases h2

/-- **C94.** The powers that decide: asked for a height, the voting module of the DAO answers with what was staked
before the first transaction at or above that height. -/
theorem C94_weights (hV : Lawful V) {w w' : World S} {b b' : Block} {log log' : List (Event S E C)}
    (h : (sys V N decode).Reach w b log) (hr : (sys V N decode).Run w b log' w' b') {x : Nat} (hb : b.height < x)
    (hx : ∀ e ∈ log', x ≤ e.env.block.height) :
    (∀ a, V.power w'.vote a x = V.weight w.vote a) ∧ V.total w'.vote x = V.totalWeight w.vote := by
  obtain ⟨l, b1, h1, hb1⟩ := vote_reach h
  obtain ⟨l', b2, h2, _, h3⟩ := vote_run hr hb1
  refine hV.history h1 h2 (Nat.lt_of_le_of_lt hb1.1 hb) ?_
  intro e he
  obtain ⟨ev, hev, hbl⟩ := h3 e he
  rw [hbl]; exact hx ev hev

theorem authorised_mono {log : List (Event S E C)} {e : Event S E C} {d : DaoCore.Sub}
    (h : Authorised V decode log d) : Authorised V decode (e :: log) d := by
  induction h with
  | proposal h =>
    obtain ⟨later, before, id, p, t, i, c, n, hl, h1⟩ := h
    exact .proposal ⟨e :: later, before, id, p, t, i, c, n, by rw [hl]; rfl, h1⟩
  | nested _ hm ih => exact .nested ih hm
  | voting _ ih => exact .voting ih
  | module _ hi ih => exact .module ih hi
  | callback _ he hc hr hm ih => exact .callback ih (List.mem_cons_of_mem _ he) hc hr hm

/-- **C94.** In a DAO without an outside admin and with one enabled proposal module, everything the DAO ever sends goes
back to a proposal its members have decided for. -/
theorem C94_sole (hV : Lawful V) {w0 w : World S} {b0 b : Block} {log : List (Event S E C)} (hi : Init V b0 w0)
    (hstack : w0.core.stack = []) (hr : (sys V N decode).Run w0 b0 log w b) (hst : Steady log) (hN : TotalsOfHeight V N log) (hso : Sole log) :
    ∀ ev ∈ log, ∀ d ∈ ev.out.core, Authorised V decode log d := by
  suffices key : w.propAddr ≠ w.core.core.me ∧ (∀ d ∈ w.core.stack, Authorised V decode log d) ∧
      ∀ ev ∈ log, ∀ d ∈ ev.out.core, Authorised V decode log d from key.2.2
  induction hr with
  | refl => exact ⟨hi.1, by rw [hstack]; simp, by simp⟩
  | @step s1 s2 b3 log env call out hr hb3 hs ih =>
    obtain ⟨ih0, ih1, ih2⟩ := ih (fun e he => hst e (List.mem_cons_of_mem _ he))
      (fun e he => hN e (List.mem_cons_of_mem _ he)) (fun e he => hso e (List.mem_cons_of_mem _ he))
    obtain ⟨hadm, hen⟩ := hso _ (List.mem_cons_self)
    simp only at hadm hen
    have hre : (sys V N decode).Reach s2 env.block (⟨s1, env, call, out, s2⟩ :: log) := ⟨b0, w0, hi, .step hr hb3 hs⟩
    have man := fun d hd => C94_mandate hV hre hst hN (List.mem_cons_self) (d := d) hd
    simp only at man
    suffices hnew : s2.propAddr ≠ s2.core.core.me ∧
        (∀ d ∈ out.core, Authorised V decode (⟨s1, env, call, out, s2⟩ :: log) d) ∧
        ∀ d ∈ s2.core.stack, d ∈ out.core ∨ d ∈ s1.core.stack by
      obtain ⟨hn0, hn1, hn2⟩ := hnew
      refine ⟨hn0, ?_, ?_⟩
      · intro d hd
        rcases hn2 d hd with hd | hd
        · exact hn1 d hd
        · exact authorised_mono (ih1 d hd)
      · intro ev hev d hd
        rcases List.mem_cons.1 hev with rfl | hev
        · exact hn1 d hd
        · exact authorised_mono (ih2 ev hev d hd)
    cases call with
    | vote ve c =>
      obtain ⟨_, _, _, hw, hpa, _, ho⟩ := vote_effect (N := N) (decode := decode) hs
      rw [ho, hw, hpa]
      exact ⟨ih0, by simp, fun d hd => Or.inr hd⟩
    | prop c =>
      obtain ⟨_, _, hpa, _, he⟩ := prop_effect (decode := decode) hs
      refine ⟨?_, ?_, ?_⟩
      · rcases he with ⟨he, _⟩ | ⟨id, p, t, i, ms, rfl, hg, ht, hpass, hci, hc⟩
        · rw [hpa, he]; exact ih0
        · have := DaoCore.does_me (DaoCore.step_does hc)
          simp only at this
          rw [hpa, this]; exact ih0
      · intro d hd
        rcases man d hd with ⟨m, rfl, hby, _⟩ | ⟨c', hc', _⟩
        · exact .proposal hby
        · cases hc'
      · intro d hd
        rcases he with ⟨he, _⟩ | ⟨id, p, t, i, ms, rfl, hg, ht, hpass, hci, hc⟩
        · rw [he] at hd; exact Or.inr hd
        · cases DaoCore.step_does hc with
          | msg hh _ _ _ hs1 hs2 _ =>
            simp only [DaoCore.delivered, List.nil_append] at hs1 hs2
            rw [hs2, List.mem_append] at hd
            rw [hs1]; exact hd
          | rep hh => cases hh
          | other hh => cases hh
    | core c =>
      obtain ⟨hn, hc, _, _, hpa, _⟩ := core_effect (V := V) (N := N) (decode := decode) hs
      have hdoes := DaoCore.step_does hc
      have hme := DaoCore.does_me hdoes
      simp only at hme
      refine ⟨by rw [hpa, hme]; exact ih0, ?_, ?_⟩
      · intro d hd
        rcases man d hd with ⟨m, rfl, hby, _⟩ | ⟨c', hc', hms, hby⟩
        · exact .proposal hby
        · injection hc' with hc'
          subst hc'
          simp only at hby
          -- a message handled by the DAO for itself was on its list
          have self : ∀ {m : DaoCore.Msg}, DaoCore.handled ⟨s1.core, coreEnv env, c, out.core, s2.core⟩ =
              some (s1.core.core.me, m) →
              Authorised V decode (⟨s1, env, .core c, out, s2⟩ :: log) (.send (.toSelf m)) := by
            intro m hm
            cases hdoes with
            | msg hh _ _ _ hs1 _ hdd =>
              rw [hh] at hm
              injection hm with hm; injection hm with e1 e2
              subst e1 e2
              rcases hdd with ⟨_, hne⟩ | ⟨hdl, _⟩
              · exact absurd rfl hne
              · refine authorised_mono (ih1 _ ?_)
                simp only at hs1
                rw [hs1, hdl]; simp
            | rep hh => rw [hh] at hm; cases hm
            | other hh => rw [hh] at hm; cases hm
          cases hms with
          | hook hh ha hm =>
            rename_i a msgs m
            have hapa := hen a ha
            subst hapa
            cases c with
            | call sender m' =>
              injection hh with hh; injection hh with e1 e2
              exact absurd e1 (hby sender m' rfl)
            | deliver r =>
              exfalso
              cases hdoes with
              | msg hh' _ _ _ _ _ hdd =>
                rw [hh'] at hh
                injection hh with hh; injection hh with e1 e2
                subst e1
                rcases hdd with ⟨hdl, _⟩ | ⟨_, hme'⟩
                · simp only [DaoCore.handled] at hh'
                  simp only [DaoCore.delivered] at hdl
                  split at hh'
                  · rename_i hst'
                    rw [hst'] at hdl; simp at hdl
                  · cases hh'
                · exact ih0 hme'
              | rep hh' => rw [hh'] at hh; cases hh
              | other hh' => rw [hh'] at hh; cases hh
          | admin hh hm =>
            simp only [hadm] at hh
            exact .nested (self hh) hm
          | callback hh hr' hm =>
            rename_i role r m
            cases hdoes with
            | msg _ hh' => rw [hh'] at hh; cases hh
            | @rep role' c' i rest _ hh' _ _ _ _ hs1 _ =>
              rw [hh'] at hh
              injection hh with hh; injection hh with e1 e2
              subst e1 e2
              refine .callback (i := i) (authorised_mono (ih1 _ ?_)) (List.mem_cons_self) rfl hh' hm
              simp only at hs1
              rw [hs1]; exact List.mem_cons_self
            | other _ hh' => rw [hh'] at hh; cases hh
          | voting hh => exact .voting (self hh)
          | proposal hh hi => exact .module (self hh) hi
      · intro d hd
        cases hdoes with
        | msg hh _ _ _ hs1 hs2 _ =>
          simp only at hs1 hs2
          rw [hs2, List.mem_append] at hd
          rw [hs1]
          exact hd.imp id (fun hd => List.mem_append.2 (Or.inr hd))
        | rep hh _ _ _ _ _ hs1 hs2 =>
          simp only at hs1 hs2
          rw [hs2, List.mem_append] at hd
          rw [hs1]
          exact hd.imp id (fun hd => List.mem_cons_of_mem _ hd)
        | other hh _ _ hs1 hs2 _ =>
          simp only at hs1 hs2
          rw [hs2] at hd
          rw [hs1]
          exact Or.inr (List.mem_cons_of_mem _ hd)

end Verif.WholeCondorcet
