import Verif.Proofs.WholeMulti
import Verif.Props.SingleDecision
import Verif.Props.SingleExecuted
/-!
# C81: from the stakes of the members to the messages of the DAO, with multiple choice
-/

namespace Verif.WholeMulti
open Verif
open Verif.Voting hiding Vote Votes
open Verif.Spec hiding StablePowers isExecuteOf isExecuteOnDao lastVote ballotCast
open Verif.Spec.WholeMulti Verif.Spec.Multi
open Verif.Multiple (Vote)
open Verif.WholeDao (VotingModule run_blocks lawful_bounded)
open Verif.Spec.WholeDao (Lawful)

variable {S E C O : Type} {V : VotingModule S E C O} {N : TotalNow S} {decode : Nat → DaoCore.CosmosMsg}

/-- The history of the proposal module alone. -/
theorem prop_history {w : World S} {b : Block} {log : List (Event S E C)} (h : (sys V N decode).Reach w b log) :
    ∃ b1, b1.le b ∧ Multiple.Reach w.prop b1 (propLog V N log) := by
  obtain ⟨b0, w0, ⟨_, _, _, env0, c0, i0, out0, hb0, _, hi⟩, hr⟩ := h
  induction hr with
  | refl => exact ⟨b0, Block.le_refl _, env0, c0, i0, _, out0, hi, by rw [hb0]; exact .refl⟩
  | @step s1 s2 b3 log env call out hr hb3 hs ih =>
    obtain ⟨b1, hb1, env1, c1, i1, s0, o1, h1, h2⟩ := ih
    cases call with
    | core c =>
      obtain ⟨_, _, hw, _⟩ := core_effect (V := V) (N := N) (decode := decode) hs
      rw [hw]
      exact ⟨b1, Block.le_trans hb1 hb3, env1, c1, i1, s0, o1, h1, h2⟩
    | vote ve c =>
      obtain ⟨_, _, hw, _⟩ := vote_effect (N := N) (decode := decode) hs
      rw [hw]
      exact ⟨b1, Block.le_trans hb1 hb3, env1, c1, i1, s0, o1, h1, h2⟩
    | prop c =>
      obtain ⟨⟨o, ho, hp⟩, _⟩ := prop_effect (decode := decode) hs
      refine ⟨env.block, Block.le_refl _, env1, c1, i1, s0, o1, h1, ?_⟩
      have he : propLog V N ((⟨s1, env, .prop c, out, s2⟩ : Event S E C) :: log) =
          ⟨s1.prop, propEnv V N s1 env, c, o, s2.prop⟩ :: propLog V N log := by
        simp only [propLog, ho]
      rw [he]
      exact .step h2 (Block.le_trans hb1 hb3) hp

/-- **C81.** Every proposal is executed at most once in the life of the DAO. -/
theorem C81_once {w : World S} {b : Block} {log : List (Event S E C)} (h : (sys V N decode).Reach w b log) (id : Nat) :
    (log.filter (executesId id)).length ≤ 1 := by
  obtain ⟨b1, _, h1⟩ := prop_history h
  refine Nat.le_trans ?_ (Multiple.C21_execute_once h1 id)
  obtain ⟨b0, w0, _, hr⟩ := h
  clear h1
  suffices key : ∀ {w : World S} {b : Block} {log : List (Event S E C)}, (sys V N decode).Run w0 b0 log w b →
      (log.filter (executesId id)).length ≤ ((propLog V N log).filter (fun e => isExecuteOf id e.call)).length from key hr
  intro w b log hr
  induction hr with
  | refl => exact Nat.le_refl _
  | @step s1 s2 b3 log env call out hr hb3 hs ih =>
    cases call with
    | core c => exact ih
    | vote ve c => exact ih
    | prop c =>
      obtain ⟨⟨o, ho, hp⟩, _⟩ := prop_effect (decode := decode) hs
      have he : propLog V N ((⟨s1, env, .prop c, out, s2⟩ : Event S E C) :: log) =
          ⟨s1.prop, propEnv V N s1 env, c, o, s2.prop⟩ :: propLog V N log := by
        simp only [propLog, ho]
      have hx : executesId id (⟨s1, env, .prop c, out, s2⟩ : Event S E C) = isExecuteOf id c := by
        cases c <;> rfl
      rw [he]
      simp only [List.filter_cons, hx]
      split
      · simp only [List.length_cons]; omega
      · exact ih


theorem sum_getD (l : List Nat) : l.sum = ((List.range l.length).map (fun i => l.getD i 0)).sum := by
  have : (List.range l.length).map (fun i => l.getD i 0) = l := by
    apply List.ext_getElem
    · simp
    · intro i h1 h2
      simp only [List.getElem_map, List.getElem_range]
      rw [List.getD_eq_getElem?_getD, List.getElem?_eq_getElem h2]; rfl
  rw [this]

/-- The tally of a proposal in terms of the last votes and the powers. -/
theorem tally {w : World S} {b : Block} {log : List (Event S E C)} (hV : Lawful V)
    (h : (sys V N decode).Reach w b log) (hst : Steady log) (hN : TotalsOfHeight V N log) {id : Nat} {p : Multiple.Proposal}
    (hp : w.prop.proposals.get id = some p) :
    p.Sane ∧ p.totalPower = V.total w.vote p.startHeight ∧ ∃ voters : Nat → List Addr,
      (∀ j, (voters j).Nodup ∧ ∀ a, a ∈ voters j ↔ Multi.lastVote a id (propLog V N log) = some j) ∧
      (∀ j, weight p.votes j = powerOf V w.vote p.startHeight (voters j)) := by
  obtain ⟨bp, l, _, hrl, hll, hpl⟩ := prop_stable hV h hst hN
  obtain ⟨ht, hv⟩ := Multiple.C07_tally_is_last_votes hrl hpl hp
  rw [hll] at hv
  simp only [lastVote_fix] at hv
  have hs := Multiple.sane_prop (Multiple.inv_reach hrl) (Multiple.powInv_reach hrl hpl) hpl.bounded hp
  refine ⟨hs, ht, fun j => Classical.choose (hv j), fun j => ?_, fun j => (Classical.choose_spec (hv j)).2.2⟩
  exact ⟨(Classical.choose_spec (hv j)).1, (Classical.choose_spec (hv j)).2.1⟩

theorem cast_eq {p : Multiple.Proposal} (hs : p.Shape) {f : Nat → Nat} (hf : ∀ j, weight p.votes j = f j) :
    castTotal p.votes = castSum p.choices.length f := by
  unfold castTotal castSum
  rw [sum_getD, ← hs.len]
  congr 2
  funext j
  exact hf j

theorem quorum_iff {p : Multiple.Proposal} (hs : p.Sane) :
    Quorum p ↔ passB (castTotal p.votes) p.totalPower p.quorum = true := by
  unfold Quorum
  rw [pass_eq (Nat.lt_of_le_of_lt hs.fits hs.u128) hs.u128 (pctOk_of_validateQuorum hs.valid), Except.ok.injEq]

/-- A proposal the contract takes for passed is one the members have decided for. -/
theorem passed_decided (hV : Lawful V) {w : World S} {b b' : Block} {log : List (Event S E C)}
    (h : (sys V N decode).Reach w b log) (hst : Steady log) (hN : TotalsOfHeight V N log) {id : Nat} {p : Multiple.Proposal}
    (hp : w.prop.proposals.get id = some p) (hpass : p.isPassed b' = .ok true) :
    ∃ i c, p.choices[i]? = some c ∧ Multiple.winningMsgs p = .ok c.msgs ∧
      (NineDec p.quorum → Decided V N log w.vote b' id p i) ∧ NearlyDecided V N log w.vote b' id p i := by
  obtain ⟨hs, ht, voters, hv1, hv2⟩ := tally hV h hst hN hp
  obtain ⟨_, i, c, hw, hni, hc, hr⟩ := Multiple.C19_pass_needs_plurality p b' hs.valid hs.shape hs.u128 hs.fits hpass
  obtain ⟨hm1, hm2, hq, i', hw', _, hx⟩ := (Multiple.C19_pass_iff p b' hs.valid hs.shape hs.u128 hs.fits).1 hpass
  have := Multiple.strict_unique hw hw'; subst this
  have hlen := hs.shape.len
  have hi : i + 1 < p.choices.length := by
    have h1 := hw.1
    unfold IsNone at hni
    rw [← hlen] at h1 hni
    omega
  have hlead : ∀ j, j < p.choices.length → j ≠ i →
      powerOf V w.vote p.startHeight (voters j) < powerOf V w.vote p.startHeight (voters i) := by
    intro j hj hne
    rw [← hv2, ← hv2]
    exact hw.2 j (by rw [← hlen]; exact hj) hne
  have hover : p.expiration.isExpired b' = true ∨ ∀ j, j < p.choices.length → j ≠ i →
      powerOf V w.vote p.startHeight (voters j) + (V.total w.vote p.startHeight -
        castSum p.choices.length (fun j => powerOf V w.vote p.startHeight (voters j)))
        < powerOf V w.vote p.startHeight (voters i) := by
    refine hx.imp (fun hx => hx) (fun hx j hj hne => ?_)
    rw [← cast_eq hs.shape hv2, ← ht]
    have := hx j (by rw [← hlen]; exact hj) hne
    rw [hv2, hv2] at this
    exact this
  refine ⟨i, c, hc, by simp only [Multiple.winningMsgs, hr, ok_bind],
    fun h9 => ⟨hm1, hm2, hi, voters, hv1, ?_, hlead, hover⟩, hm1, hm2, hi, voters, hv1, ?_, hlead, hover⟩ <;>
    rw [← cast_eq hs.shape hv2, ← ht]
  · exact Single.meets_of_passB h9 ((quorum_iff hs).1 hq)
  · exact Single.nearly_of_passB ((quorum_iff hs).1 hq)

/-- What is executed is the option the members have decided for. -/
theorem executed_for (hV : Lawful V) {w : World S} {b : Block} {log : List (Event S E C)}
    (h : (sys V N decode).Reach w b log) (hst : Steady log) (hN : TotalsOfHeight V N log) {later before : List (Event S E C)} {ev : Event S E C}
    (hl : log = later ++ ev :: before) {id : Nat} {f : Bool} (hc : ev.call = .prop (.execute id f)) :
    ∃ p i c, ev.pre.prop.proposals.get id = some p ∧ p.choices[i]? = some c ∧
      Multiple.winningMsgs p = .ok c.msgs ∧
      (NineDec p.quorum → Decided V N before ev.pre.vote ev.env.block id p i) ∧
      NearlyDecided V N before ev.pre.vote ev.env.block id p i := by
  obtain ⟨b0, w0, hi, hr⟩ := h
  subst hl
  obtain ⟨s1, b1, h1, h2⟩ := hr.split
  cases h1 with
  | @step s1' _ b1' _ env call out h1 hb hs =>
  simp only at hc
  subst hc
  have hsb : Steady before := fun e he => hst e (by simp [he])
  have hsb' : Steady ((⟨s1', env, .prop (.execute id f), out, s1⟩ : Event S E C) :: before) :=
    fun e he => hst e (by simp only [List.mem_append]; exact Or.inr he)
  obtain ⟨bq, l', _, hr', hl', hp'⟩ := prop_stable hV ⟨b0, w0, hi, .step h1 hb hs⟩ hsb'
    (fun e he => hN e (by simp only [List.mem_append]; exact Or.inr he))
  obtain ⟨⟨o, ho, hp⟩, _⟩ := prop_effect (decode := decode) hs
  have he : propLog V N ((⟨s1', env, .prop (.execute id f), out, s1⟩ : Event S E C) :: before) =
      ⟨s1'.prop, propEnv V N s1' env, .execute id f, o, s1.prop⟩ :: propLog V N before := by
    simp only [propLog, ho]
  rw [he, List.map_cons] at hl'
  obtain ⟨p, i, c, hg, hpass, _⟩ := Multiple.C21_winner_messages hr' hp'
    (e := fixEnv (V.power s1.vote) (V.total s1.vote)
      ⟨s1'.prop, propEnv V N s1' env, .execute id f, o, s1.prop⟩) (by rw [hl']; simp) rfl
  obtain ⟨i, c, h3⟩ := passed_decided hV ⟨b0, w0, hi, h1⟩ hsb
    (fun e he => hN e (by simp [he])) hg hpass
  exact ⟨p, i, c, hg, h3⟩

/-- **C81.** When a proposal is executed the members have decided for one of its options. -/
theorem C81_decided (hV : Lawful V) {w : World S} {b : Block} {log : List (Event S E C)}
    (h : (sys V N decode).Reach w b log) (hst : Steady log) (hN : TotalsOfHeight V N log) {later before : List (Event S E C)} {ev : Event S E C}
    (hl : log = later ++ ev :: before) {id : Nat} {f : Bool} (hc : ev.call = .prop (.execute id f)) :
    ∃ p i, ev.pre.prop.proposals.get id = some p ∧
      (NineDec p.quorum → Decided V N before ev.pre.vote ev.env.block id p i) := by
  obtain ⟨p, i, c, h1, _, _, h2, _⟩ := executed_for hV h hst hN hl hc
  exact ⟨p, i, h1, h2⟩

/-- **C81.** The same whatever the decimals of the quorum: it is met but for less than a billionth of a vote. -/
theorem C81_nearly_decided (hV : Lawful V) {w : World S} {b : Block} {log : List (Event S E C)}
    (h : (sys V N decode).Reach w b log) (hst : Steady log) (hN : TotalsOfHeight V N log) {later before : List (Event S E C)} {ev : Event S E C}
    (hl : log = later ++ ev :: before) {id : Nat} {f : Bool} (hc : ev.call = .prop (.execute id f)) :
    ∃ p i c, ev.pre.prop.proposals.get id = some p ∧ p.choices[i]? = some c ∧
      Multiple.winningMsgs p = .ok c.msgs ∧ NearlyDecided V N before ev.pre.vote ev.env.block id p i := by
  obtain ⟨p, i, c, h1, h2, h3, _, h4⟩ := executed_for hV h hst hN hl hc
  exact ⟨p, i, c, h1, h2, h3, h4⟩

/-- **C81.** Whatever the DAO sends comes from a proposal the members have decided for, which is executed in this very
transaction, or from one of the other sources C47 lists: then it is not the proposal module that called. -/
theorem C81_mandate (hV : Lawful V) {w : World S} {b : Block} {log : List (Event S E C)}
    (h : (sys V N decode).Reach w b log) (hst : Steady log) (hN : TotalsOfHeight V N log) {ev : Event S E C} (hev : ev ∈ log) {d : DaoCore.Sub}
    (hd : d ∈ ev.out.core) :
    (∃ m, d = .send m ∧ ByProposal V N decode log ev m ∧ DaoCore.Enabled ev.pre.core.core ev.pre.propAddr) ∨
    ∃ c, coreEvent ev = some c ∧ DaoCore.MaySend c d ∧ ∀ sender m, c.call = .call sender m → sender ≠ ev.pre.propAddr := by
  obtain ⟨b0, w0, hi, hr⟩ := id h
  obtain ⟨before, later, b1, hl, _, _, hs, _⟩ := hr.event ev hev
  obtain ⟨pre, env, call, out, post⟩ := ev
  simp only at hd hs ⊢
  cases call with
  | vote ve c =>
    obtain ⟨_, _, _, _, _, _, ho⟩ := vote_effect (N := N) (decode := decode) hs
    rw [ho] at hd; cases hd
  | core c =>
    obtain ⟨hn, hc, _⟩ := core_effect (V := V) (N := N) (decode := decode) hs
    refine Or.inr ⟨_, rfl, DaoCore.C47_who (.step .refl (Block.le_refl _) hc) _ (by simp) d hd, ?_⟩
    intro sender m hcall
    simp only at hcall
    subst hcall
    simpa [notBy] using hn
  | prop c =>
    obtain ⟨⟨o, ho, hp⟩, _, _, _, he⟩ := prop_effect (decode := decode) hs
    rcases he with ⟨_, he⟩ | ⟨id, p, ms, rfl, hg, hwm, hc⟩
    · rw [he] at hd; cases hd
    · have hrun : DaoCore.sys.Run pre.core env.block _ post.core env.block := .step (env := coreEnv env)
        (call := DaoCore.Call.call pre.propAddr (.executeProposalHook (ms.map decode))) (out := out.core) .refl (Block.le_refl _) hc
      have hms := DaoCore.C47_who hrun _ (List.mem_singleton.2 rfl) d hd
      obtain ⟨p', i, c, hg', hci, hwc, hdec⟩ := executed_for hV h hst hN hl (id := id) (f := false) rfl
      rw [show (⟨pre, env, _, out, post⟩ : Event S E C).pre.prop = pre.prop from rfl, hg] at hg'
      injection hg' with hg'; subst hg'
      rw [hwm] at hwc; injection hwc with hwc; subst hwc
      cases hms with
      | hook hh ha hm =>
        injection hh with hh
        injection hh with h1 h2
        injection h2 with h2
        subst h1 h2
        obtain ⟨n, hn, rfl⟩ := List.mem_map.1 hm
        exact Or.inl ⟨_, rfl, ⟨later, before, id, p, i, c, n, hl, ⟨rfl, hg⟩, hci, hn, rfl, hdec⟩, ha⟩
      | admin hh hm => injection hh with hh; injection hh with h1 h2; cases h2
      | callback hh hr' hm => cases hh
      | voting hh => injection hh with hh; injection hh with h1 h2; cases h2
      | proposal hh => injection hh with hh; injection hh with h1 h2; cases h2

/-- **C81.** The powers that decide: asked for a height, the voting module of the DAO answers with what was staked
before the first transaction at or above that height. -/
theorem C81_weights (hV : Lawful V) {w w' : World S} {b b' : Block} {log log' : List (Event S E C)}
    (h : (sys V N decode).Reach w b log) (hr : (sys V N decode).Run w b log' w' b') {x : Nat} (hb : b.height < x)
    (hx : ∀ e ∈ log', x ≤ e.env.block.height) :
    (∀ a, V.power w'.vote a x = V.weight w.vote a) ∧ V.total w'.vote x = V.totalWeight w.vote := by
  obtain ⟨l, b1, h1, hb1⟩ := vote_reach h
  obtain ⟨l', b2, h2, _, h3⟩ := vote_run hr hb1
  refine hV.history h1 h2 (Nat.lt_of_le_of_lt hb1.1 hb) ?_
  intro e he
  obtain ⟨ev, hev, hbl⟩ := h3 e he
  rw [hbl]; exact hx ev hev

theorem authorised_mono {log : List (Event S E C)} {e : Event S E C} {d : DaoCore.Sub}
    (h : Authorised V N decode log d) : Authorised V N decode (e :: log) d := by
  induction h with
  | proposal h =>
    obtain ⟨later, before, id, p, i, c, n, hl, h1⟩ := h
    exact .proposal ⟨e :: later, before, id, p, i, c, n, by rw [hl]; rfl, h1⟩
  | nested _ hm ih => exact .nested ih hm
  | voting _ ih => exact .voting ih
  | module _ hi ih => exact .module ih hi
  | callback _ he hc hr hm ih => exact .callback ih (List.mem_cons_of_mem _ he) hc hr hm

/-- **C81.** In a DAO without an outside admin and with one enabled proposal module, everything the DAO ever sends goes
back to a proposal its members have decided for. -/
theorem C81_sole (hV : Lawful V) {w0 w : World S} {b0 b : Block} {log : List (Event S E C)} (hi : Init V b0 w0)
    (hstack : w0.core.stack = []) (hr : (sys V N decode).Run w0 b0 log w b) (hst : Steady log) (hN : TotalsOfHeight V N log) (hso : Sole log) :
    ∀ ev ∈ log, ∀ d ∈ ev.out.core, Authorised V N decode log d := by
  suffices key : w.propAddr ≠ w.core.core.me ∧ (∀ d ∈ w.core.stack, Authorised V N decode log d) ∧
      ∀ ev ∈ log, ∀ d ∈ ev.out.core, Authorised V N decode log d from key.2.2
  induction hr with
  | refl => exact ⟨hi.1, by rw [hstack]; simp, by simp⟩
  | @step s1 s2 b3 log env call out hr hb3 hs ih =>
    obtain ⟨ih0, ih1, ih2⟩ := ih (fun e he => hst e (List.mem_cons_of_mem _ he))
      (fun e he => hN e (List.mem_cons_of_mem _ he)) (fun e he => hso e (List.mem_cons_of_mem _ he))
    obtain ⟨hadm, hen⟩ := hso _ (List.mem_cons_self)
    simp only at hadm hen
    have hre : (sys V N decode).Reach s2 env.block (⟨s1, env, call, out, s2⟩ :: log) := ⟨b0, w0, hi, .step hr hb3 hs⟩
    have man := fun d hd => C81_mandate hV hre hst hN (List.mem_cons_self) (d := d) hd
    simp only at man
    suffices hnew : s2.propAddr ≠ s2.core.core.me ∧
        (∀ d ∈ out.core, Authorised V N decode (⟨s1, env, call, out, s2⟩ :: log) d) ∧
        ∀ d ∈ s2.core.stack, d ∈ out.core ∨ d ∈ s1.core.stack by
      obtain ⟨hn0, hn1, hn2⟩ := hnew
      refine ⟨hn0, ?_, ?_⟩
      · intro d hd
        rcases hn2 d hd with hd | hd
        · exact hn1 d hd
        · exact authorised_mono (ih1 d hd)
      · intro ev hev d hd
        rcases List.mem_cons.1 hev with rfl | hev
        · exact hn1 d hd
        · exact authorised_mono (ih2 ev hev d hd)
    cases call with
    | vote ve c =>
      obtain ⟨_, _, _, hw, hpa, _, ho⟩ := vote_effect (N := N) (decode := decode) hs
      rw [ho, hw, hpa]
      exact ⟨ih0, by simp, fun d hd => Or.inr hd⟩
    | prop c =>
      obtain ⟨_, _, hpa, _, he⟩ := prop_effect (decode := decode) hs
      refine ⟨?_, ?_, ?_⟩
      · rcases he with ⟨he, _⟩ | ⟨id, p, ms, rfl, hg, hwm, hc⟩
        · rw [hpa, he]; exact ih0
        · have := DaoCore.does_me (DaoCore.step_does hc)
          simp only at this
          rw [hpa, this]; exact ih0
      · intro d hd
        rcases man d hd with ⟨m, rfl, hby, _⟩ | ⟨c', hc', _⟩
        · exact .proposal hby
        · cases hc'
      · intro d hd
        rcases he with ⟨he, _⟩ | ⟨id, p, ms, rfl, hg, hwm, hc⟩
        · rw [he] at hd; exact Or.inr hd
        · cases DaoCore.step_does hc with
          | msg hh _ _ _ hs1 hs2 _ =>
            simp only [DaoCore.delivered, List.nil_append] at hs1 hs2
            rw [hs2, List.mem_append] at hd
            rw [hs1]; exact hd
          | rep hh => cases hh
          | other hh => cases hh
    | core c =>
      obtain ⟨hn, hc, _, _, hpa, _⟩ := core_effect (V := V) (N := N) (decode := decode) hs
      have hdoes := DaoCore.step_does hc
      have hme := DaoCore.does_me hdoes
      simp only at hme
      refine ⟨by rw [hpa, hme]; exact ih0, ?_, ?_⟩
      · intro d hd
        rcases man d hd with ⟨m, rfl, hby, _⟩ | ⟨c', hc', hms, hby⟩
        · exact .proposal hby
        · injection hc' with hc'
          subst hc'
          simp only at hby
          -- a message handled by the DAO for itself was on its list
          have self : ∀ {m : DaoCore.Msg}, DaoCore.handled ⟨s1.core, coreEnv env, c, out.core, s2.core⟩ =
              some (s1.core.core.me, m) →
              Authorised V N decode (⟨s1, env, .core c, out, s2⟩ :: log) (.send (.toSelf m)) := by
            intro m hm
            cases hdoes with
            | msg hh _ _ _ hs1 _ hdd =>
              rw [hh] at hm
              injection hm with hm; injection hm with e1 e2
              subst e1 e2
              rcases hdd with ⟨_, hne⟩ | ⟨hdl, _⟩
              · exact absurd rfl hne
              · refine authorised_mono (ih1 _ ?_)
                simp only at hs1
                rw [hs1, hdl]; simp
            | rep hh => rw [hh] at hm; cases hm
            | other hh => rw [hh] at hm; cases hm
          cases hms with
          | hook hh ha hm =>
            rename_i a msgs m
            have hapa := hen a ha
            subst hapa
            cases c with
            | call sender m' =>
              injection hh with hh; injection hh with e1 e2
              exact absurd e1 (hby sender m' rfl)
            | deliver r =>
              exfalso
              cases hdoes with
              | msg hh' _ _ _ _ _ hdd =>
                rw [hh'] at hh
                injection hh with hh; injection hh with e1 e2
                subst e1
                rcases hdd with ⟨hdl, _⟩ | ⟨_, hme'⟩
                · simp only [DaoCore.handled] at hh'
                  simp only [DaoCore.delivered] at hdl
                  split at hh'
                  · rename_i hst'
                    rw [hst'] at hdl; simp at hdl
                  · cases hh'
                · exact ih0 hme'
              | rep hh' => rw [hh'] at hh; cases hh
              | other hh' => rw [hh'] at hh; cases hh
          | admin hh hm =>
            simp only [hadm] at hh
            exact .nested (self hh) hm
          | callback hh hr' hm =>
            rename_i role r m
            cases hdoes with
            | msg _ hh' => rw [hh'] at hh; cases hh
            | @rep role' c' i rest _ hh' _ _ _ _ hs1 _ =>
              rw [hh'] at hh
              injection hh with hh; injection hh with e1 e2
              subst e1 e2
              refine .callback (i := i) (authorised_mono (ih1 _ ?_)) (List.mem_cons_self) rfl hh' hm
              simp only at hs1
              rw [hs1]; exact List.mem_cons_self
            | other _ hh' => rw [hh'] at hh; cases hh
          | voting hh => exact .voting (self hh)
          | proposal hh hi => exact .module (self hh) hi
      · intro d hd
        cases hdoes with
        | msg hh _ _ _ hs1 hs2 _ =>
          simp only at hs1 hs2
          rw [hs2, List.mem_append] at hd
          rw [hs1]
          exact hd.imp id (fun hd => List.mem_append.2 (Or.inr hd))
        | rep hh _ _ _ _ _ hs1 hs2 =>
          simp only at hs1 hs2
          rw [hs2, List.mem_append] at hd
          rw [hs1]
          exact hd.imp id (fun hd => List.mem_cons_of_mem _ hd)
        | other hh _ _ hs1 hs2 _ =>
          simp only at hs1 hs2
          rw [hs2] at hd
          rw [hs1]
          exact Or.inr (List.mem_cons_of_mem _ hd)

end Verif.WholeMulti
