import Verif.Props.FullRules
import Verif.Props.FullDaoLive
import Verif.Props.OwnRulesLive
/-! C129: the members of a DAO with any proposal modules can change the rules of each of them, and the membership, in all of
them. -/

namespace Verif.FullRules
open Verif Verif.FullDao Verif.Spec.FullRules
open Verif.WholeDao (VotingModule cw4 roles C80_cw4 C80_roles)
open Verif.WholeCondorcet (Now)
open Verif.Spec.WholeDao (Lawful)
open Verif.Spec.OwnRules (cw4Caller rolesCaller)

variable {S E C O : Type} {V : VotingModule S E C O} {N : Now S} {decode : Nat → DaoCore.CosmosMsg}
  {caller : E → C → Option Addr} {toCall : Nat → Option (Said C)}

theorem fromList_cons {e : Event S E C} {log : List (Event S E C)} (h : FromList caller toCall log)
    (he : ∀ x, said e.call = some x → speaker caller e.env e.call = some e.pre.core.core.me →
      ∃ e' rest r n tl, log = e' :: rest ∧ e'.call = .core (.deliver r) ∧
        e'.pre.core.stack = .send (.other n) :: tl ∧ toCall n = some x) : FromList caller toCall (e :: log) := by
  intro later before e1 x hl hx hs
  rcases later with _ | ⟨e0, later⟩
  · simp only [List.nil_append, List.cons.injEq] at hl
    obtain ⟨rfl, rfl⟩ := hl
    exact he x hx hs
  · simp only [List.cons_append, List.cons.injEq] at hl
    exact h later before e1 x hl.2 hx hs

/-- The proposal is executed: its message comes first on the list of the DAO, and no rules change. -/
theorem passed_executes (hV : Lawful V) {w0 w : World S} {b0 b : Block} {log : List (Event S E C)}
    (h : History V N decode caller toCall w0 w b0 b log) {e : Env} {n : Nat} {k : Call E C} (hp : Passed V w log e n k)
    (hout : e.sender ≠ w.core.core.me) :
    (∀ g c, k ≠ .vote g c) ∧ ∃ x o, step V N decode w e k = .ok (x, o) ∧ x.core.stack = .send (decode n) :: w.core.stack ∧
      x.vote = w.vote ∧ x.core.core.me = w.core.core.me ∧
      ∀ a m, w.mods.get a = some m → ∃ m', x.mods.get a = some m' ∧ SameRules m m' := by
  have hreach : (sys V N decode).Reach w b log := ⟨b0, w0, h.init, h.run⟩
  cases hp with
  | @single a s id p module now proposal waits veto decided member runs enabled msgs =>
    refine ⟨by simp, ?_⟩
    obtain ⟨x, o, h1, h2, h3⟩ := C95_carried_out_single hV hreach h.steady module now proposal waits veto decided member runs
      enabled
    replace h1 : step V N decode w e (.single a (.execute id false)) = .ok (x, o) := h1
    rw [h2, msgs] at h3
    obtain ⟨q, q', o', hq, hmods, hst, _, hv, _⟩ := single_effect h1
    rw [module, Option.some.injEq, Module.single.injEq] at hq
    subst hq
    obtain ⟨⟨o2, _, h4⟩, _⟩ := WholeDao.prop_effect hst
    have hcfg := (Single.C15_only_dao h4 (fun hc => hout (hc.trans now.2))).1
    refine ⟨x, o, h1, h3, hv, (full_stack_step h1).1, fun a' m hm => ?_⟩
    by_cases ha : a = a'
    · subst ha
      rw [module, Option.some.injEq] at hm
      subst hm
      exact ⟨.single q', by rw [hmods, AMap.get_set_self], hcfg⟩
    · exact ⟨m, by rw [hmods, AMap.get_set_ne _ _ ha]; exact hm, SameRules.refl m⟩
  | @multi a s id i p module now proposal waits veto decided member runs enabled msgs =>
    refine ⟨by simp, ?_⟩
    obtain ⟨c, x, o, h0, h1, h2, h3⟩ := C95_carried_out_multi hV hreach h.steady h.totals module now proposal waits veto decided
      member runs enabled
    replace h1 : step V N decode w e (.multi a (.execute id false)) = .ok (x, o) := h1
    rw [h0, Option.map_some, Option.some.injEq] at msgs
    rw [h2, msgs] at h3
    obtain ⟨q, q', o', hq, hmods, hst, _, hv, _⟩ := multi_effect h1
    rw [module, Option.some.injEq, Module.multi.injEq] at hq
    subst hq
    obtain ⟨⟨o2, _, h4⟩, _⟩ := WholeMulti.prop_effect hst
    have hcfg := (Multiple.C15_only_dao h4 (fun hc => hout (hc.trans now.2))).1
    refine ⟨x, o, h1, h3, hv, (full_stack_step h1).1, fun a' m hm => ?_⟩
    by_cases ha : a = a'
    · subst ha
      rw [module, Option.some.injEq] at hm
      subst hm
      exact ⟨.multi q', by rw [hmods, AMap.get_set_self], hcfg⟩
    · exact ⟨m, by rw [hmods, AMap.get_set_ne _ _ ha]; exact hm, SameRules.refl m⟩
  | @condorcet a s id i p t module now proposal tally waits decided member runs enabled msgs =>
    refine ⟨by simp, ?_⟩
    obtain ⟨c, x, o, h0, h1, h2, h3⟩ := C95_carried_out_condorcet hV hreach h.steady h.totals module now proposal tally waits
      decided member runs enabled
    replace h1 : step V N decode w e (.condorcet a (.execute id false)) = .ok (x, o) := h1
    rw [h0, Option.some.injEq] at msgs
    rw [h2, msgs] at h3
    obtain ⟨q, q', o', hq, hmods, hst, _, hv, _⟩ := condorcet_effect h1
    rw [module, Option.some.injEq, Module.condorcet.injEq] at hq
    subst hq
    obtain ⟨⟨o2, _, h4⟩, _⟩ := WholeCondorcet.prop_effect hst
    have hcfg : q'.config = s.config ∧ q'.dao = s.dao := by
      by_contra hne
      obtain ⟨hc, _⟩ := Condorcet.C25_only_dao h4 (by rw [← Classical.not_and_iff_not_or_not]; exact hne)
      refine hout (hc.trans ?_)
      rw [full_me_run h.run]
      exact condorcet_dao h.init h.run module
    refine ⟨x, o, h1, h3, hv, (full_stack_step h1).1, fun a' m hm => ?_⟩
    by_cases ha : a = a'
    · subst ha
      rw [module, Option.some.injEq] at hm
      subst hm
      exact ⟨.condorcet q', by rw [hmods, AMap.get_set_self], hcfg⟩
    · exact ⟨m, by rw [hmods, AMap.get_set_ne _ _ ha]; exact hm, SameRules.refl m⟩

/-- Up to the delivery of the message. -/
theorem delivered (hV : Lawful V) {w0 w : World S} {b0 b : Block} {log : List (Event S E C)}
    (h : History V N decode caller toCall w0 w b0 b log) {e : Env} (hb : b.le e.block) {n j : Nat} {k : Call E C}
    (hp : Passed V w log e n k) (hout : e.sender ≠ w.core.core.me) (hn : decode n = .other j) :
    ∃ y log', (sys V N decode).Run w b log' y e.block ∧ FromList caller toCall (log' ++ log) ∧
      log'.map (fun ev => (ev.env, ev.call)) = [(e, .core (.deliver ⟨0, []⟩)), (e, k)] ∧
      (∃ e' rest, log' = e' :: rest ∧ e'.call = .core (.deliver ⟨0, []⟩) ∧
        e'.pre.core.stack = .send (.other j) :: w.core.stack) ∧
      y.vote = w.vote ∧ y.core.stack = w.core.stack ∧ y.core.core.me = w.core.core.me ∧
      ∀ a m, w.mods.get a = some m → ∃ m', y.mods.get a = some m' ∧ SameRules m m' := by
  obtain ⟨hnv, x, o, h1, h2, h3, h4, h5⟩ := passed_executes hV h hp hout
  rw [hn] at h2
  have hd : step V N decode x e (.core (.deliver ⟨0, []⟩)) =
      .ok ({ x with core := ⟨x.core.core, w.core.stack⟩ }, ⟨.none, []⟩) := by
    simp only [step, notByModule, require, if_true, ok_bind, DaoCore.step, h2]
  refine ⟨{ x with core := ⟨x.core.core, w.core.stack⟩ }, _, .step (M := sys V N decode) (env := e)
    (call := .core (.deliver ⟨0, []⟩)) (.step (M := sys V N decode) (env := e) (call := k) .refl hb h1) (Block.le_refl _) hd,
    ?_, rfl, ⟨_, _, rfl, rfl, h2⟩, h3, rfl, h4, h5⟩
  refine fromList_cons (fromList_cons h.fromList (fun y _ hs => ?_)) (fun _ hx _ => by simp [said] at hx)
  exfalso
  have hs' : speaker caller e k = some w.core.core.me := hs
  cases k with
  | vote g c => exact hnv g c rfl
  | core _ => injection hs' with hs'; exact hout hs'
  | spawn _ _ => injection hs' with hs'; exact hout hs'
  | single _ _ => injection hs' with hs'; exact hout hs'
  | multi _ _ => injection hs' with hs'; exact hout hs'
  | condorcet _ _ => injection hs' with hs'; exact hout hs'

/-- **C129.** What the members have decided in any of the proposal modules to say to the voting module, or to a contract behind
it, can be carried out, if it is accepted from the DAO: the three transactions succeed, whoever executes the proposal. No rules
of the proposal modules change. -/
theorem C129_voting (hV : Lawful V) {w0 w : World S} {b0 b : Block} {log : List (Event S E C)}
    (h : History V N decode caller toCall w0 w b0 b log) {e : Env} (hb : b.le e.block) {n j : Nat} {x : Call E C}
    (hp : Passed V w log e n x) (hout : e.sender ≠ w.core.core.me) (hn : decode n = .other j)
    {k : C} (hj : toCall j = some (.vote k)) {g : E} (hg : V.sys.block g = e.block)
    {v : S} {o : O} (hx : V.sys.step w.vote g k = .ok (v, o)) :
    ∃ w' log', (sys V N decode).Run w b log' w' e.block ∧ FromList caller toCall (log' ++ log) ∧
      log'.map (fun ev => (ev.env, ev.call)) = [(e, .vote g k), (e, .core (.deliver ⟨0, []⟩)), (e, x)] ∧
      w'.vote = v ∧ w'.core.stack = w.core.stack ∧
      ∀ a m, w.mods.get a = some m → ∃ m', w'.mods.get a = some m' ∧ SameRules m m' := by
  obtain ⟨y, l, hr, hf, hl, ⟨e', rest, rfl, he', hs'⟩, hv, hst, hme, hcfg⟩ := delivered hV h hb hp hout hn
  have hs : step V N decode y e (.vote g k) = .ok ({ y with vote := v }, ⟨.none, []⟩) := by
    rw [← hv] at hx
    simp only [step, hg, decide_true, require, if_true, ok_bind, hx]
  refine ⟨{ y with vote := v }, _, .step (M := sys V N decode) (env := e) (call := .vote g k) hr (Block.le_refl _) hs, ?_, ?_,
    rfl, hst, hcfg⟩
  · refine fromList_cons hf (fun x hx _ => ⟨e', _, _, j, _, rfl, he', hs', ?_⟩)
    simp only [said, Option.some.injEq] at hx
    rw [← hx]; exact hj
  · rw [List.map_cons, hl]

/-- **C129.** What the members have decided in any of the proposal modules about the rules of a module of
dao-proposal-single can be carried out, if the rules are sound: the three transactions succeed, whoever executes the proposal.
All other modules keep their rules. -/
theorem C129_single (hV : Lawful V) {w0 w : World S} {b0 b : Block} {log : List (Event S E C)}
    (h : History V N decode caller toCall w0 w b0 b log) {e : Env} (hb : b.le e.block) {n j : Nat} {x : Call E C}
    (hp : Passed V w log e n x) (hout : e.sender ≠ w.core.core.me) (hn : decode n = .other j)
    {a : Addr} {s : Single.State} (hs : w.mods.get a = some (.single s)) (hdao : s.config.dao = w.core.core.me)
    {c : Single.Config} (hj : toCall j = some (.single a (.updateConfig c))) (hc : Single.Sound c) :
    ∃ w' log' s', (sys V N decode).Run w b log' w' e.block ∧ FromList caller toCall (log' ++ log) ∧
      log'.map (fun ev => (ev.env, ev.call)) =
        [({ e with sender := w.core.core.me }, .single a (.updateConfig c)), (e, .core (.deliver ⟨0, []⟩)), (e, x)] ∧
      w'.mods.get a = some (.single s') ∧ s'.config = c ∧
      (∀ a' m, a' ≠ a → w.mods.get a' = some m → ∃ m', w'.mods.get a' = some m' ∧ SameRules m m') ∧
      w'.vote = w.vote ∧ w'.core.stack = w.core.stack := by
  obtain ⟨y, l, hr, hf, hl, ⟨e', rest, rfl, he', hs'⟩, hv, hst, hme, hcfg⟩ := delivered hV h hb hp hout hn
  obtain ⟨m, hq, hq2⟩ := hcfg a _ hs
  obtain ⟨q, rfl⟩ : ∃ q, m = .single q := by cases m <;> first | exact ⟨_, rfl⟩ | exact hq2.elim
  simp only [SameRules] at hq2
  have hstep : step V N decode y { e with sender := w.core.core.me } (.single a (.updateConfig c)) =
      .ok ({ y with mods := y.mods.set a (.single { q with config := c }) }, ⟨.single { msgs := [] }, []⟩) := by
    have h1 : q.config.dao = w.core.core.me := by rw [hq2]; exact hdao
    have h2 : Single.validateConfig c = .ok () := Single.sound_ok.2 hc
    simp only [step, singleAt_ok.2 hq, ok_bind, WholeDao.step, Single.step, Single.execUpdateConfig, WholeDao.propEnv, viewSingle, Env.single,
      h1, decide_true, require, if_true, h2, WholeDao.passOn, WholeDao.daoFails, Bool.false_eq_true, if_false,
      WholeDao.handOn, ofSingle]
  refine ⟨_, _, { q with config := c }, .step (M := sys V N decode) (env := { e with sender := w.core.core.me })
    (call := .single a (.updateConfig c)) hr (Block.le_refl _) hstep, ?_, ?_, AMap.get_set_self .., rfl, fun a' m ha hm => ?_, hv, hst⟩
  · refine fromList_cons hf (fun x hx _ => ⟨e', _, _, j, _, rfl, he', hs', ?_⟩)
    simp only [said, Spec.isReply, Bool.false_eq_true, if_false, Option.some.injEq] at hx
    rw [← hx]; exact hj
  · rw [List.map_cons, hl]
  · obtain ⟨m', h3, h4⟩ := hcfg a' m hm
    exact ⟨m', (AMap.get_set_ne _ _ (Ne.symm ha)).trans h3, h4⟩

/-- **C129.** What the members have decided in any of the proposal modules about the rules of a module of
dao-proposal-multiple can be carried out, if the rules are sound: the three transactions succeed, whoever executes the proposal.
All other modules keep their rules. -/
theorem C129_multi (hV : Lawful V) {w0 w : World S} {b0 b : Block} {log : List (Event S E C)}
    (h : History V N decode caller toCall w0 w b0 b log) {e : Env} (hb : b.le e.block) {n j : Nat} {x : Call E C}
    (hp : Passed V w log e n x) (hout : e.sender ≠ w.core.core.me) (hn : decode n = .other j)
    {a : Addr} {s : Multiple.State} (hs : w.mods.get a = some (.multi s)) (hdao : s.config.dao = w.core.core.me)
    {c : Multiple.Config} (hj : toCall j = some (.multi a (.updateConfig c))) (hc : Multiple.Sound c) :
    ∃ w' log' s', (sys V N decode).Run w b log' w' e.block ∧ FromList caller toCall (log' ++ log) ∧
      log'.map (fun ev => (ev.env, ev.call)) =
        [({ e with sender := w.core.core.me }, .multi a (.updateConfig c)), (e, .core (.deliver ⟨0, []⟩)), (e, x)] ∧
      w'.mods.get a = some (.multi s') ∧ s'.config = c ∧
      (∀ a' m, a' ≠ a → w.mods.get a' = some m → ∃ m', w'.mods.get a' = some m' ∧ SameRules m m') ∧
      w'.vote = w.vote ∧ w'.core.stack = w.core.stack := by
  obtain ⟨y, l, hr, hf, hl, ⟨e', rest, rfl, he', hs'⟩, hv, hst, hme, hcfg⟩ := delivered hV h hb hp hout hn
  obtain ⟨m, hq, hq2⟩ := hcfg a _ hs
  obtain ⟨q, rfl⟩ : ∃ q, m = .multi q := by cases m <;> first | exact ⟨_, rfl⟩ | exact hq2.elim
  simp only [SameRules] at hq2
  have hstep : step V N decode y { e with sender := w.core.core.me } (.multi a (.updateConfig c)) =
      .ok ({ y with mods := y.mods.set a (.multi { q with config := c }) }, ⟨.multi { msgs := [] }, []⟩) := by
    have h1 : q.config.dao = w.core.core.me := by rw [hq2]; exact hdao
    have h2 : Multiple.validateConfig c = .ok () := Multiple.sound_ok.2 hc
    simp only [step, multiAt_ok.2 hq, ok_bind, WholeMulti.step, Multiple.step, Multiple.execUpdateConfig, WholeMulti.propEnv, viewMulti, Env.multi,
      h1, decide_true, require, if_true, h2, WholeMulti.passOn, WholeMulti.daoFails, Bool.false_eq_true, if_false,
      WholeMulti.handOn, ofMulti]
  refine ⟨_, _, { q with config := c }, .step (M := sys V N decode) (env := { e with sender := w.core.core.me })
    (call := .multi a (.updateConfig c)) hr (Block.le_refl _) hstep, ?_, ?_, AMap.get_set_self .., rfl, fun a' m ha hm => ?_, hv, hst⟩
  · refine fromList_cons hf (fun x hx _ => ⟨e', _, _, j, _, rfl, he', hs', ?_⟩)
    simp only [said, Spec.Multi.isReply, Bool.false_eq_true, if_false, Option.some.injEq] at hx
    rw [← hx]; exact hj
  · rw [List.map_cons, hl]
  · obtain ⟨m', h3, h4⟩ := hcfg a' m hm
    exact ⟨m', (AMap.get_set_ne _ _ (Ne.symm ha)).trans h3, h4⟩

/-- **C129.** What the members have decided in any of the proposal modules about the rules of a module of
dao-proposal-condorcet can be carried out, if the rules are sound: the three transactions succeed, whoever executes the proposal.
All other modules keep their rules. -/
theorem C129_condorcet (hV : Lawful V) {w0 w : World S} {b0 b : Block} {log : List (Event S E C)}
    (h : History V N decode caller toCall w0 w b0 b log) {e : Env} (hb : b.le e.block) {n j : Nat} {x : Call E C}
    (hp : Passed V w log e n x) (hout : e.sender ≠ w.core.core.me) (hn : decode n = .other j)
    {a : Addr} {s : Condorcet.State} (hs : w.mods.get a = some (.condorcet s))
    {c : Condorcet.Config} (hj : toCall j = some (.condorcet a (.setConfig c))) (hc : Condorcet.Sound c) :
    ∃ w' log' s', (sys V N decode).Run w b log' w' e.block ∧ FromList caller toCall (log' ++ log) ∧
      log'.map (fun ev => (ev.env, ev.call)) =
        [({ e with sender := w.core.core.me }, .condorcet a (.setConfig c)), (e, .core (.deliver ⟨0, []⟩)), (e, x)] ∧
      w'.mods.get a = some (.condorcet s') ∧ s'.config = c ∧
      (∀ a' m, a' ≠ a → w.mods.get a' = some m → ∃ m', w'.mods.get a' = some m' ∧ SameRules m m') ∧
      w'.vote = w.vote ∧ w'.core.stack = w.core.stack := by
  obtain ⟨y, l, hr, hf, hl, ⟨e', rest, rfl, he', hs'⟩, hv, hst, hme, hcfg⟩ := delivered hV h hb hp hout hn
  obtain ⟨m, hq, hq2⟩ := hcfg a _ hs
  obtain ⟨q, rfl⟩ : ∃ q, m = .condorcet q := by cases m <;> first | exact ⟨_, rfl⟩ | exact hq2.elim
  simp only [SameRules] at hq2
  have hstep : step V N decode y { e with sender := w.core.core.me } (.condorcet a (.setConfig c)) =
      .ok ({ y with mods := y.mods.set a (.condorcet { q with config := c }) }, ⟨.condorcet {}, []⟩) := by
    have h1 : q.dao = w.core.core.me := by
      rw [hq2.2, full_me_run h.run]
      exact condorcet_dao h.init h.run hs
    have h2 : c.intoChecked = .ok c := Condorcet.sound_ok.2 ⟨hc, rfl⟩
    simp only [step, condorcetAt_ok.2 hq, ok_bind, WholeCondorcet.step, Condorcet.step, Condorcet.execSetConfig, WholeCondorcet.propEnv, viewCondorcet, Env.condorcet,
      h1, decide_true, require, if_true, h2, WholeCondorcet.passOn, WholeCondorcet.daoFails, Bool.false_eq_true, if_false,
      WholeCondorcet.handOn, ofCondorcet]
  refine ⟨_, _, { q with config := c }, .step (M := sys V N decode) (env := { e with sender := w.core.core.me })
    (call := .condorcet a (.setConfig c)) hr (Block.le_refl _) hstep, ?_, ?_, AMap.get_set_self .., rfl, fun a' m ha hm => ?_, hv, hst⟩
  · refine fromList_cons hf (fun x hx _ => ⟨e', _, _, j, _, rfl, he', hs', ?_⟩)
    simp only [said, Bool.false_eq_true, if_false, Option.some.injEq] at hx
    rw [← hx]; exact hj
  · rw [List.map_cons, hl]
  · obtain ⟨m', h3, h4⟩ := hcfg a' m hm
    exact ⟨m', (AMap.get_set_ne _ _ (Ne.symm ha)).trans h3, h4⟩

/-- The voting module is in a state it can be in. -/
theorem vote_reach {w0 w : World S} {b0 b : Block} {log : List (Event S E C)} (hi : Init V b0 w0)
    (h : (sys V N decode).Run w0 b0 log w b) : ∃ b1 l, V.sys.Reach w.vote b1 l ∧ b1.le b := by
  obtain ⟨_, _, hv⟩ := hi
  induction h with
  | refl => exact hv
  | @step s1 s2 b3 log env call out hr hb3 hs ih =>
    obtain ⟨b1, l, h1, hle⟩ := ih
    have hb3' : Block.le _ env.block := hb3
    obtain ⟨_, _, hp⟩ := effect (V := V) (N := N) (decode := decode) hs
    cases hp with
    | none _ hv => exact ⟨b1, l, by rw [hv]; exact h1, Block.le_trans hle hb3'⟩
    | core _ hv => exact ⟨b1, l, by rw [hv]; exact h1, Block.le_trans hle hb3'⟩
    | vote g c o _ _ hc hg hst =>
      obtain ⟨c0, s0, hi0, hr0⟩ := h1
      exact ⟨_, _, ⟨c0, s0, hi0, .step (M := V.sys) (env := g) (call := c) hr0
        (by rw [hg]; exact Block.le_trans hle hb3') hst⟩, by rw [hg]; exact Block.le_refl _⟩

/-- **C129.** dao-voting-cw4, with the DAO as the admin of the group: what the members have decided in any of the proposal
modules about who is a member and with what weight can be carried out, as long as no address is listed twice and the weights fit
64 bits; after that everybody has the weight so decided. -/
theorem C129_members_cw4 {N : Now Cw4Voting.World} {toCall : Nat → Option (Said Cw4Voting.VCall)} {w0 w : World Cw4Voting.World}
    {b0 b : Block} {log : List (Event Cw4Voting.World Block Cw4Voting.VCall)}
    (h : History cw4 N decode cw4Caller toCall w0 w b0 b log) {e : Env} (hb : b.le e.block) {n j : Nat}
    {x : Call Block Cw4Voting.VCall} (hp : Passed cw4 w log e n x) (hout : e.sender ≠ w.core.core.me) (hn : decode n = .other j)
    (hadm : w.vote.group.admin = some w.core.core.me) {remove : List Addr} {add : List Cw4Voting.Member}
    (hj : toCall j = some (.vote (.group ⟨w.core.core.me, .updateMembers remove add⟩)))
    (hadd : (add.map (·.1)).Nodup) (hfit : cw4.totalWeight w.vote + (add.map (·.2)).sum < 2 ^ 64) :
    ∃ w' log', (sys cw4 N decode).Run w b log' w' e.block ∧ FromList cw4Caller toCall (log' ++ log) ∧
      log'.map (fun ev => (ev.env, ev.call)) =
        [(e, .vote e.block (.group ⟨w.core.core.me, .updateMembers remove add⟩)), (e, .core (.deliver ⟨0, []⟩)), (e, x)] ∧
      (∀ a ∈ remove, cw4.weight w'.vote a = 0) ∧
      (∀ a m, (a, m) ∈ add → a ∉ remove → cw4.weight w'.vote a = m) ∧
      ∀ a, a ∉ remove → a ∉ add.map (·.1) → cw4.weight w'.vote a = cw4.weight w.vote a := by
  obtain ⟨b1, l1, hreach, _⟩ := vote_reach h.init h.run
  obtain ⟨⟨v, o⟩, hx⟩ := (Cw4Voting.C71_admin_can hreach hadm e.block b).1 remove add hadd hfit
  obtain ⟨w', log', h1, h2, h3, h4, _⟩ := C129_voting (V := cw4) C80_cw4 h hb hp hout hn hj (g := e.block) rfl hx
  have hu := fun q => Cw4Voting.C71_update (now := b) hreach hx q
  refine ⟨w', log', h1, h2, h3, fun a ha => ?_, fun a m ha hr => ?_, fun a hr ha => ?_⟩
  · rw [h4]; exact (hu a).1 ha
  · rw [h4]; exact (hu a).2.1 m hr ha
  · rw [h4]
    exact congrArg Prod.fst ((hu a).2.2.1 hr (fun m hm => ha (List.mem_map.2 ⟨_, hm, rfl⟩)))

/-- **C129.** dao-voting-cw721-roles, with the DAO as the owner of the role contract: a new role the members have decided on in
any of the proposal modules can be given, if the weights fit 64 bits, and this adds to the weight of its holder exactly what was
decided. -/
theorem C129_members_roles {N : Now Roles.Voting.World} {toCall : Nat → Option (Said Roles.Voting.Call)}
    {w0 w : World Roles.Voting.World} {b0 b : Block} {log : List (Event Roles.Voting.World Roles.Env Roles.Voting.Call)}
    (h : History roles N decode rolesCaller toCall w0 w b0 b log) {e : Env} (hb : b.le e.block) {n j : Nat}
    {x : Call Roles.Env Roles.Voting.Call} (hp : Passed roles w log e n x) (hout : e.sender ≠ w.core.core.me)
    (hn : decode n = .other j) (hown : w.vote.roles.ownership.owner = some w.core.core.me) (hself : w.vote.self ≠ w.core.core.me)
    {t a k : Nat} {u r : Option Nat} (hj : toCall j = some (.vote (.roles (.mint t a u r k))))
    (hnew : w.vote.roles.tokens.get t = none) (hfit : roles.totalWeight w.vote + k < U64)
    (hcount : w.vote.roles.count + 1 < U64) :
    ∃ w' log', (sys roles N decode).Run w b log' w' e.block ∧ FromList rolesCaller toCall (log' ++ log) ∧
      log'.map (fun ev => (ev.env, ev.call)) =
        [(e, .vote ⟨e.block, w.core.core.me⟩ (.roles (.mint t a u r k))), (e, .core (.deliver ⟨0, []⟩)), (e, x)] ∧
      roles.weight w'.vote a = roles.weight w.vote a + k ∧ ∀ a', a' ≠ a → roles.weight w'.vote a' = roles.weight w.vote a' := by
  obtain ⟨b1, l1, hreach, _⟩ := vote_reach h.init h.run
  obtain ⟨l2, hreach⟩ := WholeDao.reach_roles hreach
  obtain ⟨⟨v, o⟩, hx⟩ := (Roles.C69_mint_iff hreach hown e.block t a u r k).2 ⟨hnew, hfit, hcount⟩
  have hx' : roles.sys.step w.vote ⟨e.block, w.core.core.me⟩ (.roles (.mint t a u r k)) =
      .ok ({ w.vote with roles := v }, o) := by
    simp only [roles, Roles.Voting.sysExisting, Roles.Voting.step, hself.symm, ne_eq, not_false_eq_true, decide_true, require,
      if_true, ok_bind, hx]
  obtain ⟨w', log', h1, h2, h3, h4, _⟩ := C129_voting (V := roles) C80_roles h hb hp hout hn hj
    (g := ⟨e.block, w.core.core.me⟩) rfl hx'
  refine ⟨w', log', h1, h2, h3, ?_⟩
  rw [h4]
  have hd := Roles.exec_does hx
  cases hd with
  | mint hT' hTw hn hfree hc hc' =>
    subst hn
    refine ⟨?_, fun a' ha' => ?_⟩
    · simp only [roles, Snap.get_save, if_true, Option.getD_some]
    · simp only [roles, Snap.get_save, ha', ha'.symm, if_false]

end Verif.FullRules
