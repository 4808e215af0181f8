import Verif.Proofs.FullDao
import Verif.Props.WholeDao
import Verif.Props.WholeMulti
import Verif.Props.WholeCondorcet
/-!
# C95: a DAO with any number of proposal modules does what its members decide
-/

namespace Verif.FullDao
open Verif Verif.Voting Verif.Spec Verif.Spec.FullDao
open Verif.WholeDao (VotingModule)
open Verif.WholeCondorcet (Now)
open Verif.Spec.WholeDao (Lawful)

variable {S E C O : Type} {V : VotingModule S E C O} {N : Now S} {decode : Nat → DaoCore.CosmosMsg}

/-- **C95.** Every proposal of every module is executed at most once in the life of the DAO. -/
theorem C95_once {w : World S} {b : Block} {log : List (Event S E C)} (h : (sys V N decode).Reach w b log) (a : Addr)
    (id : Nat) : (log.filter (executes a id)).length ≤ 1 := by
  cases hg : w.mods.get a with
  | none => rw [(quiet (untouched h hg) id).2.2.2]; simp
  | some m =>
    cases m with
    | single s =>
      obtain ⟨_, _, _, h1, _, _, h2⟩ := project_single h hg
      rw [← h2 id]; exact WholeDao.C80_once h1 id
    | multi s =>
      obtain ⟨_, _, _, h1, _, _, _, h2⟩ := project_multi h hg
      rw [← h2 id]; exact WholeMulti.C81_once h1 id
    | condorcet s =>
      obtain ⟨_, _, _, h1, _, _, _, h2⟩ := project_condorcet h hg
      rw [← h2 id]; exact WholeCondorcet.C94_once h1 id

theorem chosen_single (hV : Lawful V) {w w' : World S} {b : Block} {log : List (Event S E C)}
    (h : (sys V N decode).Reach w b log) {e : Env} {out : Out} {a : Addr} {id : Nat} {f : Bool} (hb : b.le e.block)
    (hs : step V N decode w e (.single a (.execute id f)) = .ok (w', out))
    (hst : Steady ((⟨w, e, .single a (.execute id f), out, w'⟩ : Event S E C) :: log)) :
    ∃ msgs, Chosen V log (⟨w, e, .single a (.execute id f), out, w'⟩ : Event S E C) a id msgs ∧
      (out.core = [] ∨
        DaoCore.step w.core (coreEnv e) (.call a (.executeProposalHook (msgs.map decode))) = .ok (w'.core, out.core)) := by
  obtain ⟨s, s', o, hg, hm, hstep, rfl, hv, hva⟩ := single_effect hs
  obtain ⟨b1, log', hb1, h1, h2, h3, _⟩ := project_single h hg
  have hreach := h1.step (env := e.single) (call := (WholeDao.Call.prop (.execute id f) : WholeDao.Call E C)) (out := o)
    (Block.le_trans hb1 hb) hstep
  have hsteady : Spec.WholeDao.Steady ((⟨viewSingle w a s, e.single, .prop (.execute id f), o, viewSingle w' a s'⟩ :
      WholeDao.Event S E C) :: log') := by
    intro ev hev
    rcases List.mem_cons.1 hev with rfl | hev
    · exact hst _ List.mem_cons_self a _ hg
    · exact h3 (fun e he => hst e (List.mem_cons_of_mem _ he)) ev hev
  obtain ⟨p, hp, hdec⟩ := WholeDao.C80_decided hV hreach hsteady (later := []) (before := log') rfl (id := id) (f := f) rfl
  obtain ⟨p', hp', hnear⟩ := WholeDao.C80_nearly_decided hV hreach hsteady (later := []) (before := log') rfl (id := id)
    (f := f) rfl
  rw [hp] at hp'
  injection hp' with hp'
  subst hp'
  have hx : (fun x => lastSingle a id x log) = (fun x => lastVote x id (Spec.WholeDao.propLog V log')) :=
    funext (fun x => (h2 id x).symm)
  refine ⟨p.msgs, .single rfl hg hp (fun h9 => ?_) ?_, ?_⟩
  · rw [hx]; exact hdec h9
  · rw [hx]; exact hnear
  · obtain ⟨_, _, _, _, ⟨_, h4⟩ | ⟨id', p', hc, hp', h4⟩⟩ := WholeDao.prop_effect (decode := decode) hstep
    · exact Or.inl h4
    · injection hc with hc1 hc2
      subst hc1
      simp only at hp
      rw [hp] at hp'
      injection hp' with hp'
      subst hp'
      exact Or.inr h4

theorem chosen_multi (hV : Lawful V) {w w' : World S} {b : Block} {log : List (Event S E C)}
    (h : (sys V N decode).Reach w b log) {e : Env} {out : Out} {a : Addr} {id : Nat} {f : Bool} (hb : b.le e.block)
    (hs : step V N decode w e (.multi a (.execute id f)) = .ok (w', out))
    (hst : Steady ((⟨w, e, .multi a (.execute id f), out, w'⟩ : Event S E C) :: log)) (hN : TotalsOfHeight V N log) :
    ∃ msgs, Chosen V log (⟨w, e, .multi a (.execute id f), out, w'⟩ : Event S E C) a id msgs ∧
      (out.core = [] ∨
        DaoCore.step w.core (coreEnv e) (.call a (.executeProposalHook (msgs.map decode))) = .ok (w'.core, out.core)) := by
  obtain ⟨s, s', o, hg, hm, hstep, rfl, hv, hva⟩ := multi_effect hs
  obtain ⟨b1, log', hb1, h1, h2, h3, h5, _⟩ := project_multi h hg
  have hreach := h1.step (env := e.multi) (call := (WholeMulti.Call.prop (.execute id f) : WholeMulti.Call E C)) (out := o)
    (Block.le_trans hb1 hb) hstep
  have hsteady : Spec.WholeMulti.Steady ((⟨viewMulti w a s, e.multi, .prop (.execute id f), o, viewMulti w' a s'⟩ :
      WholeMulti.Event S E C) :: log') := by
    intro ev hev
    rcases List.mem_cons.1 hev with rfl | hev
    · exact hst _ List.mem_cons_self a _ hg
    · exact h3 (fun e he => hst e (List.mem_cons_of_mem _ he)) ev hev
  have htot : Spec.WholeMulti.TotalsOfHeight V N.total ((⟨viewMulti w a s, e.multi, .prop (.execute id f), o,
      viewMulti w' a s'⟩ : WholeMulti.Event S E C) :: log') := by
    intro ev hev
    rcases List.mem_cons.1 hev with rfl | hev
    · rintro ⟨_, _, _, _, _, hx⟩; cases hx
    · exact h5 hN ev hev
  obtain ⟨p, i, c, hp, hi, hw, hdec⟩ := WholeMulti.executed_for hV hreach hsteady htot (later := []) (before := log') rfl
    (id := id) (f := f) rfl
  have hx : (fun x => lastMulti a id x log) = (fun x => Multi.lastVote x id (Spec.WholeMulti.propLog V N.total log')) :=
    funext (fun x => (h2 id x).symm)
  refine ⟨c.msgs, .multi rfl hg hp hi (fun h9 => ?_) ?_, ?_⟩
  · rw [hx]; exact hdec.1 h9
  · rw [hx]; exact hdec.2
  · obtain ⟨_, _, _, _, ⟨_, h4⟩ | ⟨id', p', ms, hc, hp', hw', h4⟩⟩ := WholeMulti.prop_effect (decode := decode) hstep
    · exact Or.inl h4
    · injection hc with hc1 hc2
      subst hc1
      simp only at hp
      rw [hp] at hp'
      injection hp' with hp'
      subst hp'
      rw [hw] at hw'
      injection hw' with hw'
      subst hw'
      exact Or.inr h4

theorem chosen_condorcet (hV : Lawful V) {w w' : World S} {b : Block} {log : List (Event S E C)}
    (h : (sys V N decode).Reach w b log) {e : Env} {out : Out} {a : Addr} {id : Nat} {f : Bool} (hb : b.le e.block)
    (hs : step V N decode w e (.condorcet a (.execute id f)) = .ok (w', out))
    (hst : Steady ((⟨w, e, .condorcet a (.execute id f), out, w'⟩ : Event S E C) :: log)) (hN : TotalsOfHeight V N log) :
    ∃ msgs, Chosen V log (⟨w, e, .condorcet a (.execute id f), out, w'⟩ : Event S E C) a id msgs ∧
      (out.core = [] ∨
        DaoCore.step w.core (coreEnv e) (.call a (.executeProposalHook (msgs.map decode))) = .ok (w'.core, out.core)) := by
  obtain ⟨s, s', o, hg, hm, hstep, rfl, hv, hva⟩ := condorcet_effect hs
  obtain ⟨b1, log', hb1, h1, h2, h3, h5, _⟩ := project_condorcet h hg
  have hsteady := h3 (fun e he => hst e (List.mem_cons_of_mem _ he))
  obtain ⟨⟨o', _, hp'⟩, _, _, _, he⟩ := WholeCondorcet.prop_effect (decode := decode) hstep
  simp only [Condorcet.step] at hp'
  obtain ⟨t, p, i, ms, _, ht, hp, _, hpass, hch, _⟩ := Condorcet.execute_inv hp'
  refine ⟨ms, .condorcet rfl hg hp ht hch (fun h9 => ?_) ?_, ?_⟩
  · have hd := WholeCondorcet.passed_decided hV h1 hsteady (h5 hN) hp ht hpass h9
    rw [← h2 id]
    exact hd
  · have hd := WholeCondorcet.passed_nearly hV h1 hsteady (h5 hN) hp ht hpass
    rw [← h2 id]
    exact hd
  · rcases he with ⟨_, h4⟩ | ⟨id', p', t', i', ms', hc, hpp, htt, hpass', hch', h4⟩
    · exact Or.inl h4
    · injection hc with hc1 hc2
      subst hc1
      rw [hp] at hpp
      injection hpp with hpp
      subst hpp
      rw [ht] at htt
      injection htt with htt
      subst htt
      rw [show (WholeCondorcet.propEnv V N (viewCondorcet w a s) e.condorcet).block = e.condorcet.block from rfl, hpass'] at hpass
      injection hpass with hpass
      injection hpass with hpass
      subst hpass
      rw [hch] at hch'
      injection hch' with hch'
      subst hch'
      exact Or.inr h4

/-- **C95.** When a proposal is executed, in whichever module, the members have decided for it. -/
theorem C95_decided (hV : Lawful V) {w : World S} {b : Block} {log : List (Event S E C)}
    (h : (sys V N decode).Reach w b log) (hst : Steady log) (hN : TotalsOfHeight V N log)
    {later before : List (Event S E C)} {ev : Event S E C} (hl : log = later ++ ev :: before) {a : Addr} {id : Nat}
    (hx : executes a id ev = true) : ∃ msgs, Chosen V before ev a id msgs := by
  obtain ⟨b0, w0, hi, hr⟩ := h
  subst hl
  obtain ⟨s1, b1, h1, _⟩ := hr.split
  cases h1 with
  | @step s1' _ b1' _ env call out h1 hb hs =>
  have hst' : Steady ((⟨s1', env, call, out, s1⟩ : Event S E C) :: before) :=
    fun e he => hst e (List.mem_append_right _ he)
  have hN' : TotalsOfHeight V N before := fun e he => hN e (List.mem_append_right _ (List.mem_cons_of_mem _ he))
  unfold executes at hx
  split at hx
  · rename_i a' id' f hc
    simp only at hc
    subst hc
    obtain ⟨rfl, rfl⟩ := of_decide_eq_true hx
    obtain ⟨msgs, h2, _⟩ := chosen_single hV ⟨b0, w0, hi, h1⟩ hb hs hst'
    exact ⟨msgs, h2⟩
  · rename_i a' id' f hc
    simp only at hc
    subst hc
    obtain ⟨rfl, rfl⟩ := of_decide_eq_true hx
    obtain ⟨msgs, h2, _⟩ := chosen_multi hV ⟨b0, w0, hi, h1⟩ hb hs hst' hN'
    exact ⟨msgs, h2⟩
  · rename_i a' id' f hc
    simp only at hc
    subst hc
    obtain ⟨rfl, rfl⟩ := of_decide_eq_true hx
    obtain ⟨msgs, h2, _⟩ := chosen_condorcet hV ⟨b0, w0, hi, h1⟩ hb hs hst' hN'
    exact ⟨msgs, h2⟩
  · cases hx

theorem hook_inv {w w' : DaoCore.World} {e : DaoCore.Env} {a : Addr} {msgs : List DaoCore.CosmosMsg}
    {out : List DaoCore.Sub} (h : DaoCore.step w e (.call a (.executeProposalHook msgs)) = .ok (w', out)) :
    DaoCore.Enabled w.core a ∧ out = msgs.map .send ∧ w' = ⟨w.core, out ++ w.stack⟩ ∧ a ≠ w.core.me := by
  simp only [DaoCore.step, DaoCore.execute, DaoCore.dispatch, DaoCore.proposalHook, bind_ok, require_ok, orErr_ok,
    Prod.exists, Except.ok.injEq, Prod.mk.injEq, decide_eq_true_eq] at h
  obtain ⟨_, hne, s, o, ⟨_, _, m, hm, _, he, rfl, rfl⟩, rfl, rfl⟩ := h
  exact ⟨⟨m, hm, he⟩, rfl, rfl, hne⟩

/-- **C95.** Whenever the DAO gets something to send, it gets exactly the messages, in order, which the members have
decided for in a proposal executed in this very transaction, in an enabled module of the DAO; or it comes from one of the
other sources C47 lists, and then it is none of the DAO's proposal modules that called. -/
theorem C95_mandate (hV : Lawful V) {w : World S} {b : Block} {log : List (Event S E C)}
    (h : (sys V N decode).Reach w b log) (hst : Steady log) (hN : TotalsOfHeight V N log)
    {later before : List (Event S E C)} {ev : Event S E C} (hl : log = later ++ ev :: before) :
    ev.out.core = [] ∨
    (∃ a id msgs, Chosen V before ev a id msgs ∧ DaoCore.Enabled ev.pre.core.core a ∧
      ev.out.core = msgs.map (fun n => .send (decode n))) ∨
    ∃ c, coreEvent ev = some c ∧ (∀ d ∈ ev.out.core, DaoCore.MaySend c d) ∧
      ∀ sender m, c.call = .call sender m → ev.pre.mods.get sender = none := by
  obtain ⟨b0, w0, hi, hr⟩ := h
  subst hl
  obtain ⟨s1, b1, h1, _⟩ := hr.split
  cases h1 with
  | @step s1' _ b1' _ env call out h1 hb hs =>
  have hst' : Steady ((⟨s1', env, call, out, s1⟩ : Event S E C) :: before) :=
    fun e he => hst e (List.mem_append_right _ he)
  have hN' : TotalsOfHeight V N before := fun e he => hN e (List.mem_append_right _ (List.mem_cons_of_mem _ he))
  simp only
  have fin : ∀ {a : Addr} {id : Nat} {msgs : List Nat},
      Chosen V before (⟨s1', env, call, out, s1⟩ : Event S E C) a id msgs → (out.core = [] ∨
        DaoCore.step s1'.core (coreEnv env) (.call a (.executeProposalHook (msgs.map decode))) = .ok (s1.core, out.core)) →
      out.core = [] ∨ ∃ a id msgs, Chosen V before (⟨s1', env, call, out, s1⟩ : Event S E C) a id msgs ∧
        DaoCore.Enabled s1'.core.core a ∧ out.core = msgs.map (fun n => .send (decode n)) := by
    intro a id msgs hc ho
    rcases ho with ho | ho
    · exact Or.inl ho
    · obtain ⟨he, ho, _⟩ := hook_inv ho
      exact Or.inr ⟨a, id, msgs, hc, he, by rw [ho, List.map_map]; rfl⟩
  cases call with
  | core c =>
    obtain ⟨hn, hc, _⟩ := core_effect (V := V) (N := N) (decode := decode) hs
    refine Or.inr (Or.inr ⟨_, rfl, fun d hd => DaoCore.C47_who (.step .refl (Block.le_refl _) hc) _ (by simp) d hd, ?_⟩)
    intro sender m hcall
    simp only at hcall
    subst hcall
    simpa [notByModule] using hn
  | vote ve c =>
    obtain ⟨_, _, _, _, _, ho⟩ := vote_effect (N := N) (decode := decode) hs
    exact Or.inl ho
  | spawn a k =>
    obtain ⟨_, _, _, _, _, _, ho⟩ := spawn_effect (V := V) (N := N) (decode := decode) hs
    exact Or.inl ho
  | single a c =>
    obtain ⟨s, s', o, _, _, hstep, ho, _⟩ := single_effect (N := N) hs
    obtain ⟨_, _, _, _, ⟨_, h4⟩ | ⟨id, p, rfl, _⟩⟩ := WholeDao.prop_effect (decode := decode) hstep
    · exact Or.inl (by rw [ho]; exact h4)
    · obtain ⟨msgs, h2, h3⟩ := chosen_single hV ⟨b0, w0, hi, h1⟩ hb hs hst'
      exact (fin h2 h3).imp (fun h => h) Or.inl
  | multi a c =>
    obtain ⟨s, s', o, _, _, hstep, ho, _⟩ := multi_effect hs
    obtain ⟨_, _, _, _, ⟨_, h4⟩ | ⟨id, p, ms, rfl, _⟩⟩ := WholeMulti.prop_effect (decode := decode) hstep
    · exact Or.inl (by rw [ho]; exact h4)
    · obtain ⟨msgs, h2, h3⟩ := chosen_multi hV ⟨b0, w0, hi, h1⟩ hb hs hst' hN'
      exact (fin h2 h3).imp (fun h => h) Or.inl
  | condorcet a c =>
    obtain ⟨s, s', o, _, _, hstep, ho, _⟩ := condorcet_effect hs
    obtain ⟨_, _, _, _, ⟨_, h4⟩ | ⟨id, p, t, i, ms, rfl, _⟩⟩ := WholeCondorcet.prop_effect (decode := decode) hstep
    · exact Or.inl (by rw [ho]; exact h4)
    · obtain ⟨msgs, h2, h3⟩ := chosen_condorcet hV ⟨b0, w0, hi, h1⟩ hb hs hst' hN'
      exact (fin h2 h3).imp (fun h => h) Or.inl

/-- **C95.** The powers that decide: asked for a height, the voting module of the DAO answers with what was staked
before the first transaction at or above that height. -/
theorem C95_weights (hV : Lawful V) {w w' : World S} {b b' : Block} {log log' : List (Event S E C)}
    (h : (sys V N decode).Reach w b log) (hr : (sys V N decode).Run w b log' w' b') {x : Nat} (hb : b.height < x)
    (hx : ∀ e ∈ log', x ≤ e.env.block.height) :
    (∀ a, V.power w'.vote a x = V.weight w.vote a) ∧ V.total w'.vote x = V.totalWeight w.vote := by
  obtain ⟨b1, l, h1, hb1⟩ := vote_reach h
  obtain ⟨l', b2, h2, _, h3⟩ := vote_run hr hb1
  refine hV.history h1 h2 (Nat.lt_of_le_of_lt hb1.1 hb) ?_
  intro e he
  obtain ⟨ev, hev, hbl⟩ := h3 e he
  rw [hbl]; exact hx ev hev

/-- **C95.** With a voting module that, asked without a height, answers for the current height, the total of every
proposal is that of the height whose powers count. -/
theorem C95_totals (hN : Spec.WholeCondorcet.AnswersNow V N) {w : World S} {b : Block} {log : List (Event S E C)}
    (h : (sys V N decode).Reach w b log) : TotalsOfHeight V N log := by
  intro ev hev _
  obtain ⟨b0, w0, hi, hr⟩ := h
  obtain ⟨l1, l2, b1, _, h1, h2, _⟩ := hr.event ev hev
  obtain ⟨b2, l, h5, h6⟩ := vote_reach ⟨b0, w0, hi, h1⟩
  exact (hN h5 _ (Block.le_trans h6 h2)).1

theorem quiet_run {w w' : World S} {b b' : Block} {log : List (Event S E C)} (h : (sys V N decode).Run w b log w' b')
    {b1 : Block} (hb : b1.le b) {x : Nat} (hx : b.height < x)
    (hq : ∀ e ∈ log, (∃ ve c, e.call = .vote ve c) → e.env.block.height < x) :
    ∃ l b2, V.sys.Run w.vote b1 l w'.vote b2 ∧ b2.le b' ∧ b2.height < x := by
  induction h with
  | refl => exact ⟨[], b1, .refl, hb, Nat.lt_of_le_of_lt hb.1 hx⟩
  | @step s1 s2 b3 log env call out hr hb3 hs ih =>
    obtain ⟨l, b2, h1, h2, h3⟩ := ih (fun e he => hq e (List.mem_cons_of_mem _ he))
    obtain ⟨_, _, hp⟩ := effect hs
    cases hp with
    | none _ hv => rw [hv]; exact ⟨l, b2, h1, Block.le_trans h2 hb3, h3⟩
    | core _ hv => rw [hv]; exact ⟨l, b2, h1, Block.le_trans h2 hb3, h3⟩
    | vote ve c o _ _ hcall hbl hst =>
      subst hcall
      have hle : b2.le (V.sys.block ve) := by rw [hbl]; exact Block.le_trans h2 hb3
      refine ⟨_, _, .step h1 hle hst, by rw [hbl]; exact Block.le_refl _, ?_⟩
      rw [hbl]
      exact hq _ (List.mem_cons_self) ⟨_, _, rfl⟩

/-- **C95.** With a voting module that, asked without a height, answers with what is held right now, the same if nobody
calls the voting module in the block of a proposal before it is made. -/
theorem C95_totals_partial (hV : Lawful V) (hN : Spec.WholeCondorcet.AnswersNewest V N) {w0 w : World S} {b0 b : Block}
    {log : List (Event S E C)} (hi : Init V b0 w0) (hr : (sys V N decode).Run w0 b0 log w b) (hq : Settled b0 log) :
    TotalsOfHeight V N log := by
  intro ev hev hp
  obtain ⟨l1, l2, b1, hl, h1, h2, _⟩ := hr.event ev hev
  obtain ⟨hx, hq⟩ := hq _ _ _ hl hp
  obtain ⟨b3, l, h3, h4⟩ := hi.2.2
  obtain ⟨l', b4, h5, _, h6⟩ := quiet_run h1 h4 hx hq
  rw [(hN _ _).1, (hV.history (h3.run h5) .refl h6 (by simp)).2]

theorem authorised_mono {first : List DaoCore.Sub} {log : List (Event S E C)} {e : Event S E C} {d : DaoCore.Sub}
    (h : Authorised V decode first log d) : Authorised V decode first (e :: log) d := by
  induction h with
  | founding h => exact .founding h
  | proposal hl h ha hn => exact .proposal (later := e :: _) (by rw [hl]; rfl) h ha hn
  | nested _ hm ih => exact .nested ih hm
  | voting _ ih => exact .voting ih
  | module _ hi ih => exact .module ih hi
  | callback _ he hc hr hm ih => exact .callback ih (List.mem_cons_of_mem _ he) hc hr hm

/-- No proposal module has the address of the DAO. -/
theorem apart {w : World S} {b : Block} {log : List (Event S E C)} (h : (sys V N decode).Reach w b log) :
    w.mods.get w.core.core.me = none := by
  obtain ⟨b0, w0, hi, hr⟩ := h
  induction hr with
  | refl => rw [hi.1]; rfl
  | @step s1 s2 b3 log env call out hr hb3 hs ih =>
    rw [me_same hs]
    obtain ⟨_, hm, _⟩ := effect hs
    cases ht : touches s1.core.core.me call with
    | false => rw [hm _ ht]; exact ih
    | true =>
      exfalso
      cases call with
      | core c => cases ht
      | vote ve c => cases ht
      | spawn a k => exact (spawn_effect (V := V) (N := N) (decode := decode) hs).1 (of_decide_eq_true ht)
      | single a c =>
        obtain ⟨s, _, _, hg, _⟩ := single_effect (V := V) (N := N) (decode := decode) hs
        rw [of_decide_eq_true ht, ih] at hg; cases hg
      | multi a c =>
        obtain ⟨s, _, _, hg, _⟩ := multi_effect (V := V) (N := N) (decode := decode) hs
        rw [of_decide_eq_true ht, ih] at hg; cases hg
      | condorcet a c =>
        obtain ⟨s, _, _, hg, _⟩ := condorcet_effect (V := V) (N := N) (decode := decode) hs
        rw [of_decide_eq_true ht, ih] at hg; cases hg

/-- **C95.** In a DAO without an outside admin, whose enabled proposal modules are ones it created, everything the DAO
ever sends goes back to what it was founded with or to proposals its members have decided for. -/
theorem C95_governed (hV : Lawful V) {w0 w : World S} {b0 b : Block} {log : List (Event S E C)} (hi : Init V b0 w0)
    (hr : (sys V N decode).Run w0 b0 log w b) (hst : Steady log) (hN : TotalsOfHeight V N log) (hgo : Governed log) :
    ∀ ev ∈ log, ∀ d ∈ ev.out.core, Authorised V decode w0.core.stack log d := by
  suffices key : (∀ d ∈ w.core.stack, Authorised V decode w0.core.stack log d) ∧
      ∀ ev ∈ log, ∀ d ∈ ev.out.core, Authorised V decode w0.core.stack log d from key.2
  induction hr with
  | refl => exact ⟨fun d hd => .founding hd, by simp⟩
  | @step s1 s2 b3 log env call out hr hb3 hs ih =>
    obtain ⟨ih1, ih2⟩ := ih (fun e he => hst e (List.mem_cons_of_mem _ he))
      (fun e he => hN e (List.mem_cons_of_mem _ he)) (fun e he => hgo e (List.mem_cons_of_mem _ he))
    obtain ⟨hadm, hen⟩ := hgo _ (List.mem_cons_self)
    simp only at hadm hen
    have hre : (sys V N decode).Reach s2 env.block (⟨s1, env, call, out, s2⟩ :: log) := ⟨b0, w0, hi, .step hr hb3 hs⟩
    have hme : s1.mods.get s1.core.core.me = none := apart ⟨b0, w0, hi, hr⟩
    have man := C95_mandate hV hre hst hN (later := []) (before := log) rfl
    simp only at man
    suffices hnew : (∀ d ∈ out.core, Authorised V decode w0.core.stack (⟨s1, env, call, out, s2⟩ :: log) d) ∧
        ∀ d ∈ s2.core.stack, d ∈ out.core ∨ d ∈ s1.core.stack by
      obtain ⟨hn1, hn2⟩ := hnew
      refine ⟨?_, ?_⟩
      · intro d hd
        rcases hn2 d hd with hd | hd
        · exact hn1 d hd
        · exact authorised_mono (ih1 d hd)
      · intro ev hev d hd
        rcases List.mem_cons.1 hev with rfl | hev
        · exact hn1 d hd
        · exact authorised_mono (ih2 ev hev d hd)
    refine ⟨?_, ?_⟩
    · intro d hd
      rcases man with ho | ⟨a, id, msgs, hc, ha, ho⟩ | ⟨c', hc', hms, hby⟩
      · rw [ho] at hd; cases hd
      · rw [ho] at hd
        obtain ⟨n, hn, rfl⟩ := List.mem_map.1 hd
        exact .proposal (later := []) rfl hc ha hn
      · cases call with
        | core c =>
          obtain ⟨hn, hc, _⟩ := core_effect (V := V) (N := N) (decode := decode) hs
          have hdoes := DaoCore.step_does hc
          injection hc' with hc'
          subst hc'
          simp only at hby
          -- a message handled by the DAO for itself was on its list
          have self : ∀ {m : DaoCore.Msg}, DaoCore.handled ⟨s1.core, coreEnv env, c, out.core, s2.core⟩ =
              some (s1.core.core.me, m) →
              Authorised V decode w0.core.stack (⟨s1, env, .core c, out, s2⟩ :: log) (.send (.toSelf m)) := by
            intro m hm
            cases hdoes with
            | msg hh _ _ _ hs1 _ hdd =>
              rw [hh] at hm
              injection hm with hm; injection hm with e1 e2
              subst e1 e2
              rcases hdd with ⟨_, hne⟩ | ⟨hdl, _⟩
              · exact absurd rfl hne
              · refine authorised_mono (ih1 _ ?_)
                simp only at hs1
                rw [hs1, hdl]; simp
            | rep hh => rw [hh] at hm; cases hm
            | other hh => rw [hh] at hm; cases hm
          cases hms d hd with
          | hook hh ha hm =>
            rename_i a msgs m
            obtain ⟨mo, hmo⟩ := hen a ha
            cases c with
            | call sender m' =>
              injection hh with hh; injection hh with e1 e2
              have := hby sender m' rfl
              rw [e1, hmo] at this; cases this
            | deliver r =>
              exfalso
              cases hdoes with
              | msg hh' _ _ _ _ _ hdd =>
                rw [hh'] at hh
                injection hh with hh; injection hh with e1 e2
                subst e1
                rcases hdd with ⟨hdl, _⟩ | ⟨_, hme'⟩
                · simp only [DaoCore.handled] at hh'
                  simp only [DaoCore.delivered] at hdl
                  split at hh'
                  · rename_i hst'
                    rw [hst'] at hdl; simp at hdl
                  · cases hh'
                · simp only at hme'
                  rw [hme', hme] at hmo; cases hmo
              | rep hh' => rw [hh'] at hh; cases hh
              | other hh' => rw [hh'] at hh; cases hh
          | admin hh hm =>
            simp only [hadm] at hh
            exact .nested (self hh) hm
          | callback hh hr' hm =>
            rename_i role r m
            cases hdoes with
            | msg _ hh' => rw [hh'] at hh; cases hh
            | @rep role' c' i rest _ hh' _ _ _ _ hs1 _ =>
              rw [hh'] at hh
              injection hh with hh; injection hh with e1 e2
              subst e1 e2
              refine .callback (i := i) (authorised_mono (ih1 _ ?_)) (List.mem_cons_self) rfl hh' hm
              simp only at hs1
              rw [hs1]; exact List.mem_cons_self
            | other _ hh' => rw [hh'] at hh; cases hh
          | voting hh => exact .voting (self hh)
          | proposal hh hi => exact .module (self hh) hi
        | vote ve c => cases hc'
        | spawn a k => cases hc'
        | single a c => cases hc'
        | multi a c => cases hc'
        | condorcet a c => cases hc'
    · intro d hd
      obtain ⟨_, _, hp⟩ := effect hs
      cases hp with
      | none hc => rw [hc] at hd; exact Or.inr hd
      | vote _ _ _ hc => rw [hc] at hd; exact Or.inr hd
      | core c _ _ hc =>
        cases DaoCore.step_does hc with
        | msg hh _ _ _ hs1 hs2 _ =>
          simp only at hs1 hs2
          rw [hs2, List.mem_append] at hd
          rw [hs1]
          exact hd.imp (fun h => h) (fun hd => List.mem_append.2 (Or.inr hd))
        | rep hh _ _ _ _ _ hs1 hs2 =>
          simp only at hs1 hs2
          rw [hs2, List.mem_append] at hd
          rw [hs1]
          exact hd.imp (fun h => h) (fun hd => List.mem_cons_of_mem _ hd)
        | other hh _ _ hs1 hs2 _ =>
          simp only at hs1 hs2
          rw [hs2] at hd
          rw [hs1]
          exact Or.inr (List.mem_cons_of_mem _ hd)

end Verif.FullDao
