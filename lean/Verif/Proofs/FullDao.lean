import Verif.Spec.FullDao
import Verif.Proofs.WholeDao
import Verif.Proofs.WholeMulti
import Verif.Proofs.WholeCondorcet
/-! From a history of the DAO to the histories its proposal modules see. -/

namespace Verif.FullDao
open Verif Verif.Voting Verif.Spec Verif.Spec.FullDao
open Verif.WholeDao (VotingModule)
open Verif.WholeCondorcet (Now)

variable {S E C O : Type} {V : VotingModule S E C O} {N : Now S} {decode : Nat → DaoCore.CosmosMsg}

/-! ### Single steps -/

theorem singleAt_ok {w : World S} {a : Addr} {s : Single.State} : singleAt w a = .ok s ↔ w.mods.get a = some (.single s) := by
  unfold singleAt
  split <;> simp_all

theorem multiAt_ok {w : World S} {a : Addr} {s : Multiple.State} : multiAt w a = .ok s ↔ w.mods.get a = some (.multi s) := by
  unfold multiAt
  split <;> simp_all

theorem condorcetAt_ok {w : World S} {a : Addr} {s : Condorcet.State} :
    condorcetAt w a = .ok s ↔ w.mods.get a = some (.condorcet s) := by
  unfold condorcetAt
  split <;> simp_all

theorem core_effect {w w' : World S} {e : Env} {c : DaoCore.Call} {out : Out}
    (h : step V N decode w e (.core c) = .ok (w', out)) :
    notByModule w.mods c = true ∧ DaoCore.step w.core (coreEnv e) c = .ok (w'.core, out.core) ∧
    w'.mods = w.mods ∧ w'.vote = w.vote ∧ w'.voteAddr = w.voteAddr := by
  simp only [step, bind_ok, require_ok, Prod.exists, Except.ok.injEq, Prod.mk.injEq] at h
  obtain ⟨_, hn, cc, o, h1, rfl, rfl⟩ := h
  exact ⟨hn, h1, rfl, rfl, rfl⟩

theorem vote_effect {w w' : World S} {e : Env} {ve : E} {c : C} {out : Out}
    (h : step V N decode w e (.vote ve c) = .ok (w', out)) :
    V.sys.block ve = e.block ∧ (∃ o, V.sys.step w.vote ve c = .ok (w'.vote, o)) ∧
    w'.mods = w.mods ∧ w'.core = w.core ∧ w'.voteAddr = w.voteAddr ∧ out.core = [] := by
  simp only [step, bind_ok, require_ok, Prod.exists, Except.ok.injEq, Prod.mk.injEq, decide_eq_true_eq] at h
  obtain ⟨_, hn, cc, o, h1, rfl, rfl⟩ := h
  exact ⟨hn, ⟨o, h1⟩, rfl, rfl, rfl, rfl⟩

theorem spawn_effect {w w' : World S} {e : Env} {a : Addr} {k : Setup} {out : Out}
    (h : step V N decode w e (.spawn a k) = .ok (w', out)) :
    a ≠ w.core.core.me ∧ w.mods.get a = none ∧ (∃ m, create w.core.core.me e.block k = .ok m ∧ w'.mods = w.mods.set a m) ∧
    w'.vote = w.vote ∧ w'.core = w.core ∧ w'.voteAddr = w.voteAddr ∧ out.core = [] := by
  simp only [step, bind_ok, require_ok, Prod.exists, Except.ok.injEq, Prod.mk.injEq, decide_eq_true_eq,
    Option.isNone_iff_eq_none] at h
  obtain ⟨_, h1, _, h2, m, h3, rfl, rfl⟩ := h
  exact ⟨h1, h2, ⟨m, h3, rfl⟩, rfl, rfl, rfl, rfl⟩

theorem single_effect {w w' : World S} {e : Env} {a : Addr} {c : Single.Call} {out : Out}
    (h : step V N decode w e (.single a c) = .ok (w', out)) :
    ∃ s s' o, w.mods.get a = some (.single s) ∧ w'.mods = w.mods.set a (.single s') ∧
      WholeDao.step V decode (viewSingle w a s) e.single (.prop c) = .ok (viewSingle w' a s', o) ∧
      out = ⟨ofSingle o.prop, o.core⟩ ∧ w'.vote = w.vote ∧ w'.voteAddr = w.voteAddr := by
  simp only [step, bind_ok, Prod.exists, Except.ok.injEq, Prod.mk.injEq, singleAt_ok] at h
  obtain ⟨s, hs, w1, o, h1, rfl, rfl⟩ := h
  obtain ⟨_, hv, hp, ha, _⟩ := WholeDao.prop_effect (decode := decode) h1
  obtain ⟨core, prop, vote, pa, va⟩ := w1
  simp only [viewSingle] at hv hp ha
  subst hv hp ha
  exact ⟨s, prop, o, hs, rfl, h1, rfl, rfl, rfl⟩

theorem multi_effect {w w' : World S} {e : Env} {a : Addr} {c : Multiple.Call} {out : Out}
    (h : step V N decode w e (.multi a c) = .ok (w', out)) :
    ∃ s s' o, w.mods.get a = some (.multi s) ∧ w'.mods = w.mods.set a (.multi s') ∧
      WholeMulti.step V N.total decode (viewMulti w a s) e.multi (.prop c) = .ok (viewMulti w' a s', o) ∧
      out = ⟨ofMulti o.prop, o.core⟩ ∧ w'.vote = w.vote ∧ w'.voteAddr = w.voteAddr := by
  simp only [step, bind_ok, Prod.exists, Except.ok.injEq, Prod.mk.injEq, multiAt_ok] at h
  obtain ⟨s, hs, w1, o, h1, rfl, rfl⟩ := h
  obtain ⟨_, hv, hp, ha, _⟩ := WholeMulti.prop_effect (decode := decode) h1
  obtain ⟨core, prop, vote, pa, va⟩ := w1
  simp only [viewMulti] at hv hp ha
  subst hv hp ha
  exact ⟨s, prop, o, hs, rfl, h1, rfl, rfl, rfl⟩

theorem condorcet_effect {w w' : World S} {e : Env} {a : Addr} {c : Condorcet.Call} {out : Out}
    (h : step V N decode w e (.condorcet a c) = .ok (w', out)) :
    ∃ s s' o, w.mods.get a = some (.condorcet s) ∧ w'.mods = w.mods.set a (.condorcet s') ∧
      WholeCondorcet.step V N decode (viewCondorcet w a s) e.condorcet (.prop c) = .ok (viewCondorcet w' a s', o) ∧
      out = ⟨ofCondorcet o.prop, o.core⟩ ∧ w'.vote = w.vote ∧ w'.voteAddr = w.voteAddr := by
  simp only [step, bind_ok, Prod.exists, Except.ok.injEq, Prod.mk.injEq, condorcetAt_ok] at h
  obtain ⟨s, hs, w1, o, h1, rfl, rfl⟩ := h
  obtain ⟨_, hv, hp, ha, _⟩ := WholeCondorcet.prop_effect (decode := decode) h1
  obtain ⟨core, prop, vote, pa, va⟩ := w1
  simp only [viewCondorcet] at hv hp ha
  subst hv hp ha
  exact ⟨s, prop, o, hs, rfl, h1, rfl, rfl, rfl⟩

/-- What a step does to core and voting module. -/
inductive Part (V : VotingModule S E C O) (w : World S) (e : Env) (call : Call E C) (out : Out) (w' : World S) : Prop where
  | none (hc : w'.core = w.core) (hv : w'.vote = w.vote) (ho : out.core = [])
  | core (c : DaoCore.Call) (hv : w'.vote = w.vote)
      (hn : ∀ a, touches a call = false → w.mods.get a ≠ none → WholeDao.notBy a c = true)
      (hs : DaoCore.step w.core (coreEnv e) c = .ok (w'.core, out.core))
  | vote (ve : E) (c : C) (o : O) (hc : w'.core = w.core) (ho : out.core = []) (hcall : call = .vote ve c)
      (hb : V.sys.block ve = e.block) (hs : V.sys.step w.vote ve c = .ok (w'.vote, o))

theorem effect {w w' : World S} {e : Env} {call : Call E C} {out : Out}
    (h : step V N decode w e call = .ok (w', out)) :
    w'.voteAddr = w.voteAddr ∧ (∀ a, touches a call = false → w'.mods.get a = w.mods.get a) ∧ Part V w e call out w' := by
  have hook : ∀ {a : Addr} {msgs : List DaoCore.CosmosMsg}, (∀ a', touches a' call = false → a ≠ a') →
      ∀ a', touches a' call = false → w.mods.get a' ≠ none →
        WholeDao.notBy a' (.call a (.executeProposalHook msgs)) = true := by
    intro a msgs ha a' ht _
    simp only [WholeDao.notBy, decide_eq_true_eq]
    exact ha a' ht
  cases call with
  | core c =>
    obtain ⟨hn, hc, hm, hv, hva⟩ := core_effect h
    refine ⟨hva, fun a _ => by rw [hm], .core c hv ?_ hc⟩
    intro a _ ha
    cases c with
    | deliver _ => rfl
    | call sender m =>
      simp only [notByModule, Option.isNone_iff_eq_none] at hn
      simp only [WholeDao.notBy, decide_eq_true_eq]
      rintro rfl
      exact ha hn
  | vote ve c =>
    obtain ⟨hb, ⟨o, hs⟩, hm, hc, hva, ho⟩ := vote_effect h
    exact ⟨hva, fun a _ => by rw [hm], .vote ve c o hc ho rfl hb hs⟩
  | spawn a k =>
    obtain ⟨_, _, ⟨m, _, hm⟩, hv, hc, hva, ho⟩ := spawn_effect h
    refine ⟨hva, fun a' ha => ?_, .none hc hv ho⟩
    rw [hm, AMap.get_set_ne]
    simpa [touches] using ha
  | single a c =>
    obtain ⟨s, s', o, hg, hm, hs, rfl, hv, hva⟩ := single_effect h
    refine ⟨hva, fun a' ha => ?_, ?_⟩
    · rw [hm, AMap.get_set_ne]
      simpa [touches] using ha
    · obtain ⟨_, _, _, _, ⟨h1, h2⟩ | ⟨id, p, _, _, h1⟩⟩ := WholeDao.prop_effect (decode := decode) hs
      · exact .none h1 hv h2
      · exact .core _ hv (hook (a := a) (fun a' ha => by simpa [touches] using ha)) h1
  | multi a c =>
    obtain ⟨s, s', o, hg, hm, hs, rfl, hv, hva⟩ := multi_effect h
    refine ⟨hva, fun a' ha => ?_, ?_⟩
    · rw [hm, AMap.get_set_ne]
      simpa [touches] using ha
    · obtain ⟨_, _, _, _, ⟨h1, h2⟩ | ⟨id, p, ms, _, _, _, h1⟩⟩ := WholeMulti.prop_effect (decode := decode) hs
      · exact .none h1 hv h2
      · exact .core _ hv (hook (a := a) (fun a' ha => by simpa [touches] using ha)) h1
  | condorcet a c =>
    obtain ⟨s, s', o, hg, hm, hs, rfl, hv, hva⟩ := condorcet_effect h
    refine ⟨hva, fun a' ha => ?_, ?_⟩
    · rw [hm, AMap.get_set_ne]
      simpa [touches] using ha
    · obtain ⟨_, _, _, _, ⟨h1, h2⟩ | ⟨id, p, t, i, ms, _, _, _, _, _, h1⟩⟩ := WholeCondorcet.prop_effect (decode := decode) hs
      · exact .none h1 hv h2
      · exact .core _ hv (hook (a := a) (fun a' ha => by simpa [touches] using ha)) h1

theorem touched_some {w w' : World S} {e : Env} {call : Call E C} {out : Out} {a : Addr}
    (h : step V N decode w e call = .ok (w', out)) (ht : touches a call = true) : w'.mods.get a ≠ none := by
  cases call with
  | core c => cases ht
  | vote ve c => cases ht
  | spawn a' k =>
    obtain ⟨_, _, ⟨m, _, hm⟩, _⟩ := spawn_effect h
    have := of_decide_eq_true ht
    subst this
    simp [hm]
  | single a' c =>
    obtain ⟨_, _, _, _, hm, _⟩ := single_effect h
    have := of_decide_eq_true ht
    subst this
    simp [hm]
  | multi a' c =>
    obtain ⟨_, _, _, _, hm, _⟩ := multi_effect h
    have := of_decide_eq_true ht
    subst this
    simp [hm]
  | condorcet a' c =>
    obtain ⟨_, _, _, _, hm, _⟩ := condorcet_effect h
    have := of_decide_eq_true ht
    subst this
    simp [hm]

/-! ### Core and voting module -/

theorem me_same {w w' : World S} {e : Env} {call : Call E C} {out : Out}
    (h : step V N decode w e call = .ok (w', out)) : w'.core.core.me = w.core.core.me := by
  obtain ⟨_, _, hp⟩ := effect h
  cases hp with
  | none hc => rw [hc]
  | core c _ _ hs => exact DaoCore.does_me (DaoCore.step_does hs)
  | vote _ _ _ hc => rw [hc]

theorem core_reach {w : World S} {b : Block} {log : List (Event S E C)} (h : (sys V N decode).Reach w b log) :
    ∃ b1 l, DaoCore.sys.Reach w.core b1 l ∧ b1.le b := by
  obtain ⟨b0, w0, hi, hr⟩ := h
  induction hr with
  | refl => exact hi.2.1
  | @step s1 s2 b3 log env call out hr hb3 hs ih =>
    obtain ⟨b1, l, h1, h2⟩ := ih
    have h3 : b1.le env.block := Block.le_trans h2 hb3
    obtain ⟨_, _, hp⟩ := effect hs
    cases hp with
    | none hc => exact ⟨b1, l, by rw [hc]; exact h1, h3⟩
    | core c _ _ hst => exact ⟨_, _, h1.step (env := coreEnv env) (call := c) h3 hst, Block.le_refl _⟩
    | vote _ _ _ hc => exact ⟨b1, l, by rw [hc]; exact h1, h3⟩

theorem vote_run {w w' : World S} {b b' : Block}
    {log : List (Event S E C)} (h : (sys V N decode).Run w b log w' b') {b1 : Block} (hb : b1.le b) :
    ∃ l b2, V.sys.Run w.vote b1 l w'.vote b2 ∧ b2.le b' ∧ ∀ e ∈ l, ∃ ev ∈ log, V.sys.block e.env = ev.env.block := by
  induction h with
  | refl => exact ⟨[], b1, .refl, hb, by simp⟩
  | @step s1 s2 b3 log env call out hr hb3 hs ih =>
    obtain ⟨l, b2, h1, h2, h3⟩ := ih
    have old : ∀ e ∈ l, ∃ ev ∈ (⟨s1, env, call, out, s2⟩ : Event S E C) :: log, V.sys.block e.env = ev.env.block :=
      fun e he => let ⟨ev, hev, hx⟩ := h3 e he; ⟨ev, List.mem_cons_of_mem _ hev, hx⟩
    obtain ⟨_, _, hp⟩ := effect hs
    cases hp with
    | none _ hv => rw [hv]; exact ⟨l, b2, h1, Block.le_trans h2 hb3, old⟩
    | core _ hv => rw [hv]; exact ⟨l, b2, h1, Block.le_trans h2 hb3, old⟩
    | vote ve c o _ _ _ hbl hst =>
      have hle : b2.le (V.sys.block ve) := by rw [hbl]; exact Block.le_trans h2 hb3
      refine ⟨_, _, .step h1 hle hst, by rw [hbl]; exact Block.le_refl _, ?_⟩
      intro e he
      rcases List.mem_cons.1 he with rfl | he
      · exact ⟨_, List.mem_cons_self, hbl⟩
      · exact old e he

theorem vote_reach {w : World S} {b : Block} {log : List (Event S E C)} (h : (sys V N decode).Reach w b log) :
    ∃ b1 l, V.sys.Reach w.vote b1 l ∧ b1.le b := by
  obtain ⟨b0, w0, ⟨_, _, ⟨b1, l, h1, h2⟩⟩, hr⟩ := h
  obtain ⟨l', b2, h3, h4, _⟩ := vote_run hr h2
  exact ⟨_, _, h1.run h3, h4⟩

/-! ### Before a module is created -/

theorem untouched {w : World S} {b : Block} {log : List (Event S E C)} (h : (sys V N decode).Reach w b log) {a : Addr}
    (ha : w.mods.get a = none) : ∀ e ∈ log, touches a e.call = false := by
  obtain ⟨b0, w0, hi, hr⟩ := h
  induction hr with
  | refl => simp
  | @step s1 s2 b3 log env call out hr hb3 hs ih =>
    have ht : touches a call = false := by
      cases htc : touches a call with
      | false => rfl
      | true => exact absurd ha (touched_some hs htc)
    obtain ⟨_, hm, _⟩ := effect hs
    intro e he
    rcases List.mem_cons.1 he with rfl | he
    · exact ht
    · exact ih (by rw [← hm a ht]; exact ha) e he

theorem ballot_single {e : Event S E C} {a : Addr} (h : touches a e.call = false) : singleBallot a e = none := by
  obtain ⟨pre, env, call, out, post⟩ := e
  unfold singleBallot
  cases call with
  | single a' c =>
    have := of_decide_eq_false h
    split <;> simp_all
  | _ => rfl

theorem ballot_multi {e : Event S E C} {a : Addr} (h : touches a e.call = false) : multiBallot a e = none := by
  obtain ⟨pre, env, call, out, post⟩ := e
  unfold multiBallot
  cases call with
  | multi a' c =>
    have := of_decide_eq_false h
    split <;> simp_all
  | _ => rfl

theorem executes_other {e : Event S E C} {a : Addr} (h : touches a e.call = false) (id : Nat) : executes a id e = false := by
  obtain ⟨pre, env, call, out, post⟩ := e
  unfold executes
  cases call <;> simp only [touches, decide_eq_false_iff_not] at h <;> simp only <;> split <;> simp_all

theorem rankings_other {e : Event S E C} {a : Addr} (h : touches a e.call = false) (id : Nat) (log : List (Event S E C)) :
    rankings a id (e :: log) = rankings a id log := by
  obtain ⟨pre, env, call, out, post⟩ := e
  cases call with
  | condorcet a' c =>
    have := of_decide_eq_false h
    cases c <;> simp [rankings, this]
  | _ => rfl

theorem lastSingle_other {e : Event S E C} {a : Addr} (h : touches a e.call = false) (id : Nat) (x : Addr)
    (log : List (Event S E C)) : lastSingle a id x (e :: log) = lastSingle a id x log := by
  simp only [lastSingle, ballot_single h]

theorem lastMulti_other {e : Event S E C} {a : Addr} (h : touches a e.call = false) (id : Nat) (x : Addr)
    (log : List (Event S E C)) : lastMulti a id x (e :: log) = lastMulti a id x log := by
  simp only [lastMulti, ballot_multi h]

theorem quiet {log : List (Event S E C)} {a : Addr} (h : ∀ e ∈ log, touches a e.call = false) (id : Nat) :
    (∀ x, lastSingle a id x log = none) ∧ (∀ x, lastMulti a id x log = none) ∧ rankings a id log = [] ∧
      log.filter (executes a id) = [] := by
  induction log with
  | nil => exact ⟨fun _ => rfl, fun _ => rfl, rfl, rfl⟩
  | cons e log ih =>
    obtain ⟨h1, h2, h3, h4⟩ := ih (fun e he => h e (List.mem_cons_of_mem _ he))
    have he := h e List.mem_cons_self
    refine ⟨fun x => ?_, fun x => ?_, ?_, ?_⟩
    · rw [lastSingle_other he, h1]
    · rw [lastMulti_other he, h2]
    · rw [rankings_other he, h3]
    · rw [List.filter_cons, executes_other he, if_neg (by simp), h4]

/-! ### The history a module of dao-proposal-single sees -/

theorem project_single {w : World S} {b : Block} {log : List (Event S E C)} (h : (sys V N decode).Reach w b log) {a : Addr}
    {s : Single.State} (hg : w.mods.get a = some (.single s)) :
    ∃ b1 log', b1.le b ∧ (WholeDao.sys V decode).Reach (viewSingle w a s) b1 log' ∧ (∀ id x, lastVote x id (Spec.WholeDao.propLog V log') = lastSingle a id x log) ∧
      (Steady log → Spec.WholeDao.Steady log') ∧
      ∀ id, (log'.filter (Spec.WholeDao.executesId id)).length = (log.filter (executes a id)).length := by
  obtain ⟨b0, w0, hi, hr⟩ := h
  induction hr generalizing s with
  | refl => rw [hi.1] at hg; cases hg
  | @step s1 s2 b3 log env call out hr hb3 hs ih =>
    have hreach : (sys V N decode).Reach s1 b3 log := ⟨b0, w0, hi, hr⟩
    obtain ⟨hva, hsame, hpart⟩ := effect hs
    cases ht : touches a call with
    | false =>
      have hev : touches a (⟨s1, env, call, out, s2⟩ : Event S E C).call = false := ht
      rw [hsame a ht] at hg
      obtain ⟨b1, log', h1, h2, h3, h4,  h6⟩ := ih hg
      have hb : b1.le env.block := Block.le_trans h1 hb3
      have hstd : Steady ((⟨s1, env, call, out, s2⟩ : Event S E C) :: log) →
          Spec.WholeDao.Steady log' ∧ s1.core.core.voting = some s1.voteAddr ∧ KeepsDao s1.core.core.me (.single s) := by
        intro hst
        exact ⟨h4 (fun e he => hst e (List.mem_cons_of_mem _ he)), hst _ List.mem_cons_self a _ hg⟩
      cases hpart with
      | none hc hv _ =>
        refine ⟨b1, log', hb, by simpa only [viewSingle, hc, hv, hva] using h2, ?_, fun hst => (hstd hst).1,  ?_⟩
        · intro id x; rw [lastSingle_other hev]; exact h3 id x
        · intro id; rw [List.filter_cons, executes_other hev, if_neg (by simp)]; exact h6 id
      | core c hv hn hst =>
        have hstep : WholeDao.step V decode (viewSingle s1 a s) env.single (.core c) = .ok (viewSingle s2 a s, ⟨none, out.core⟩) := by
          have hn' : WholeDao.notBy a c = true := by
            have := hn a ht (by rw [hg]; simp)
            cases c with
            | call sender m => simpa only [WholeDao.notBy, WholeDao.notBy] using this
            | deliver r => rfl
          simp only [WholeDao.step, viewSingle, require, hn', if_true, ok_bind]
          rw [show WholeDao.coreEnv env.single = coreEnv env from rfl, hst]
          simp only [ok_bind, hv, hva]
        refine ⟨env.block, _, Block.le_refl _, h2.step (env := env.single) (call := (WholeDao.Call.core c : WholeDao.Call E C))
          (out := WholeDao.Out.mk none out.core) hb hstep, ?_, ?_,  ?_⟩
        · intro id x; rw [lastSingle_other hev]; exact h3 id x
        · intro hsteady e he
          rcases List.mem_cons.1 he with rfl | he
          · exact (hstd hsteady).2
          · exact (hstd hsteady).1 e he
        · intro id
          rw [List.filter_cons (p := executes a id), executes_other hev, if_neg (by simp)]
          exact h6 id
      | vote ve c o hc ho _ hbl hst =>
        have hstep : WholeDao.step V decode (viewSingle s1 a s) env.single (.vote ve c) = .ok (viewSingle s2 a s, ⟨none, []⟩) := by
          have hbl' : decide (V.sys.block ve = env.single.block) = true := decide_eq_true hbl
          simp only [WholeDao.step, viewSingle, require, hbl', if_true, ok_bind, hst, hc, hva]
        refine ⟨env.block, _, Block.le_refl _, h2.step (env := env.single) (call := (WholeDao.Call.vote ve c : WholeDao.Call E C))
          (out := WholeDao.Out.mk none []) hb hstep, ?_, ?_,  ?_⟩
        · intro id x; rw [lastSingle_other hev]; exact h3 id x
        · intro hsteady e he
          rcases List.mem_cons.1 he with rfl | he
          · exact (hstd hsteady).2
          · exact (hstd hsteady).1 e he
        · intro id
          rw [List.filter_cons (p := executes a id), executes_other hev, if_neg (by simp)]
          exact h6 id
    | true =>
      cases call with
      | core c => cases ht
      | vote ve c => cases ht
      | spawn a' k =>
        obtain rfl := of_decide_eq_true ht
        obtain ⟨hne, hno, ⟨m, hm, hm'⟩, hv, hc, _, _⟩ := spawn_effect (V := V) (N := N) (decode := decode) hs
        rw [hm', AMap.get_set_self] at hg
        injection hg with hg
        subst hg
        have hbefore := untouched hreach hno
        obtain ⟨c1, l1, hcr, hcb⟩ := core_reach hreach
        obtain ⟨v1, l2, hvr, hvb⟩ := vote_reach hreach
        cases k with
        | single c i =>
          simp only [create, bind_ok, Prod.exists, Except.ok.injEq, Module.single.injEq] at hm
          obtain ⟨s', o', hinst, rfl⟩ := hm
          refine ⟨env.block, [], Block.le_refl _, ⟨env.block, _, ⟨?_, ?_, ?_, ?_⟩, .refl⟩, ?_, (fun _ => by intro e he; cases he),  ?_⟩
          · simpa only [viewSingle, hc] using hne
          · exact ⟨c1, l1, by simpa only [viewSingle, hc] using hcr, Block.le_trans hcb hb3⟩
          · exact ⟨v1, l2, by simpa only [viewSingle, hv] using hvr, Block.le_trans hvb hb3⟩
          · exact ⟨_, c, i, o', rfl, by simp only [viewSingle, hc], hinst⟩
          · intro id x
            rw [show lastSingle a' id x ((⟨s1, env, .spawn a' (.single c i), out, s2⟩ : Event S E C) :: log) =
              lastSingle a' id x log from rfl, (quiet hbefore id).1 x]
            rfl
          · intro id
            rw [List.filter_cons, if_neg (by simp [executes]), (quiet hbefore id).2.2.2]; rfl
        | multi c i =>
          simp only [create, bind_ok, Prod.exists, Except.ok.injEq, reduceCtorEq, and_false, exists_false] at hm
        | condorcet c =>
          simp only [create, bind_ok, Prod.exists, Except.ok.injEq, reduceCtorEq, and_false, exists_false] at hm
      | single a' c =>
        obtain rfl := of_decide_eq_true ht
        obtain ⟨s', s'', o, hg', hm, hst, rfl, hv, _⟩ := single_effect (V := V) (N := N) (decode := decode) hs
        rw [hm, AMap.get_set_self] at hg
        injection hg with hg
        injection hg with hg
        subst hg
        obtain ⟨b1, log', h1, h2, h3, h4,  h6⟩ := ih hg'
        have hb : b1.le env.block := Block.le_trans h1 hb3
        obtain ⟨⟨o', ho, hp⟩, _⟩ := WholeDao.prop_effect (decode := decode) hst
        refine ⟨env.block, _, Block.le_refl _, h2.step (env := env.single) (call := (WholeDao.Call.prop c : WholeDao.Call E C))
          (out := o) hb hst, ?_, ?_,  ?_⟩
        · intro id x
          have hl : Spec.WholeDao.propLog V ((⟨viewSingle s1 a' s', env.single, .prop c, o, viewSingle s2 a' s''⟩ :
              WholeDao.Event S E C) :: log') = ⟨s', WholeDao.propEnv V (viewSingle s1 a' s') env.single, c, o', s''⟩ ::
                Spec.WholeDao.propLog V log' := by simp only [Spec.WholeDao.propLog, ho]; rfl
          have hbal : ballotCast (⟨s', WholeDao.propEnv V (viewSingle s1 a' s') env.single, c, o', s''⟩ : Single.Event) =
              singleBallot a' (⟨s1, env, .single a' c, ⟨ofSingle o.prop, o.core⟩, s2⟩ : Event S E C) := by
            cases c with
            | propose g n ms v z => cases v <;> simp [ballotCast, singleBallot, hg', WholeDao.propEnv, Env.single]
            | _ => simp [ballotCast, singleBallot, hg', WholeDao.propEnv, Env.single]
          rw [hl]
          simp only [lastVote, lastSingle, hbal]
          cases singleBallot a' (⟨s1, env, .single a' c, ⟨ofSingle o.prop, o.core⟩, s2⟩ : Event S E C) with
          | none => exact h3 id x
          | some v => simp only [h3 id x]
        · intro hsteady e he
          rcases List.mem_cons.1 he with rfl | he
          · have := hsteady _ List.mem_cons_self a' _ hg'
            exact this
          · exact h4 (fun e he => hsteady e (List.mem_cons_of_mem _ he)) e he
        · intro id
          have hx : Spec.WholeDao.executesId id (⟨viewSingle s1 a' s', env.single, .prop c, o, viewSingle s2 a' s''⟩ : WholeDao.Event S E C) =
              executes a' id (⟨s1, env, .single a' c, ⟨ofSingle o.prop, o.core⟩, s2⟩ : Event S E C) := by
            cases c <;> simp [Spec.WholeDao.executesId, executes]
          rw [List.filter_cons, List.filter_cons, hx]
          split
          · simp only [List.length_cons, h6 id]
          · exact h6 id
      | multi a' c =>
        obtain rfl := of_decide_eq_true ht
        obtain ⟨s', s'', o, hg', hm, _⟩ := multi_effect (V := V) (N := N) (decode := decode) hs
        rw [hm, AMap.get_set_self] at hg
        cases hg
      | condorcet a' c =>
        obtain rfl := of_decide_eq_true ht
        obtain ⟨s', s'', o, hg', hm, _⟩ := condorcet_effect (V := V) (N := N) (decode := decode) hs
        rw [hm, AMap.get_set_self] at hg
        cases hg

/-! ### The history a module of dao-proposal-multiple sees -/

theorem project_multi {w : World S} {b : Block} {log : List (Event S E C)} (h : (sys V N decode).Reach w b log) {a : Addr}
    {s : Multiple.State} (hg : w.mods.get a = some (.multi s)) :
    ∃ b1 log', b1.le b ∧ (WholeMulti.sys V N.total decode).Reach (viewMulti w a s) b1 log' ∧ (∀ id x, Multi.lastVote x id (Spec.WholeMulti.propLog V N.total log') = lastMulti a id x log) ∧
      (Steady log → Spec.WholeMulti.Steady log') ∧
      (TotalsOfHeight V N log → Spec.WholeMulti.TotalsOfHeight V N.total log') ∧
      ∀ id, (log'.filter (Spec.WholeMulti.executesId id)).length = (log.filter (executes a id)).length := by
  obtain ⟨b0, w0, hi, hr⟩ := h
  induction hr generalizing s with
  | refl => rw [hi.1] at hg; cases hg
  | @step s1 s2 b3 log env call out hr hb3 hs ih =>
    have hreach : (sys V N decode).Reach s1 b3 log := ⟨b0, w0, hi, hr⟩
    obtain ⟨hva, hsame, hpart⟩ := effect hs
    cases ht : touches a call with
    | false =>
      have hev : touches a (⟨s1, env, call, out, s2⟩ : Event S E C).call = false := ht
      rw [hsame a ht] at hg
      obtain ⟨b1, log', h1, h2, h3, h4, h5, h6⟩ := ih hg
      have hb : b1.le env.block := Block.le_trans h1 hb3
      have hstd : Steady ((⟨s1, env, call, out, s2⟩ : Event S E C) :: log) →
          Spec.WholeMulti.Steady log' ∧ s1.core.core.voting = some s1.voteAddr ∧ KeepsDao s1.core.core.me (.multi s) := by
        intro hst
        exact ⟨h4 (fun e he => hst e (List.mem_cons_of_mem _ he)), hst _ List.mem_cons_self a _ hg⟩
      cases hpart with
      | none hc hv _ =>
        refine ⟨b1, log', hb, by simpa only [viewMulti, hc, hv, hva] using h2, ?_, fun hst => (hstd hst).1, fun htot => h5 (fun e he => htot e (List.mem_cons_of_mem _ he)), ?_⟩
        · intro id x; rw [lastMulti_other hev]; exact h3 id x
        · intro id; rw [List.filter_cons, executes_other hev, if_neg (by simp)]; exact h6 id
      | core c hv hn hst =>
        have hstep : WholeMulti.step V N.total decode (viewMulti s1 a s) env.multi (.core c) = .ok (viewMulti s2 a s, ⟨none, out.core⟩) := by
          have hn' : WholeMulti.notBy a c = true := by
            have := hn a ht (by rw [hg]; simp)
            cases c with
            | call sender m => simpa only [WholeDao.notBy, WholeMulti.notBy] using this
            | deliver r => rfl
          simp only [WholeMulti.step, viewMulti, require, hn', if_true, ok_bind]
          rw [show WholeMulti.coreEnv env.multi = coreEnv env from rfl, hst]
          simp only [ok_bind, hv, hva]
        refine ⟨env.block, _, Block.le_refl _, h2.step (env := env.multi) (call := (WholeMulti.Call.core c : WholeMulti.Call E C))
          (out := WholeMulti.Out.mk none out.core) hb hstep, ?_, ?_, (fun htot e he => by
            rcases List.mem_cons.1 he with rfl | he
            · rintro ⟨_, _, _, _, _, hx⟩; cases hx
            · exact h5 (fun e he => htot e (List.mem_cons_of_mem _ he)) e he), ?_⟩
        · intro id x; rw [lastMulti_other hev]; exact h3 id x
        · intro hsteady e he
          rcases List.mem_cons.1 he with rfl | he
          · exact (hstd hsteady).2
          · exact (hstd hsteady).1 e he
        · intro id
          rw [List.filter_cons (p := executes a id), executes_other hev, if_neg (by simp)]
          exact h6 id
      | vote ve c o hc ho _ hbl hst =>
        have hstep : WholeMulti.step V N.total decode (viewMulti s1 a s) env.multi (.vote ve c) = .ok (viewMulti s2 a s, ⟨none, []⟩) := by
          have hbl' : decide (V.sys.block ve = env.multi.block) = true := decide_eq_true hbl
          simp only [WholeMulti.step, viewMulti, require, hbl', if_true, ok_bind, hst, hc, hva]
        refine ⟨env.block, _, Block.le_refl _, h2.step (env := env.multi) (call := (WholeMulti.Call.vote ve c : WholeMulti.Call E C))
          (out := WholeMulti.Out.mk none []) hb hstep, ?_, ?_, (fun htot e he => by
            rcases List.mem_cons.1 he with rfl | he
            · rintro ⟨_, _, _, _, _, hx⟩; cases hx
            · exact h5 (fun e he => htot e (List.mem_cons_of_mem _ he)) e he), ?_⟩
        · intro id x; rw [lastMulti_other hev]; exact h3 id x
        · intro hsteady e he
          rcases List.mem_cons.1 he with rfl | he
          · exact (hstd hsteady).2
          · exact (hstd hsteady).1 e he
        · intro id
          rw [List.filter_cons (p := executes a id), executes_other hev, if_neg (by simp)]
          exact h6 id
    | true =>
      cases call with
      | core c => cases ht
      | vote ve c => cases ht
      | spawn a' k =>
        obtain rfl := of_decide_eq_true ht
        obtain ⟨hne, hno, ⟨m, hm, hm'⟩, hv, hc, _, _⟩ := spawn_effect (V := V) (N := N) (decode := decode) hs
        rw [hm', AMap.get_set_self] at hg
        injection hg with hg
        subst hg
        have hbefore := untouched hreach hno
        obtain ⟨c1, l1, hcr, hcb⟩ := core_reach hreach
        obtain ⟨v1, l2, hvr, hvb⟩ := vote_reach hreach
        cases k with
        | multi c i =>
          simp only [create, bind_ok, Prod.exists, Except.ok.injEq, Module.multi.injEq] at hm
          obtain ⟨s', o', hinst, rfl⟩ := hm
          refine ⟨env.block, [], Block.le_refl _, ⟨env.block, _, ⟨?_, ?_, ?_, ?_⟩, .refl⟩, ?_, (fun _ => by intro e he; cases he), (fun _ => by intro e he; cases he), ?_⟩
          · simpa only [viewMulti, hc] using hne
          · exact ⟨c1, l1, by simpa only [viewMulti, hc] using hcr, Block.le_trans hcb hb3⟩
          · exact ⟨v1, l2, by simpa only [viewMulti, hv] using hvr, Block.le_trans hvb hb3⟩
          · exact ⟨_, c, i, o', rfl, by simp only [viewMulti, hc], hinst⟩
          · intro id x
            rw [show lastMulti a' id x ((⟨s1, env, .spawn a' (.multi c i), out, s2⟩ : Event S E C) :: log) =
              lastMulti a' id x log from rfl, (quiet hbefore id).2.1 x]
            rfl
          · intro id
            rw [List.filter_cons, if_neg (by simp [executes]), (quiet hbefore id).2.2.2]; rfl
        | single c i =>
          simp only [create, bind_ok, Prod.exists, Except.ok.injEq, reduceCtorEq, and_false, exists_false] at hm
        | condorcet c =>
          simp only [create, bind_ok, Prod.exists, Except.ok.injEq, reduceCtorEq, and_false, exists_false] at hm
      | multi a' c =>
        obtain rfl := of_decide_eq_true ht
        obtain ⟨s', s'', o, hg', hm, hst, rfl, hv, _⟩ := multi_effect (V := V) (N := N) (decode := decode) hs
        rw [hm, AMap.get_set_self] at hg
        injection hg with hg
        injection hg with hg
        subst hg
        obtain ⟨b1, log', h1, h2, h3, h4, h5, h6⟩ := ih hg'
        have hb : b1.le env.block := Block.le_trans h1 hb3
        obtain ⟨⟨o', ho, hp⟩, _⟩ := WholeMulti.prop_effect (decode := decode) hst
        refine ⟨env.block, _, Block.le_refl _, h2.step (env := env.multi) (call := (WholeMulti.Call.prop c : WholeMulti.Call E C))
          (out := o) hb hst, ?_, ?_, (fun htot e he => by
            rcases List.mem_cons.1 he with rfl | he
            · rintro ⟨g, c', m, v, z, hx⟩
              injection hx with hx
              subst hx
              exact htot _ List.mem_cons_self (Or.inl ⟨_, g, c', m, v, z, rfl⟩)
            · exact h5 (fun e he => htot e (List.mem_cons_of_mem _ he)) e he), ?_⟩
        · intro id x
          have hl : Spec.WholeMulti.propLog V N.total ((⟨viewMulti s1 a' s', env.multi, .prop c, o, viewMulti s2 a' s''⟩ :
              WholeMulti.Event S E C) :: log') = ⟨s', WholeMulti.propEnv V N.total (viewMulti s1 a' s') env.multi, c, o', s''⟩ ::
                Spec.WholeMulti.propLog V N.total log' := by simp only [Spec.WholeMulti.propLog, ho]; rfl
          have hbal : Multi.ballotCast (⟨s', WholeMulti.propEnv V N.total (viewMulti s1 a' s') env.multi, c, o', s''⟩ : Multiple.Event) =
              multiBallot a' (⟨s1, env, .multi a' c, ⟨ofMulti o.prop, o.core⟩, s2⟩ : Event S E C) := by
            cases c with
            | propose g n ms v z => cases v <;> simp [Multi.ballotCast, multiBallot, hg', WholeMulti.propEnv, Env.multi]
            | _ => simp [Multi.ballotCast, multiBallot, hg', WholeMulti.propEnv, Env.multi]
          rw [hl]
          simp only [Multi.lastVote, lastMulti, hbal]
          cases multiBallot a' (⟨s1, env, .multi a' c, ⟨ofMulti o.prop, o.core⟩, s2⟩ : Event S E C) with
          | none => exact h3 id x
          | some v => simp only [h3 id x]
        · intro hsteady e he
          rcases List.mem_cons.1 he with rfl | he
          · have := hsteady _ List.mem_cons_self a' _ hg'
            exact this
          · exact h4 (fun e he => hsteady e (List.mem_cons_of_mem _ he)) e he
        · intro id
          have hx : Spec.WholeMulti.executesId id (⟨viewMulti s1 a' s', env.multi, .prop c, o, viewMulti s2 a' s''⟩ : WholeMulti.Event S E C) =
              executes a' id (⟨s1, env, .multi a' c, ⟨ofMulti o.prop, o.core⟩, s2⟩ : Event S E C) := by
            cases c <;> simp [Spec.WholeMulti.executesId, executes]
          rw [List.filter_cons, List.filter_cons, hx]
          split
          · simp only [List.length_cons, h6 id]
          · exact h6 id
      | single a' c =>
        obtain rfl := of_decide_eq_true ht
        obtain ⟨s', s'', o, hg', hm, _⟩ := single_effect (V := V) (N := N) (decode := decode) hs
        rw [hm, AMap.get_set_self] at hg
        cases hg
      | condorcet a' c =>
        obtain rfl := of_decide_eq_true ht
        obtain ⟨s', s'', o, hg', hm, _⟩ := condorcet_effect (V := V) (N := N) (decode := decode) hs
        rw [hm, AMap.get_set_self] at hg
        cases hg

/-! ### The history a module of dao-proposal-condorcet sees -/

theorem project_condorcet {w : World S} {b : Block} {log : List (Event S E C)} (h : (sys V N decode).Reach w b log) {a : Addr}
    {s : Condorcet.State} (hg : w.mods.get a = some (.condorcet s)) :
    ∃ b1 log', b1.le b ∧ (WholeCondorcet.sys V N decode).Reach (viewCondorcet w a s) b1 log' ∧ (∀ id, Spec.WholeCondorcet.votesOn id log' = rankings a id log) ∧
      (Steady log → Spec.WholeCondorcet.Steady log') ∧
      (TotalsOfHeight V N log → Spec.WholeCondorcet.TotalsOfHeight V N log') ∧
      ∀ id, (log'.filter (Spec.WholeCondorcet.executesId id)).length = (log.filter (executes a id)).length := by
  obtain ⟨b0, w0, hi, hr⟩ := h
  induction hr generalizing s with
  | refl => rw [hi.1] at hg; cases hg
  | @step s1 s2 b3 log env call out hr hb3 hs ih =>
    have hreach : (sys V N decode).Reach s1 b3 log := ⟨b0, w0, hi, hr⟩
    obtain ⟨hva, hsame, hpart⟩ := effect hs
    cases ht : touches a call with
    | false =>
      have hev : touches a (⟨s1, env, call, out, s2⟩ : Event S E C).call = false := ht
      rw [hsame a ht] at hg
      obtain ⟨b1, log', h1, h2, h3, h4, h5, h6⟩ := ih hg
      have hb : b1.le env.block := Block.le_trans h1 hb3
      have hstd : Steady ((⟨s1, env, call, out, s2⟩ : Event S E C) :: log) →
          Spec.WholeCondorcet.Steady log' ∧ s1.core.core.voting = some s1.voteAddr ∧ KeepsDao s1.core.core.me (.condorcet s) := by
        intro hst
        exact ⟨h4 (fun e he => hst e (List.mem_cons_of_mem _ he)), hst _ List.mem_cons_self a _ hg⟩
      cases hpart with
      | none hc hv _ =>
        refine ⟨b1, log', hb, by simpa only [viewCondorcet, hc, hv, hva] using h2, ?_, fun hst => (hstd hst).1, fun htot => h5 (fun e he => htot e (List.mem_cons_of_mem _ he)), ?_⟩
        · intro id; rw [rankings_other hev]; exact h3 id
        · intro id; rw [List.filter_cons, executes_other hev, if_neg (by simp)]; exact h6 id
      | core c hv hn hst =>
        have hstep : WholeCondorcet.step V N decode (viewCondorcet s1 a s) env.condorcet (.core c) = .ok (viewCondorcet s2 a s, ⟨none, out.core⟩) := by
          have hn' : WholeCondorcet.notBy a c = true := by
            have := hn a ht (by rw [hg]; simp)
            cases c with
            | call sender m => simpa only [WholeDao.notBy, WholeCondorcet.notBy] using this
            | deliver r => rfl
          simp only [WholeCondorcet.step, viewCondorcet, require, hn', if_true, ok_bind]
          rw [show WholeCondorcet.coreEnv env.condorcet = coreEnv env from rfl, hst]
          simp only [ok_bind, hv, hva]
        refine ⟨env.block, _, Block.le_refl _, h2.step (env := env.condorcet) (call := (WholeCondorcet.Call.core c : WholeCondorcet.Call E C))
          (out := WholeCondorcet.Out.mk none out.core) hb hstep, ?_, ?_, (fun htot e he => by
            rcases List.mem_cons.1 he with rfl | he
            · rintro ⟨_, hx⟩; cases hx
            · exact h5 (fun e he => htot e (List.mem_cons_of_mem _ he)) e he), ?_⟩
        · intro id; rw [rankings_other hev]; exact h3 id
        · intro hsteady e he
          rcases List.mem_cons.1 he with rfl | he
          · exact (hstd hsteady).2.1
          · exact (hstd hsteady).1 e he
        · intro id
          rw [List.filter_cons (p := executes a id), executes_other hev, if_neg (by simp)]
          exact h6 id
      | vote ve c o hc ho _ hbl hst =>
        have hstep : WholeCondorcet.step V N decode (viewCondorcet s1 a s) env.condorcet (.vote ve c) = .ok (viewCondorcet s2 a s, ⟨none, []⟩) := by
          have hbl' : decide (V.sys.block ve = env.condorcet.block) = true := decide_eq_true hbl
          simp only [WholeCondorcet.step, viewCondorcet, require, hbl', if_true, ok_bind, hst, hc, hva]
        refine ⟨env.block, _, Block.le_refl _, h2.step (env := env.condorcet) (call := (WholeCondorcet.Call.vote ve c : WholeCondorcet.Call E C))
          (out := WholeCondorcet.Out.mk none []) hb hstep, ?_, ?_, (fun htot e he => by
            rcases List.mem_cons.1 he with rfl | he
            · rintro ⟨_, hx⟩; cases hx
            · exact h5 (fun e he => htot e (List.mem_cons_of_mem _ he)) e he), ?_⟩
        · intro id; rw [rankings_other hev]; exact h3 id
        · intro hsteady e he
          rcases List.mem_cons.1 he with rfl | he
          · exact (hstd hsteady).2.1
          · exact (hstd hsteady).1 e he
        · intro id
          rw [List.filter_cons (p := executes a id), executes_other hev, if_neg (by simp)]
          exact h6 id
    | true =>
      cases call with
      | core c => cases ht
      | vote ve c => cases ht
      | spawn a' k =>
        obtain rfl := of_decide_eq_true ht
        obtain ⟨hne, hno, ⟨m, hm, hm'⟩, hv, hc, _, _⟩ := spawn_effect (V := V) (N := N) (decode := decode) hs
        rw [hm', AMap.get_set_self] at hg
        injection hg with hg
        subst hg
        have hbefore := untouched hreach hno
        obtain ⟨c1, l1, hcr, hcb⟩ := core_reach hreach
        obtain ⟨v1, l2, hvr, hvb⟩ := vote_reach hreach
        cases k with
        | condorcet c  =>
          simp only [create, bind_ok, Prod.exists, Except.ok.injEq, Module.condorcet.injEq] at hm
          obtain ⟨s', hinst, rfl⟩ := hm
          refine ⟨env.block, [], Block.le_refl _, ⟨env.block, _, ⟨?_, ?_, ?_, ?_⟩, .refl⟩, ?_, (fun _ => by intro e he; cases he), (fun _ => by intro e he; cases he), ?_⟩
          · simpa only [viewCondorcet, hc] using hne
          · exact ⟨c1, l1, by simpa only [viewCondorcet, hc] using hcr, Block.le_trans hcb hb3⟩
          · exact ⟨v1, l2, by simpa only [viewCondorcet, hv] using hvr, Block.le_trans hvb hb3⟩
          · exact ⟨_, c, rfl, by simp only [viewCondorcet, hc], hinst⟩
          · intro id
            rw [show rankings a' id ((⟨s1, env, .spawn a' (.condorcet c), out, s2⟩ : Event S E C) :: log) =
              rankings a' id log from rfl, (quiet hbefore id).2.2.1]
            rfl
          · intro id
            rw [List.filter_cons, if_neg (by simp [executes]), (quiet hbefore id).2.2.2]; rfl
        | single c i =>
          simp only [create, bind_ok, Prod.exists, Except.ok.injEq, reduceCtorEq, and_false, exists_false] at hm
        | multi c i =>
          simp only [create, bind_ok, Prod.exists, Except.ok.injEq, reduceCtorEq, and_false, exists_false] at hm
      | condorcet a' c =>
        obtain rfl := of_decide_eq_true ht
        obtain ⟨s', s'', o, hg', hm, hst, rfl, hv, _⟩ := condorcet_effect (V := V) (N := N) (decode := decode) hs
        rw [hm, AMap.get_set_self] at hg
        injection hg with hg
        injection hg with hg
        subst hg
        obtain ⟨b1, log', h1, h2, h3, h4, h5, h6⟩ := ih hg'
        have hb : b1.le env.block := Block.le_trans h1 hb3
        obtain ⟨⟨o', ho, hp⟩, _⟩ := WholeCondorcet.prop_effect (decode := decode) hst
        refine ⟨env.block, _, Block.le_refl _, h2.step (env := env.condorcet) (call := (WholeCondorcet.Call.prop c : WholeCondorcet.Call E C))
          (out := o) hb hst, ?_, ?_, (fun htot e he => by
            rcases List.mem_cons.1 he with rfl | he
            · rintro ⟨c', hx⟩
              injection hx with hx
              subst hx
              exact htot _ List.mem_cons_self (Or.inr ⟨_, c', rfl⟩)
            · exact h5 (fun e he => htot e (List.mem_cons_of_mem _ he)) e he), ?_⟩
        · intro id
          cases c <;> simp [Spec.WholeCondorcet.votesOn, rankings, h3 id, Env.condorcet]
        · intro hsteady e he
          rcases List.mem_cons.1 he with rfl | he
          · have := hsteady _ List.mem_cons_self a' _ hg'
            exact this.1
          · exact h4 (fun e he => hsteady e (List.mem_cons_of_mem _ he)) e he
        · intro id
          have hx : Spec.WholeCondorcet.executesId id (⟨viewCondorcet s1 a' s', env.condorcet, .prop c, o, viewCondorcet s2 a' s''⟩ : WholeCondorcet.Event S E C) =
              executes a' id (⟨s1, env, .condorcet a' c, ⟨ofCondorcet o.prop, o.core⟩, s2⟩ : Event S E C) := by
            cases c <;> simp [Spec.WholeCondorcet.executesId, executes]
          rw [List.filter_cons, List.filter_cons, hx]
          split
          · simp only [List.length_cons, h6 id]
          · exact h6 id
      | single a' c =>
        obtain rfl := of_decide_eq_true ht
        obtain ⟨s', s'', o, hg', hm, _⟩ := single_effect (V := V) (N := N) (decode := decode) hs
        rw [hm, AMap.get_set_self] at hg
        cases hg
      | multi a' c =>
        obtain rfl := of_decide_eq_true ht
        obtain ⟨s', s'', o, hg', hm, _⟩ := multi_effect (V := V) (N := N) (decode := decode) hs
        rw [hm, AMap.get_set_self] at hg
        cases hg

end Verif.FullDao
