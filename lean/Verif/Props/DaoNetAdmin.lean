import Verif.Props.DaoNet
import Verif.Props.DaoCore
/-!
# C135: a DAO becomes the SubDAO of another only if both want it

All theorems are about any finite number of DAOs in company, as in C134.
-/

namespace Verif.DaoNet
open Verif Verif.Spec Verif.Spec.DaoNet
open Verif.WholeDao (VotingModule)
open Verif.WholeCondorcet (Now)
open Verif.Spec.WholeDao (Lawful)
open Verif.FullDao (Env)

variable {I : Type} [DecidableEq I] [Fintype I] {T F D P : I → Type} {U : ∀ i, VotingModule (T i) (F i) (D i) (P i)}
  {N : ∀ i, Now (T i)} {decode : I → Nat → DaoCore.CosmosMsg} {r : Reading I}

theorem nominated_step {S E C O : Type} {V : VotingModule S E C O} {M : Now S} {dec : Nat → DaoCore.CosmosMsg}
    {w w' : FullDao.World S} {e : Env} {c : FullDao.Call E C} {out : FullDao.Out}
    (h : FullDao.step V M dec w e c = .ok (w', out)) {n : Addr} (hn : w'.core.core.nominated = some n) :
    w.core.core.nominated = some n ∨ ∃ cc, c = .core cc ∧
      DaoCore.handled ⟨w.core, FullDao.coreEnv e, cc, out.core, w'.core⟩ = some (w.core.core.admin, .nominateAdmin (some n)) := by
  by_cases hc : ∀ k, c ≠ .core k
  · rw [FullDao.core_same h hc] at hn; exact Or.inl hn
  · simp only [not_forall, not_not] at hc
    obtain ⟨cc, rfl⟩ := hc
    obtain ⟨_, h1, _⟩ := FullDao.core_effect h
    by_cases hsame : w'.core.core.nominated = w.core.core.nominated
    · rw [hsame] at hn; exact Or.inl hn
    · have hrun : DaoCore.sys.Run w.core (FullDao.coreEnv e).block [⟨w.core, FullDao.coreEnv e, cc, out.core, w'.core⟩] w'.core
          (FullDao.coreEnv e).block := .step .refl (Block.le_refl _) h1
      rcases DaoCore.C50_nomination hrun _ List.mem_cons_self hsame with ⟨m, g1, _, g3⟩ | ⟨_, _, _, g3⟩ | ⟨_, g3⟩
      · simp only at g1 g3
        rw [hn] at g3
        injection g3 with g3
        subst g3
        exact Or.inr ⟨cc, rfl, g1⟩
      · simp only at g3; rw [hn] at g3; cases g3
      · simp only at g3; rw [hn] at g3; cases g3

theorem admin_change {S E C O : Type} {V : VotingModule S E C O} {M : Now S} {dec : Nat → DaoCore.CosmosMsg}
    {w w' : FullDao.World S} {e : Env} {c : FullDao.Call E C} {out : FullDao.Out}
    (h : FullDao.step V M dec w e c = .ok (w', out)) (hn : w'.core.core.admin ≠ w.core.core.admin) :
    (∃ cc, c = .core cc ∧ DaoCore.handled ⟨w.core, FullDao.coreEnv e, cc, out.core, w'.core⟩ =
      some (w.core.core.admin, .nominateAdmin none) ∧ w'.core.core.admin = w.core.core.me ∧ w.core.core.nominated = none) ∨
    ∃ cc, c = .core cc ∧
      DaoCore.handled ⟨w.core, FullDao.coreEnv e, cc, out.core, w'.core⟩ = some (w'.core.core.admin, .acceptAdminNomination) ∧
      w.core.core.nominated = some w'.core.core.admin ∧ w'.core.core.nominated = none := by
  by_cases hc : ∀ k, c ≠ .core k
  · rw [FullDao.core_same h hc] at hn; exact absurd rfl hn
  · simp only [not_forall, not_not] at hc
    obtain ⟨cc, rfl⟩ := hc
    obtain ⟨_, h1, _⟩ := FullDao.core_effect h
    have hrun : DaoCore.sys.Run w.core (FullDao.coreEnv e).block [⟨w.core, FullDao.coreEnv e, cc, out.core, w'.core⟩] w'.core
        (FullDao.coreEnv e).block := .step .refl (Block.le_refl _) h1
    rcases DaoCore.C50_change hrun _ List.mem_cons_self hn with ⟨g1, g2, g3⟩ | ⟨g1, g2, g3⟩
    · exact Or.inr ⟨cc, rfl, g1, g2, g3⟩
    · exact Or.inl ⟨cc, rfl, g1, g2, g3⟩

/-- Whatever the core of a DAO is told, it is told on good authority, or by an account outside the network. -/
theorem net_said {w w' : World T} {e : Env} {c : Call F D} {o : Out} {log : List (Event T F D)} {first : I → List DaoCore.Sub}
    (h : step U N decode r w e c = .ok (w', o))
    (hau : ∀ i, ∀ d ∈ (w.dao i).core.stack, Authorised U decode r first log i d) {i : I} {cc : DaoCore.Call} {x : FullDao.Out}
    (hev : daoEvent r i ⟨w, e, c, o, w'⟩ = some ⟨w.dao i, e, .core cc, x, w'.dao i⟩) {a : Addr} {m : DaoCore.Msg}
    (hh : DaoCore.handled ⟨(w.dao i).core, FullDao.coreEnv e, cc, x.core, (w'.dao i).core⟩ = some (a, m)) :
    Said U decode r first log i m ⟨w, e, c, o, w'⟩ a := by
  cases cc with
  | deliver y =>
    simp only [DaoCore.handled] at hh
    split at hh
    · rename_i m' rest hst
      injection hh with hh; injection hh with e1 e2
      subst e1 e2
      exact .itself rfl (hau i _ (by rw [hst]; exact List.mem_cons_self))
    · cases hh
  | call s m' =>
    injection hh with hh; injection hh with e1 e2
    subst e1 e2
    cases c with
    | dao j c =>
      obtain ⟨hal, _⟩ := net_dao h
      have hj : j = i := by
        by_contra hj
        simp only [daoEvent, dif_neg hj] at hev
        cases hev
      subst hj
      simp only [daoEvent, dite_true, Option.some.injEq, Ev.mk.injEq] at hev
      obtain ⟨_, _, hev, _⟩ := hev
      subst hev
      refine .outside rfl ?_
      intro q hq
      simp only [alone, Bool.not_eq_true'] at hal
      have := isDao_iff.2 ⟨q, hq⟩
      rw [hal] at this; cases this
    | pass j =>
      obtain ⟨q, m', h0, hne, _⟩ := net_pass h
      by_cases hj : j = i
      · subst hj
        simp only [daoEvent, if_true, Option.some.injEq, Ev.mk.injEq] at hev
        obtain ⟨_, _, hev, _⟩ := hev
        cases hev
      · by_cases hq : q = i
        · subst hq
          simp only [daoEvent, if_neg hj, h0, if_true, Option.some.injEq, Ev.mk.injEq] at hev
          obtain ⟨_, _, hev, _⟩ := hev
          injection hev with hev; injection hev with e1 e2
          subst e1 e2
          have hm : ∃ n rest, (w.dao j).core.stack = .send (.other n) :: rest ∧ r j n = some (q, m') := by
            have h0' := h0
            unfold next at h0'
            split at h0'
            · rename_i hst; exact ⟨_, _, hst, h0'⟩
            · cases h0'
          obtain ⟨n, rest, hst, hn⟩ := hm
          exact .other hj rfl (by simp only [told, h0, Option.map_some]) (hau j _ (by rw [hst]; exact List.mem_cons_self)) hn
        · simp only [daoEvent, if_neg hj, h0, if_neg hq] at hev
          cases hev

theorem said_mono {first : I → List DaoCore.Sub} {log : List (Event T F D)} {e0 e : Event T F D} {i : I} {m : DaoCore.Msg} {a : Addr}
    (h : Said U decode r first log i m e a) : Said U decode r first (e0 :: log) i m e a := by
  cases h with
  | itself ha h => exact .itself ha (auth_mono h)
  | other hj ha ht h hn => exact .other hj ha ht (auth_mono h) hn
  | outside hc ho => exact .outside hc ho

/-- **C135.** Whoever is nominated as the admin of a DAO was nominated by the one that is its admin, and if that is a DAO, by its
decision. -/
theorem C135_nominated (hU : ∀ i, Lawful (U i)) {w0 w : World T} {b0 b : Block} {log : List (Event T F D)} (hi : Init U b0 w0)
    (h : (sys U N decode r).Run w0 b0 log w b) (hs : Sound U N r log) {i : I} {a : Addr}
    (ha : (w.dao i).core.core.nominated = some a) :
    ((w0.dao i).core.core.nominated = some a ∧ (w0.dao i).core.core.admin = (w.dao i).core.core.admin) ∨ ∃ e ∈ log,
      (e.pre.dao i).core.core.admin = (w.dao i).core.core.admin ∧
      Said U decode r (fun i => (w0.dao i).core.stack) log i (.nominateAdmin (some a)) e (w.dao i).core.core.admin := by
  induction h with
  | refl => exact Or.inl ⟨ha, rfl⟩
  | @step s1 s2 b3 log env call out hr hb3 hst ih =>
    have hau := (net_authorised hU hi hr (sound_tail hs)).1
    have hadm : (s2.dao i).core.core.admin = (s1.dao i).core.core.admin := by
      by_contra hne
      rcases net_each hst i with ⟨_, h5⟩ | ⟨k, x, h4, h5⟩
      · rw [h5] at hne; exact hne rfl
      · rcases admin_change h5 hne with ⟨cc, rfl, h6, _, h7⟩ | ⟨_, _, _, _, h7⟩
        · rcases nominated_step h5 ha with h8 | ⟨cc', hcc, h8⟩
          · rw [h7] at h8; cases h8
          · injection hcc with hcc
            subst hcc
            rw [h6] at h8
            simp at h8
        · rw [ha] at h7; cases h7
    have hcase : (s1.dao i).core.core.nominated = some a ∨ ∃ cc x, daoEvent r i ⟨s1, env, call, out, s2⟩ =
        some ⟨s1.dao i, env, .core cc, x, s2.dao i⟩ ∧ DaoCore.handled ⟨(s1.dao i).core, FullDao.coreEnv env, cc, x.core,
          (s2.dao i).core⟩ = some ((s1.dao i).core.core.admin, .nominateAdmin (some a)) := by
      rcases net_each hst i with ⟨_, h5⟩ | ⟨k, x, h4, h5⟩
      · rw [h5] at ha; exact Or.inl ha
      · rcases nominated_step h5 ha with h6 | ⟨cc, rfl, h6⟩
        · exact Or.inl h6
        · exact Or.inr ⟨cc, x, h4, h6⟩
    rw [hadm]
    rcases hcase with h1 | ⟨cc, x, h4, h6⟩
    · rcases ih (sound_tail hs) h1 with h2 | ⟨e, h2, h3, h4⟩
      · exact Or.inl h2
      · exact Or.inr ⟨e, List.mem_cons_of_mem _ h2, h3, said_mono h4⟩
    · exact Or.inr ⟨_, List.mem_cons_self, rfl, said_mono (net_said hst hau h4 h6)⟩

/-- **C135.** A DAO becomes the SubDAO of another only if both want it: the other one decided to accept, and it had been nominated by
whoever was the admin until then, by its own decision if that is a DAO; or the nomination is older than the history. -/
theorem C135_consent (hU : ∀ i, Lawful (U i)) {w0 w : World T} {b0 b : Block} {log : List (Event T F D)} (hi : Init U b0 w0)
    (h : (sys U N decode r).Run w0 b0 log w b) (hs : Sound U N r log) {e : Event T F D} (he : e ∈ log) {j i : I}
    (hpre : ¬ Admin e.pre j i) (hpost : Admin e.post j i) :
    (∃ n, told r e = some (j, i, .acceptAdminNomination) ∧ r j n = some (i, .acceptAdminNomination) ∧
      Authorised U decode r (fun i => (w0.dao i).core.stack) log j (.send (.other n))) ∧
    (e.pre.dao i).core.core.nominated = some (e.pre.dao j).core.core.me ∧
    ((w0.dao i).core.core.nominated = some (w0.dao j).core.core.me ∧
        (w0.dao i).core.core.admin = (e.pre.dao i).core.core.admin ∨
      ∃ e' ∈ log, Said U decode r (fun i => (w0.dao i).core.stack) log i (.nominateAdmin (some (w0.dao j).core.core.me)) e'
        (e.pre.dao i).core.core.admin) := by
  induction h with
  | refl => cases he
  | @step s1 s2 b3 log env call out hr hb3 hst ih =>
    rcases List.mem_cons.1 he with rfl | he
    · simp only at hpre hpost ⊢
      have hrun : (sys U N decode r).Run w0 b0 (⟨s1, env, call, out, s2⟩ :: log) s2 env.block := .step hr hb3 hst
      have hau := (net_authorised hU hi hr (sound_tail hs)).1
      have m1 := net_me hr
      have m2 := net_me hrun
      obtain ⟨hji, hpost⟩ := hpost
      have hne : (s2.dao i).core.core.admin ≠ (s1.dao i).core.core.admin := fun h0 =>
        hpre ⟨hji, by rw [← h0, hpost, m2, m1]⟩
      rcases net_each hst i with ⟨_, h5⟩ | ⟨k, x, h4, h5⟩
      · rw [h5] at hne; exact absurd rfl hne
      · rcases admin_change h5 hne with ⟨_, _, _, h6, _⟩ | ⟨cc, rfl, h6, h7, _⟩
        · rw [hpost, m2, m1] at h6
          exact absurd h6 (hi.2 j i hji)
        · rw [hpost, m2 j, ← m1 j] at h6 h7
          refine ⟨?_, h7, ?_⟩
          · cases net_said hst hau h4 h6 with
            | itself ha _ => rw [m1, m1] at ha; exact absurd ha.symm (hi.2 j i hji)
            | @other q n hq ha ht h hn =>
              simp only [m1] at ha
              have : q = j := by
                by_contra hqj
                exact hi.2 q j hqj ha
              subst this
              exact ⟨n, ht, hn, auth_mono h⟩
            | outside _ ho => exact absurd rfl (ho j)
          · rw [m1 j] at h7
            rcases C135_nominated hU hi hr (sound_tail hs) h7 with h8 | ⟨e', h8, _, h9⟩
            · exact Or.inl h8
            · exact Or.inr ⟨e', List.mem_cons_of_mem _ h8, said_mono h9⟩
    · obtain ⟨⟨n, h1, h2, h3⟩, h4, h5⟩ := ih (sound_tail hs) he
      refine ⟨⟨n, h1, h2, auth_mono h3⟩, h4, ?_⟩
      rcases h5 with h5 | ⟨e', h6, h7⟩
      · exact Or.inl h5
      · exact Or.inr ⟨e', List.mem_cons_of_mem _ h6, said_mono h7⟩

/-- **C135.** A DAO ceases to be the SubDAO of another only if the other one wants it: it decided to let the DAO go, or it had decided
to nominate the one that now decided to accept. -/
theorem C135_release (hU : ∀ i, Lawful (U i)) {w0 w : World T} {b0 b : Block} {log : List (Event T F D)} (hi : Init U b0 w0)
    (h : (sys U N decode r).Run w0 b0 log w b) (hs : Sound U N r log) {e : Event T F D} (he : e ∈ log) {j i : I}
    (hpre : Admin e.pre j i) (hpost : ¬ Admin e.post j i) :
    (∃ n, told r e = some (j, i, .nominateAdmin none) ∧ r j n = some (i, .nominateAdmin none) ∧
      Authorised U decode r (fun i => (w0.dao i).core.stack) log j (.send (.other n))) ∨
    ∃ a, (e.post.dao i).core.core.admin = a ∧ (e.pre.dao i).core.core.nominated = some a ∧
      Said U decode r (fun i => (w0.dao i).core.stack) log i .acceptAdminNomination e a ∧
      ((w0.dao i).core.core.nominated = some a ∧ Admin w0 j i ∨ ∃ e' ∈ log,
        Said U decode r (fun i => (w0.dao i).core.stack) log i (.nominateAdmin (some a)) e' (e.pre.dao j).core.core.me) := by
  induction h with
  | refl => cases he
  | @step s1 s2 b3 log env call out hr hb3 hst ih =>
    rcases List.mem_cons.1 he with rfl | he
    · simp only at hpre hpost ⊢
      have hrun : (sys U N decode r).Run w0 b0 (⟨s1, env, call, out, s2⟩ :: log) s2 env.block := .step hr hb3 hst
      have hau := (net_authorised hU hi hr (sound_tail hs)).1
      have m1 := net_me hr
      have m2 := net_me hrun
      obtain ⟨hji, hpre⟩ := hpre
      have hne : (s2.dao i).core.core.admin ≠ (s1.dao i).core.core.admin := fun h0 =>
        hpost ⟨hji, by rw [h0, hpre, m2, m1]⟩
      rcases net_each hst i with ⟨_, h5⟩ | ⟨k, x, h4, h5⟩
      · rw [h5] at hne; exact absurd rfl hne
      · rcases admin_change h5 hne with ⟨cc, rfl, h6, _⟩ | ⟨cc, rfl, h6, h7, _⟩
        · left
          rw [hpre] at h6
          cases net_said hst hau h4 h6 with
          | itself ha _ => rw [m1, m1] at ha; exact absurd ha.symm (hi.2 j i hji)
          | @other q n hq ha ht h hn =>
            simp only [m1] at ha
            have : q = j := by
              by_contra hqj
              exact hi.2 q j hqj ha
            subst this
            exact ⟨n, ht, hn, auth_mono h⟩
          | outside _ ho => exact absurd rfl (ho j)
        · right
          refine ⟨_, rfl, h7, said_mono (net_said hst hau h4 h6), ?_⟩
          rcases C135_nominated hU hi hr (sound_tail hs) h7 with ⟨h8, h9⟩ | ⟨e', h8, _, h9⟩
          · exact Or.inl ⟨h8, hji, by rw [h9, hpre, m1]⟩
          · rw [hpre] at h9
            exact Or.inr ⟨e', List.mem_cons_of_mem _ h8, said_mono h9⟩
    · rcases ih (sound_tail hs) he with ⟨n, h1, h2, h3⟩ | ⟨a, h1, h2, h3, h4⟩
      · exact Or.inl ⟨n, h1, h2, auth_mono h3⟩
      · refine Or.inr ⟨a, h1, h2, said_mono h3, ?_⟩
        rcases h4 with h5 | ⟨e', h6, h7⟩
        · exact Or.inl h5
        · exact Or.inr ⟨e', List.mem_cons_of_mem _ h6, said_mono h7⟩

/-- **C135.** And if both want it, it happens. First half: a DAO that is its own admin, with nobody nominated, and whose next message
nominates another, has nominated it once the message is delivered, also if it is paused. -/
theorem C135_offer {w0 w : World T} {b0 b : Block} {log : List (Event T F D)} (h : (sys U N decode r).Run w0 b0 log w b) {i : I}
    (hown : (w.dao i).core.core.admin = (w.dao i).core.core.me) (hnone : (w.dao i).core.core.nominated = none) {a : Addr}
    {rest : List DaoCore.Sub} (hst : (w.dao i).core.stack = .send (.toSelf (.nominateAdmin (some a))) :: rest) (e : Env) :
    ∃ w' out, (sys U N decode r).step w e (.dao i (.core (.deliver ⟨0, []⟩))) = .ok (w', out) ∧
      (w'.dao i).core.core = { (w.dao i).core.core with nominated := some a } ∧ (w'.dao i).core.stack = rest ∧
      ∀ x, x ≠ i → w'.dao x = w.dao x := by
  have h1 : FullDao.step (U i) (N i) (decode i) (w.dao i) e (.core (.deliver ⟨0, []⟩)) =
      .ok ({ w.dao i with core := ⟨{ (w.dao i).core.core with nominated := some a }, rest⟩ }, ⟨.none, []⟩) := by
    simp only [FullDao.step, FullDao.notByModule, require, if_true, ok_bind, DaoCore.step, hst, DaoCore.execute, DaoCore.dispatch,
      DaoCore.nominateAdmin, hown, hnone, decide_true, Bool.or_true, Option.isNone_none, List.nil_append]
  have hnext : next r i (w.dao i).core.stack = none := by rw [hst]; rfl
  refine ⟨⟨Function.update w.dao i { w.dao i with core := ⟨{ (w.dao i).core.core with nominated := some a }, rest⟩ }⟩,
    ⟨⟨.none, []⟩, silent⟩, ?_, ?_, ?_, ?_⟩
  · simp only [sys, step, alone, hnext, Option.isNone_none, require, if_true, ok_bind, h1]
  · simp only [Function.update_self]
  · simp only [Function.update_self]
  · intro x hx
    simp only [Function.update_of_ne hx]

/-- **C135.** Second half: once a DAO has been nominated and sends its acceptance next, it becomes the admin, unless the DAO that is
to be its SubDAO is paused. Nothing else changes there. -/
theorem C135_accept {w0 w : World T} {b0 b : Block} {log : List (Event T F D)} (hi : Init U b0 w0)
    (h : (sys U N decode r).Run w0 b0 log w b) {j i : I} (hji : j ≠ i)
    (hnom : (w.dao i).core.core.nominated = some (w.dao j).core.core.me) {n : Nat} {rest : List DaoCore.Sub}
    (hst : (w.dao j).core.stack = .send (.other n) :: rest) (hn : r j n = some (i, .acceptAdminNomination)) {e : Env}
    (hp : DaoCore.isPaused (w.dao i).core.core e.block = false) :
    ∃ w' out, (sys U N decode r).step w e (.pass j) = .ok (w', out) ∧ Admin w' j i ∧
      (w'.dao i).core.core = { (w.dao i).core.core with nominated := none, admin := (w.dao j).core.core.me } ∧
      (w'.dao j).core.core = (w.dao j).core.core ∧ (w'.dao j).core.stack = rest ∧ (w'.dao i).core.stack = (w.dao i).core.stack ∧
      ∀ x, x ≠ i → x ≠ j → w'.dao x = w.dao x := by
  have h3 := net_outsider hi h i j
  have hne : (w.dao j).core.core.me ≠ (w.dao i).core.core.me := by
    rw [net_me h j, net_me h i]; exact hi.2 j i hji
  have h1 : FullDao.step (U j) (N j) (decode j) (w.dao j) e (.core (.deliver ⟨0, []⟩)) =
      .ok ({ w.dao j with core := ⟨(w.dao j).core.core, rest⟩ }, ⟨.none, []⟩) := by
    simp only [FullDao.step, FullDao.notByModule, require, if_true, ok_bind, DaoCore.step, hst]
  have h2 : FullDao.step (U i) (N i) (decode i) (w.dao i) e (.core (.call (w.dao j).core.core.me .acceptAdminNomination)) =
      .ok ({ w.dao i with core := ⟨{ (w.dao i).core.core with nominated := none, admin := (w.dao j).core.core.me },
        (w.dao i).core.stack⟩ }, ⟨.none, []⟩) := by
    have hp' : DaoCore.isPaused (w.dao i).core.core (FullDao.coreEnv e).block = false := hp
    simp only [FullDao.step, FullDao.notByModule, require, if_true, ok_bind, DaoCore.step, h3, orErr,
      Option.isNone_none, DaoCore.execute, DaoCore.dispatch, DaoCore.acceptAdmin, hnom, decide_true, hp', Bool.not_false,
      Bool.true_or, hne, ne_eq, not_false_eq_true, List.nil_append]
  have hnext : next r j (w.dao j).core.stack = some (i, .acceptAdminNomination) := by rw [hst]; exact hn
  refine ⟨⟨Function.update (Function.update w.dao j { w.dao j with core := ⟨(w.dao j).core.core, rest⟩ }) i
      { w.dao i with core := ⟨{ (w.dao i).core.core with nominated := none, admin := (w.dao j).core.core.me },
        (w.dao i).core.stack⟩ }⟩, ⟨⟨.none, []⟩, ⟨.none, []⟩⟩, ?_, ⟨hji, ?_⟩, ?_, ?_, ?_, ?_, ?_⟩
  · simp only [sys, step, hnext, orErr, ok_bind, Ne.symm hji, ne_eq, not_false_eq_true, decide_true, require, if_true, h1, h2]
  · simp only [Function.update_self, Function.update_of_ne hji]
  · simp only [Function.update_self]
  · simp only [Function.update_self, Function.update_of_ne hji]
  · simp only [Function.update_self, Function.update_of_ne hji]
  · simp only [Function.update_self]
  · intro x hx hxj
    simp only [Function.update_of_ne hx, Function.update_of_ne hxj]

end Verif.DaoNet
