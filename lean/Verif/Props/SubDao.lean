import Verif.Spec.SubDao
import Verif.Props.FullDao
import Verif.Props.DaoCoreModules
/-!
# C96: a SubDAO obeys its members and its parent DAO, and nobody else
-/

namespace Verif.FullDao
open Verif Verif.Voting Verif.Spec Verif.Spec.FullDao
open Verif.WholeDao (VotingModule)
open Verif.WholeCondorcet (Now)
open Verif.Spec.WholeDao (Lawful)
open Verif.Spec.SubDao (OwnModules AdminSent)

variable {S E C O : Type} {V : VotingModule S E C O} {N : Now S} {decode : Nat → DaoCore.CosmosMsg}

theorem stack_step {s1 s2 : World S} {env : Env} {call : Call E C} {out : Out}
    (hs : step V N decode s1 env call = .ok (s2, out)) : ∀ d ∈ s2.core.stack, d ∈ out.core ∨ d ∈ s1.core.stack := by
  intro d hd
  obtain ⟨_, _, hp⟩ := effect hs
  cases hp with
  | none hc => rw [hc] at hd; exact Or.inr hd
  | vote _ _ _ hc => rw [hc] at hd; exact Or.inr hd
  | core c _ _ hc =>
    cases DaoCore.step_does hc with
    | msg hh _ _ _ hs1 hs2 _ =>
      simp only at hs1 hs2
      rw [hs2, List.mem_append] at hd
      rw [hs1]
      exact hd.imp (fun h => h) (fun hd => List.mem_append.2 (Or.inr hd))
    | rep hh _ _ _ _ _ hs1 hs2 =>
      simp only at hs1 hs2
      rw [hs2, List.mem_append] at hd
      rw [hs1]
      exact hd.imp (fun h => h) (fun hd => List.mem_cons_of_mem _ hd)
    | other hh _ _ hs1 hs2 _ =>
      simp only at hs1 hs2
      rw [hs2] at hd
      rw [hs1]
      exact Or.inr (List.mem_cons_of_mem _ hd)

/-- What waits to be sent was there in the beginning or has been handed out since. -/
theorem waiting {w0 w : World S} {b0 b : Block} {log : List (Event S E C)} (hr : (sys V N decode).Run w0 b0 log w b) :
    ∀ d ∈ w.core.stack, d ∈ w0.core.stack ∨ ∃ e ∈ log, d ∈ e.out.core := by
  induction hr with
  | refl => exact fun d hd => Or.inl hd
  | step hr hb hs ih =>
    intro d hd
    rcases stack_step hs d hd with hd | hd
    · exact Or.inr ⟨_, List.mem_cons_self, hd⟩
    · rcases ih d hd with h | ⟨e, he, h⟩
      · exact Or.inl h
      · exact Or.inr ⟨e, List.mem_cons_of_mem _ he, h⟩

theorem sub_mono {P Q : DaoCore.CosmosMsg → Prop} (hPQ : ∀ m, P m → Q m) {first : List DaoCore.Sub}
    {log log' : List (Event S E C)} (hlog : ∃ l, log' = l ++ log) {d : DaoCore.Sub}
    (h : SubDao.Authorised V decode P first log d) : SubDao.Authorised V decode Q first log' d := by
  obtain ⟨l, rfl⟩ := hlog
  induction h with
  | founding h => exact .founding h
  | proposal hl h ha hn => exact .proposal (later := l ++ _) (by rw [hl, List.append_assoc]) h ha hn
  | admin h => exact .admin (hPQ _ h)
  | voting _ ih => exact .voting ih
  | module _ hi ih => exact .module ih hi
  | callback _ he hc hr hm ih => exact .callback ih (List.mem_append_right _ he) hc hr hm

/-- **C96.** A DAO with an outside admin: everything it ever sends goes back to what it was founded with, to proposals its
members have decided for, or to what its admin told it to send. -/
theorem C96_outside (hV : Lawful V) {w0 w : World S} {b0 b : Block} {log : List (Event S E C)} (hi : Init V b0 w0)
    (hr : (sys V N decode).Run w0 b0 log w b) (hst : Steady log) (hN : TotalsOfHeight V N log) (hown : OwnModules log)
    (hout : ∀ e ∈ log, e.pre.core.core.admin ≠ e.pre.core.core.me) :
    ∀ ev ∈ log, ∀ d ∈ ev.out.core, SubDao.Authorised V decode (AdminSent log) w0.core.stack log d := by
  suffices key : (∀ d ∈ w.core.stack, SubDao.Authorised V decode (AdminSent log) w0.core.stack log d) ∧
      ∀ ev ∈ log, ∀ d ∈ ev.out.core, SubDao.Authorised V decode (AdminSent log) w0.core.stack log d from key.2
  induction hr with
  | refl => exact ⟨fun d hd => .founding hd, by simp⟩
  | @step s1 s2 b3 log env call out hr hb3 hs ih =>
    obtain ⟨ih1, ih2⟩ := ih (fun e he => hst e (List.mem_cons_of_mem _ he))
      (fun e he => hN e (List.mem_cons_of_mem _ he)) (fun e he => hown e (List.mem_cons_of_mem _ he))
      (fun e he => hout e (List.mem_cons_of_mem _ he))
    have hen := hown _ (List.mem_cons_self)
    have hadm := hout _ (List.mem_cons_self)
    simp only at hadm hen
    have hre : (sys V N decode).Reach s2 env.block (⟨s1, env, call, out, s2⟩ :: log) := ⟨b0, w0, hi, .step hr hb3 hs⟩
    have hme : s1.mods.get s1.core.core.me = none := apart ⟨b0, w0, hi, hr⟩
    have man := C95_mandate hV hre hst hN (later := []) (before := log) rfl
    simp only at man
    have mono : ∀ {d}, SubDao.Authorised V decode (AdminSent log) w0.core.stack log d →
        SubDao.Authorised V decode (AdminSent (⟨s1, env, call, out, s2⟩ :: log)) w0.core.stack
          (⟨s1, env, call, out, s2⟩ :: log) d := by
      intro d hd
      refine sub_mono ?_ ⟨[_], rfl⟩ hd
      rintro m ⟨e, he, h⟩
      exact ⟨e, List.mem_cons_of_mem _ he, h⟩
    suffices hnew : (∀ d ∈ out.core, SubDao.Authorised V decode (AdminSent (⟨s1, env, call, out, s2⟩ :: log)) w0.core.stack
          (⟨s1, env, call, out, s2⟩ :: log) d) by
      refine ⟨?_, ?_⟩
      · intro d hd
        rcases stack_step hs d hd with hd | hd
        · exact hnew d hd
        · exact mono (ih1 d hd)
      · intro ev hev d hd
        rcases List.mem_cons.1 hev with rfl | hev
        · exact hnew d hd
        · exact mono (ih2 ev hev d hd)
    intro d hd
    rcases man with ho | ⟨a, id, msgs, hc, ha, ho⟩ | ⟨c', hc', hms, hby⟩
    · rw [ho] at hd; cases hd
    · rw [ho] at hd
      obtain ⟨n, hn, rfl⟩ := List.mem_map.1 hd
      exact .proposal (later := []) rfl hc ha hn
    · cases call with
      | core c =>
        obtain ⟨hn, hc, _⟩ := core_effect (V := V) (N := N) (decode := decode) hs
        have hdoes := DaoCore.step_does hc
        injection hc' with hc'
        subst hc'
        simp only at hby
        -- a message handled by the DAO for itself was on its list
        have self : ∀ {m : DaoCore.Msg}, DaoCore.handled ⟨s1.core, coreEnv env, c, out.core, s2.core⟩ =
            some (s1.core.core.me, m) → .send (.toSelf m) ∈ s1.core.stack := by
          intro m hm
          cases hdoes with
          | msg hh _ _ _ hs1 _ hdd =>
            rw [hh] at hm
            injection hm with hm; injection hm with e1 e2
            subst e1 e2
            rcases hdd with ⟨_, hne⟩ | ⟨hdl, _⟩
            · exact absurd rfl hne
            · simp only at hs1
              rw [hs1, hdl]; simp
          | rep hh => rw [hh] at hm; cases hm
          | other hh => rw [hh] at hm; cases hm
        -- what others tell the DAO comes in calls
        have outside : ∀ {a : Addr} {m : DaoCore.Msg}, DaoCore.handled ⟨s1.core, coreEnv env, c, out.core, s2.core⟩ =
            some (a, m) → a ≠ s1.core.core.me → c = .call a m := by
          intro a m hm hne
          cases c with
          | call sender m' =>
            injection hm with hm; injection hm with e1 e2
            rw [e1, e2]
          | deliver r =>
            simp only [DaoCore.handled] at hm
            split at hm
            · injection hm with hm; injection hm with e1 e2
              exact absurd e1.symm hne
            · cases hm
        cases hms d hd with
        | hook hh ha hm =>
          rename_i a msgs m
          obtain ⟨mo, hmo⟩ := hen a ha
          have hne : a ≠ s1.core.core.me := by
            rintro rfl
            rw [hme] at hmo; cases hmo
          have := hby a _ (outside hh hne)
          rw [hmo] at this; cases this
        | admin hh hm =>
          have hc2 := outside hh hadm
          exact .admin ⟨_, List.mem_cons_self, _, congrArg Call.core hc2, hm⟩
        | callback hh hr' hm =>
          rename_i role r m
          cases hdoes with
          | msg _ hh' => rw [hh'] at hh; cases hh
          | @rep role' c' i rest _ hh' _ _ _ _ hs1 _ =>
            rw [hh'] at hh
            injection hh with hh; injection hh with e1 e2
            subst e1 e2
            refine .callback (i := i) (mono (ih1 _ ?_)) (List.mem_cons_self) rfl hh' hm
            simp only at hs1
            rw [hs1]; exact List.mem_cons_self
          | other _ hh' => rw [hh'] at hh; cases hh
        | voting hh => exact .voting (mono (ih1 _ (self hh)))
        | proposal hh hi => exact .module (mono (ih1 _ (self hh))) hi
      | vote ve c => cases hc'
      | spawn a k => cases hc'
      | single a c => cases hc'
      | multi a c => cases hc'
      | condorcet a c => cases hc'

end Verif.FullDao

namespace Verif.SubDao
open Verif Verif.Voting Verif.Spec Verif.Spec.SubDao
open Verif.Spec.FullDao (Steady TotalsOfHeight Governed)
open Verif.WholeDao (VotingModule)
open Verif.WholeCondorcet (Now)
open Verif.Spec.WholeDao (Lawful)
open Verif.FullDao (Env)

variable {S T E C O F D P : Type} {V : VotingModule S E C O} {N : Now S} {U : VotingModule T F D P} {M : Now T}
  {decode decodeChild : Nat → DaoCore.CosmosMsg} {toChild : ToChild}

theorem parent_effect {w w' : World S T} {e : Env} {c : FullDao.Call E C} {out : Out}
    (h : step V N U M decode decodeChild toChild w e (.parent c) = .ok (w', out)) :
    parentAlone toChild w.parent.core.stack c = true ∧ FullDao.step V N decode w.parent e c = .ok (w'.parent, out.parent) ∧
    w'.child = w.child ∧ out.child = silent := by
  simp only [step, bind_ok, require_ok, Prod.exists, Except.ok.injEq, Prod.mk.injEq] at h
  obtain ⟨_, h1, p, o, h2, rfl, rfl⟩ := h
  exact ⟨h1, h2, rfl, rfl⟩

theorem child_effect {w w' : World S T} {e : Env} {c : FullDao.Call F D} {out : Out}
    (h : step V N U M decode decodeChild toChild w e (.child c) = .ok (w', out)) :
    childAlone w.parent.core.core.me c = true ∧ FullDao.step U M decodeChild w.child e c = .ok (w'.child, out.child) ∧
    w'.parent = w.parent ∧ out.parent = silent := by
  simp only [step, bind_ok, require_ok, Prod.exists, Except.ok.injEq, Prod.mk.injEq] at h
  obtain ⟨_, h1, p, o, h2, rfl, rfl⟩ := h
  exact ⟨h1, h2, rfl, rfl⟩

theorem pass_effect {w w' : World S T} {e : Env} {out : Out}
    (h : step V N U M decode decodeChild toChild w e .pass = .ok (w', out)) :
    ∃ m, next toChild w.parent.core.stack = some m ∧
    FullDao.step V N decode w.parent e (.core (.deliver ⟨0, []⟩)) = .ok (w'.parent, out.parent) ∧
    FullDao.step U M decodeChild w.child e (.core (.call w.parent.core.core.me m)) = .ok (w'.child, out.child) := by
  simp only [step, bind_ok, orErr_ok, Prod.exists, Except.ok.injEq, Prod.mk.injEq] at h
  obtain ⟨m, h1, p, o, h2, q, o', h3, rfl, rfl⟩ := h
  exact ⟨m, h1, h2, h3⟩

/-- **C96.** Seen from the parent, a history of the two DAOs is a history of a DAO as in C95. -/
theorem C96_parent {w0 w : World S T} {b0 b : Block} {log : List (Event S T E C F D)}
    (h : (sys V N U M decode decodeChild toChild).Run w0 b0 log w b) :
    ∃ b1, (FullDao.sys V N decode).Run w0.parent b0 (parentLog log) w.parent b1 ∧ b1.le b := by
  induction h with
  | refl => exact ⟨_, .refl, Block.le_refl _⟩
  | @step s1 s2 b3 log env call out hr hb3 hs ih =>
    obtain ⟨b1, h1, h2⟩ := ih
    have h3 : b1.le env.block := Block.le_trans h2 hb3
    cases call with
    | parent c =>
      obtain ⟨_, h4, _⟩ := parent_effect (V := V) (N := N) (U := U) (M := M) (decode := decode) (decodeChild := decodeChild) (toChild := toChild) hs
      exact ⟨_, .step h1 h3 h4, Block.le_refl _⟩
    | child c =>
      obtain ⟨_, _, h4, _⟩ := child_effect (V := V) (N := N) (U := U) (M := M) (decode := decode) (decodeChild := decodeChild) (toChild := toChild) hs
      exact ⟨b1, by rw [h4]; exact h1, h3⟩
    | pass =>
      obtain ⟨m, _, h4, _⟩ := pass_effect (V := V) (N := N) (U := U) (M := M) (decode := decode) (decodeChild := decodeChild) (toChild := toChild) hs
      exact ⟨_, .step h1 h3 h4, Block.le_refl _⟩

/-- **C96.** Seen from the SubDAO as well. -/
theorem C96_child {w0 w : World S T} {b0 b : Block} {log : List (Event S T E C F D)}
    (h : (sys V N U M decode decodeChild toChild).Run w0 b0 log w b) :
    ∃ b1, (FullDao.sys U M decodeChild).Run w0.child b0 (childLog toChild log) w.child b1 ∧ b1.le b := by
  induction h with
  | refl => exact ⟨_, .refl, Block.le_refl _⟩
  | @step s1 s2 b3 log env call out hr hb3 hs ih =>
    obtain ⟨b1, h1, h2⟩ := ih
    have h3 : b1.le env.block := Block.le_trans h2 hb3
    cases call with
    | parent c =>
      obtain ⟨_, _, h4, _⟩ := parent_effect (V := V) (N := N) (U := U) (M := M) (decode := decode) (decodeChild := decodeChild) (toChild := toChild) hs
      exact ⟨b1, by rw [h4]; exact h1, h3⟩
    | child c =>
      obtain ⟨_, h4, _⟩ := child_effect (V := V) (N := N) (U := U) (M := M) (decode := decode) (decodeChild := decodeChild) (toChild := toChild) hs
      exact ⟨_, .step h1 h3 h4, Block.le_refl _⟩
    | pass =>
      obtain ⟨m, hm, _, h4⟩ := pass_effect (V := V) (N := N) (U := U) (M := M) (decode := decode) (decodeChild := decodeChild) (toChild := toChild) hs
      refine ⟨env.block, ?_, Block.le_refl _⟩
      have : childLog toChild ((⟨s1, env, .pass, out, s2⟩ : Event S T E C F D) :: log) =
          ⟨s1.child, env, .core (.call s1.parent.core.core.me m), out.child, s2.child⟩ :: childLog toChild log := by
        simp only [childLog]
        rw [List.filterMap_cons_some]
        simp only [childEvent, told, hm, Option.map_some]
      rw [this]
      exact .step h1 h3 h4

theorem me_run {w0 w : FullDao.World S} {b0 b : Block} {log : List (FullDao.Event S E C)}
    (h : (FullDao.sys V N decode).Run w0 b0 log w b) : w.core.core.me = w0.core.core.me := by
  induction h with
  | refl => rfl
  | step hr hb hs ih => rw [FullDao.me_same hs, ih]

/-- What a step does to the admin of a DAO: nobody but the admin and the nominated address can change it. -/
theorem admin_step {w w' : FullDao.World S} {e : Env} {c : FullDao.Call E C} {out : FullDao.Out}
    (h : FullDao.step V N decode w e c = .ok (w', out)) (hne : w.core.core.admin ≠ w.core.core.me)
    (hn : w.core.core.nominated = none) :
    (w'.core.core.admin = w.core.core.admin ∧ w'.core.core.nominated = none) ∨
    ∃ n, c = .core (.call w.core.core.admin (.nominateAdmin n)) := by
  obtain ⟨_, _, hp⟩ := FullDao.effect h
  have core : ∀ (cc : DaoCore.Call), DaoCore.step w.core (FullDao.coreEnv e) cc = .ok (w'.core, out.core) →
      (w'.core.core.admin = w.core.core.admin ∧ w'.core.core.nominated = none) ∨
      ∃ n, cc = .call w.core.core.admin (.nominateAdmin n) := by
    intro cc hc
    cases DaoCore.step_does hc with
    | msg hh _ _ he hs1 hs2 hdd =>
      simp only at he hdd
      have out : ∀ {a : Addr} {m : DaoCore.Msg}, DaoCore.handled ⟨w.core, FullDao.coreEnv e, cc, out.core, w'.core⟩ =
          some (a, m) → a ≠ w.core.core.me → cc = .call a m := by
        intro a m hm hne
        cases cc with
        | call sender m' =>
          injection hm with hm; injection hm with e1 e2
          rw [e1, e2]
        | deliver r =>
          simp only [DaoCore.handled] at hm
          split at hm
          · injection hm with hm; injection hm with e1 e2
            exact absurd e1.symm hne
          · cases hm
      generalize hw : w'.core.core = s' at he
      generalize ho : FullDao.Out.core _ = o' at he
      cases he
      case nominate n h1 h2 => exact Or.inr ⟨_, h1 ▸ out hh (h1 ▸ hne)⟩
      case resign h1 h2 => exact Or.inr ⟨_, h1 ▸ out hh (h1 ▸ hne)⟩
      case accept h1 => rw [hn] at h1; cases h1
      case withdraw => exact Or.inl ⟨rfl, rfl⟩
      all_goals exact Or.inl ⟨rfl, hn⟩
    | rep hh _ _ _ _ hr _ _ =>
      simp only at hr
      generalize hw : w'.core.core = s' at hr
      generalize ho : FullDao.Out.core _ = o' at hr
      cases hr <;> exact Or.inl ⟨rfl, hn⟩
    | other hh _ _ _ _ he _ =>
      simp only at he
      rw [he]; exact Or.inl ⟨rfl, hn⟩
  cases hp with
  | none hc => rw [hc]; exact Or.inl ⟨rfl, hn⟩
  | vote _ _ _ hc => rw [hc]; exact Or.inl ⟨rfl, hn⟩
  | core cc _ _ hc =>
    cases c with
    | core c0 =>
      obtain ⟨_, h1, _⟩ := FullDao.core_effect h
      rcases core c0 h1 with h | ⟨n, h⟩
      · exact Or.inl h
      · exact Or.inr ⟨n, by rw [h]⟩
    | vote ve c0 =>
      obtain ⟨_, _, _, h1, _⟩ := FullDao.vote_effect h
      rw [h1]; exact Or.inl ⟨rfl, hn⟩
    | spawn a k =>
      obtain ⟨_, _, _, _, h1, _⟩ := FullDao.spawn_effect h
      rw [h1]; exact Or.inl ⟨rfl, hn⟩
    | single a c0 =>
      obtain ⟨s, s', o, _, _, h1, _⟩ := FullDao.single_effect (N := N) h
      obtain ⟨_, _, _, _, ⟨h2, _⟩ | ⟨id, p, _, _, h2⟩⟩ := WholeDao.prop_effect (decode := decode) h1
      · rw [show w'.core = w.core from h2]; exact Or.inl ⟨rfl, hn⟩
      · obtain ⟨_, _, h3, _⟩ := FullDao.hook_inv h2
        rw [show w'.core = ⟨w.core.core, _⟩ from h3]; exact Or.inl ⟨rfl, hn⟩
    | multi a c0 =>
      obtain ⟨s, s', o, _, _, h1, _⟩ := FullDao.multi_effect h
      obtain ⟨_, _, _, _, ⟨h2, _⟩ | ⟨id, p, ms, _, _, _, h2⟩⟩ := WholeMulti.prop_effect (decode := decode) h1
      · rw [show w'.core = w.core from h2]; exact Or.inl ⟨rfl, hn⟩
      · obtain ⟨_, _, h3, _⟩ := FullDao.hook_inv h2
        rw [show w'.core = ⟨w.core.core, _⟩ from h3]; exact Or.inl ⟨rfl, hn⟩
    | condorcet a c0 =>
      obtain ⟨s, s', o, _, _, h1, _⟩ := FullDao.condorcet_effect h
      obtain ⟨_, _, _, _, ⟨h2, _⟩ | ⟨id, p, t, i, ms, _, _, _, _, _, h2⟩⟩ := WholeCondorcet.prop_effect (decode := decode) h1
      · rw [show w'.core = w.core from h2]; exact Or.inl ⟨rfl, hn⟩
      · obtain ⟨_, _, h3, _⟩ := FullDao.hook_inv h2
        rw [show w'.core = ⟨w.core.core, _⟩ from h3]; exact Or.inl ⟨rfl, hn⟩

theorem next_mem {stack : List DaoCore.Sub} {m : DaoCore.Msg} (h : next toChild stack = some m) :
    ∃ n rest, stack = .send (.other n) :: rest ∧ toChild n = some m := by
  unfold next at h
  split at h
  · exact ⟨_, _, rfl, h⟩
  · cases h

/-- The addresses of the two DAOs do not change. -/
theorem mes {w0 w : World S T} {b0 b : Block} {log : List (Event S T E C F D)}
    (h : (sys V N U M decode decodeChild toChild).Run w0 b0 log w b) :
    w.parent.core.core.me = w0.parent.core.core.me ∧ w.child.core.core.me = w0.child.core.core.me := by
  obtain ⟨_, h1, _⟩ := C96_parent h
  obtain ⟨_, h2, _⟩ := C96_child h
  exact ⟨me_run h1, me_run h2⟩

/-- **C96.** The parent stays the admin of the SubDAO, and nobody is nominated to become it, as long as the parent does not
tell the SubDAO to take another one. -/
theorem C96_admin {w0 w : World S T} {b0 b : Block} {log : List (Event S T E C F D)} (hi : Init V U b0 w0)
    (h : (sys V N U M decode decodeChild toChild).Run w0 b0 log w b) (hk : KeepsAdmin toChild log) :
    w.child.core.core.admin = w.parent.core.core.me ∧ w.child.core.core.nominated = none ∧
    w.parent.core.core.me ≠ w.child.core.core.me := by
  induction h with
  | refl => exact ⟨hi.2.2.2.1, hi.2.2.2.2, hi.2.2.1⟩
  | @step s1 s2 b3 log env call out hr hb3 hs ih =>
    obtain ⟨ih1, ih2, ih3⟩ := ih (fun e he => hk e (List.mem_cons_of_mem _ he))
    have hk' := hk _ List.mem_cons_self
    have hne : s1.child.core.core.admin ≠ s1.child.core.core.me := ih1 ▸ ih3
    cases call with
    | parent c =>
      obtain ⟨_, h1, h2, _⟩ := parent_effect (V := V) (N := N) (U := U) (M := M) (decode := decode) (decodeChild := decodeChild) (toChild := toChild) hs
      rw [h2, FullDao.me_same h1]
      exact ⟨ih1, ih2, ih3⟩
    | child c =>
      obtain ⟨ha, h1, h2, _⟩ := child_effect (V := V) (N := N) (U := U) (M := M) (decode := decode) (decodeChild := decodeChild) (toChild := toChild) hs
      rw [h2, FullDao.me_same h1]
      rcases admin_step h1 hne ih2 with ⟨h3, h4⟩ | ⟨n, rfl⟩
      · exact ⟨h3.trans ih1, h4, ih3⟩
      · simp [childAlone, ih1] at ha
    | pass =>
      obtain ⟨m, hm, h1, h2⟩ := pass_effect (V := V) (N := N) (U := U) (M := M) (decode := decode) (decodeChild := decodeChild) (toChild := toChild) hs
      rw [FullDao.me_same h1, FullDao.me_same h2]
      rcases admin_step h2 hne ih2 with ⟨h3, h4⟩ | ⟨n, h3⟩
      · exact ⟨h3.trans ih1, h4, ih3⟩
      · injection h3 with h3; injection h3 with h3 h4
        exact absurd (show told toChild _ = some (.nominateAdmin n) by simp only [told]; rw [hm, h4]) (hk' n)

/-- What the parent tells the SubDAO was sent by the parent. -/
theorem told_sent {w0 w : World S T} {b0 b : Block} {log : List (Event S T E C F D)}
    (h : (sys V N U M decode decodeChild toChild).Run w0 b0 log w b) {e : Event S T E C F D} (he : e ∈ log)
    {m : DaoCore.Msg} (hm : told toChild e = some m) :
    ∃ n, toChild n = some m ∧ (.send (.other n) ∈ w0.parent.core.stack ∨
      ∃ e' ∈ parentLog log, .send (.other n) ∈ e'.out.core) := by
  obtain ⟨before, later, b1, hl, h1, _, _, _⟩ := h.event e he
  obtain ⟨_, h2, _⟩ := C96_parent h1
  unfold told at hm
  split at hm
  · obtain ⟨n, rest, h3, h4⟩ := next_mem hm
    refine ⟨n, h4, ?_⟩
    rcases FullDao.waiting h2 (.send (.other n)) (by rw [h3]; exact List.mem_cons_self) with h5 | ⟨e', he', h5⟩
    · exact Or.inl h5
    · refine Or.inr ⟨e', ?_, h5⟩
      subst hl
      simp only [parentLog, List.filterMap_append, List.mem_append] at he' ⊢
      right
      obtain ⟨x, hx, hx'⟩ := List.mem_filterMap.1 he'
      exact List.mem_filterMap.2 ⟨x, List.mem_cons_of_mem _ hx, hx'⟩
  · cases hm

/-- **C96.** What the parent sends to the SubDAO reaches it: whenever a message for the SubDAO is taken from the list of the
parent, the core of the SubDAO has been called with it successfully, by the parent. -/
theorem C96_reaches {w0 w : World S T} {b0 b : Block} {log : List (Event S T E C F D)}
    (h : (sys V N U M decode decodeChild toChild).Run w0 b0 log w b) :
    ∀ e ∈ log, ∀ pe c n m, parentEvent e = some pe → Spec.FullDao.coreEvent pe = some c →
      Spec.DaoCore.delivered c = [.send (.other n)] → toChild n = some m →
      DaoCore.step e.pre.child.core (FullDao.coreEnv e.env) (.call e.pre.parent.core.core.me m) =
        .ok (e.post.child.core, e.out.child.core) := by
  intro e he pe c n m hpe hc hd hm
  obtain ⟨before, later, b1, hl, _, _, hs, _⟩ := h.event e he
  have hs : step V N U M decode decodeChild toChild e.pre e.env e.call = .ok (e.post, e.out) := hs
  obtain ⟨pre, env, call, out, post⟩ := e
  have head : ∀ {st : List DaoCore.Sub}, st.take 1 = [DaoCore.Sub.send (.other n)] → next toChild st = some m := by
    intro st hst
    cases st with
    | nil => cases hst
    | cons x rest =>
      simp only [List.take_succ_cons, List.take_zero, List.cons.injEq, and_true] at hst
      subst hst
      exact hm
  cases call with
  | parent c' =>
    obtain ⟨h1, _⟩ := parent_effect (V := V) (N := N) (U := U) (M := M) (decode := decode) (decodeChild := decodeChild) (toChild := toChild) hs
    injection hpe with hpe
    subst hpe
    cases c' with
    | core c'' =>
      injection hc with hc
      subst hc
      cases c'' with
      | call _ _ => cases hd
      | deliver r =>
        simp only [Spec.DaoCore.delivered] at hd
        simp only [parentAlone, head hd] at h1
        cases h1
    | vote _ _ => cases hc
    | spawn _ _ => cases hc
    | single _ _ => cases hc
    | multi _ _ => cases hc
    | condorcet _ _ => cases hc
  | child c' => cases hpe
  | pass =>
    obtain ⟨m', h1, _, h2⟩ := pass_effect (V := V) (N := N) (U := U) (M := M) (decode := decode) (decodeChild := decodeChild) (toChild := toChild) hs
    injection hpe with hpe
    subst hpe
    injection hc with hc
    subst hc
    simp only [Spec.DaoCore.delivered] at hd
    have := head hd
    simp only at h1 h2
    rw [this] at h1
    injection h1 with h1
    subst h1
    exact (FullDao.core_effect (V := U) (N := M) (decode := decodeChild) h2).2.1

/-- **C96.** What the parent tells the SubDAO goes back to the founding of the parent or to decisions of the members of the
parent, if the parent is governed by them. -/
theorem C96_told (hV : Lawful V) {w0 w : World S T} {b0 b : Block} {log : List (Event S T E C F D)} (hi : Init V U b0 w0)
    (h : (sys V N U M decode decodeChild toChild).Run w0 b0 log w b) (hst : Steady (parentLog log))
    (hN : TotalsOfHeight V N (parentLog log)) (hgo : Governed (parentLog log)) :
    ∀ e ∈ log, ∀ m, told toChild e = some m → ∃ n, toChild n = some m ∧
      Spec.FullDao.Authorised V decode w0.parent.core.stack (parentLog log) (.send (.other n)) := by
  intro e he m hm
  obtain ⟨n, h1, h2 | ⟨e', he', h2⟩⟩ := told_sent h he hm
  · exact ⟨n, h1, .founding h2⟩
  · obtain ⟨_, h3, _⟩ := C96_parent h
    exact ⟨n, h1, FullDao.C95_governed hV hi.1 h3 hst hN hgo e' he' _ h2⟩

/-- **C96.** Everything a SubDAO ever sends goes back to its founding, to proposals its own members have decided for, or to
admin messages of the parent; and these go back to the founding of the parent or to proposals the members of the parent have
decided for. -/
theorem C96_governed (hV : Lawful V) (hU : Lawful U) {w0 w : World S T} {b0 b : Block} {log : List (Event S T E C F D)}
    (hi : Init V U b0 w0) (h : (sys V N U M decode decodeChild toChild).Run w0 b0 log w b)
    (hk : KeepsAdmin toChild log)
    (hst : Steady (parentLog log)) (hN : TotalsOfHeight V N (parentLog log)) (hgo : Governed (parentLog log))
    (hst' : Steady (childLog toChild log)) (hM : TotalsOfHeight U M (childLog toChild log))
    (hown : OwnModules (childLog toChild log)) :
    ∀ e ∈ log, ∀ d ∈ e.out.child.core, Authorised U decodeChild
      (InAdminMsg toChild (Spec.FullDao.Authorised V decode w0.parent.core.stack (parentLog log)))
      w0.child.core.stack (childLog toChild log) d := by
  -- the events of the SubDAO, and who its admin is in them
  have back : ∀ e' ∈ childLog toChild log, ∃ e ∈ log, childEvent toChild e = some e' ∧
      e'.pre.core.core.admin = e.pre.parent.core.core.me ∧ e.pre.parent.core.core.me ≠ e.pre.child.core.core.me ∧
      e'.pre = e.pre.child ∧
      ((∃ c, e.call = .child c ∧ e'.call = c ∧ childAlone e.pre.parent.core.core.me c = true) ∨
        ∃ m, told toChild e = some m ∧ e'.call = .core (.call e.pre.parent.core.core.me m)) := by
    intro e' he'
    obtain ⟨e, he, hee⟩ := List.mem_filterMap.1 he'
    refine ⟨e, he, hee, ?_⟩
    obtain ⟨before, later, b1, hl, h1, _, h2, _⟩ := h.event e he
    obtain ⟨ha, _, hne⟩ := C96_admin hi h1 (fun x hx => hk x (by rw [hl]; exact List.mem_append_right _ (List.mem_cons_of_mem _ hx)))
    have h2 : step V N U M decode decodeChild toChild e.pre e.env e.call = .ok (e.post, e.out) := h2
    unfold childEvent at hee
    split at hee
    · cases hee
    · rename_i c hc
      injection hee with hee
      subst hee
      rw [hc] at h2
      exact ⟨ha, hne, rfl, Or.inl ⟨c, hc, rfl, (child_effect (V := V) (N := N) (U := U) (M := M) (decode := decode) (decodeChild := decodeChild) (toChild := toChild) h2).1⟩⟩
    · rename_i hc
      obtain ⟨m, hm, rfl⟩ := Option.map_eq_some_iff.1 hee
      exact ⟨ha, hne, rfl, Or.inr ⟨m, hm, rfl⟩⟩
  obtain ⟨_, h1, _⟩ := C96_child h
  intro e he d hd
  have hmem : ∃ e' ∈ childLog toChild log, d ∈ e'.out.core := by
    obtain ⟨before, later, b1, hl, _, _, h2, _⟩ := h.event e he
    have h2 : step V N U M decode decodeChild toChild e.pre e.env e.call = .ok (e.post, e.out) := h2
    have : ∃ e', childEvent toChild e = some e' ∧ d ∈ e'.out.core := by
      obtain ⟨pre, env, call, out, post⟩ := e
      cases call with
      | parent c =>
        obtain ⟨_, _, _, h3⟩ := parent_effect (V := V) (N := N) (U := U) (M := M) (decode := decode) (decodeChild := decodeChild) (toChild := toChild) h2
        simp only at hd h3
        rw [h3] at hd; cases hd
      | child c => exact ⟨_, rfl, hd⟩
      | pass =>
        obtain ⟨m, hm, _⟩ := pass_effect (V := V) (N := N) (U := U) (M := M) (decode := decode) (decodeChild := decodeChild) (toChild := toChild) h2
        have hm : next toChild pre.parent.core.stack = some m := hm
        exact ⟨⟨pre.child, env, .core (.call pre.parent.core.core.me m), out.child, post.child⟩,
          by simp only [childEvent, told, hm, Option.map_some], hd⟩
    obtain ⟨e', he', hd'⟩ := this
    exact ⟨e', List.mem_filterMap.2 ⟨e, he, he'⟩, hd'⟩
  obtain ⟨e', he', hd'⟩ := hmem
  have hout : ∀ e ∈ childLog toChild log, e.pre.core.core.admin ≠ e.pre.core.core.me := by
    intro e' he'
    obtain ⟨e, _, _, h2, h3, h4, _⟩ := back e' he'
    rw [h2, h4]; exact h3
  refine FullDao.sub_mono ?_ ⟨[], rfl⟩ (FullDao.C96_outside hU hi.2.1 h1 hst' hM hown hout e' he' d hd')
  rintro m ⟨e1, he1, msgs, hc, hm⟩
  obtain ⟨e2, he2, _, h2, _, _, ⟨c, _, h3, h4⟩ | ⟨m', h3, h4⟩⟩ := back e1 he1
  · rw [← h3, hc, h2] at h4
    simp [childAlone] at h4
  · rw [h4] at hc
    injection hc with hc; injection hc with _ hc
    subst hc
    obtain ⟨n, h5, h6⟩ := C96_told hV hi h hst hN hgo e2 he2 _ h3
    exact ⟨n, msgs, h6, h5, hm⟩

/-- The parent is no proposal module of the SubDAO. -/
theorem outsider {w0 w : World S T} {b0 b : Block} {log : List (Event S T E C F D)} (hi : Init V U b0 w0)
    (h : (sys V N U M decode decodeChild toChild).Run w0 b0 log w b) : w.child.mods.get w.parent.core.core.me = none := by
  induction h with
  | refl => rw [hi.2.1.1]; rfl
  | @step s1 s2 b3 log env call out hr hb3 hs ih =>
    have keep : ∀ {c : FullDao.Call F D}, FullDao.step U M decodeChild s1.child env c = .ok (s2.child, out.child) →
        (∀ a k, c = .spawn a k → a ≠ s1.parent.core.core.me) → s2.child.mods.get s1.parent.core.core.me = none := by
      intro c hc hsp
      cases ht : Spec.FullDao.touches s1.parent.core.core.me c with
      | false => rw [(FullDao.effect hc).2.1 _ ht]; exact ih
      | true =>
        exfalso
        cases c with
        | core c => cases ht
        | vote ve c => cases ht
        | spawn a k => exact hsp a k rfl (of_decide_eq_true ht)
        | single a c =>
          obtain ⟨s, _, _, hg, _⟩ := FullDao.single_effect (V := U) (N := M) (decode := decodeChild) hc
          rw [of_decide_eq_true ht, ih] at hg; cases hg
        | multi a c =>
          obtain ⟨s, _, _, hg, _⟩ := FullDao.multi_effect (V := U) (N := M) (decode := decodeChild) hc
          rw [of_decide_eq_true ht, ih] at hg; cases hg
        | condorcet a c =>
          obtain ⟨s, _, _, hg, _⟩ := FullDao.condorcet_effect (V := U) (N := M) (decode := decodeChild) hc
          rw [of_decide_eq_true ht, ih] at hg; cases hg
    cases call with
    | parent c =>
      obtain ⟨_, h1, h2, _⟩ := parent_effect (V := V) (N := N) (U := U) (M := M) (decode := decode) (decodeChild := decodeChild) (toChild := toChild) hs
      rw [h2, FullDao.me_same h1]; exact ih
    | child c =>
      obtain ⟨ha, h1, h2, _⟩ := child_effect (V := V) (N := N) (U := U) (M := M) (decode := decode) (decodeChild := decodeChild) (toChild := toChild) hs
      rw [h2]
      refine keep h1 ?_
      rintro a k rfl
      simpa [childAlone] using ha
    | pass =>
      obtain ⟨m, hm, h1, h2⟩ := pass_effect (V := V) (N := N) (U := U) (M := M) (decode := decode) (decodeChild := decodeChild) (toChild := toChild) hs
      rw [FullDao.me_same h1]
      exact keep h2 (by rintro a k hc; cases hc)

/-- **C96.** The SubDAO obeys: an admin message that the parent sends next is carried out, also if the SubDAO is paused, and
then the SubDAO sends the messages in it, all of them, in order, before anything else. -/
theorem C96_obeys {w0 w : World S T} {b0 b : Block} {log : List (Event S T E C F D)} (hi : Init V U b0 w0)
    (h : (sys V N U M decode decodeChild toChild).Run w0 b0 log w b) (hk : KeepsAdmin toChild log) {n : Nat}
    {rest : List DaoCore.Sub} (hs : w.parent.core.stack = .send (.other n) :: rest) {msgs : List DaoCore.CosmosMsg}
    (hn : toChild n = some (.executeAdminMsgs msgs)) (e : Env) :
    ∃ w' out, (sys V N U M decode decodeChild toChild).step w e .pass = .ok (w', out) ∧
      out.child.core = msgs.map .send ∧ w'.child.core.stack = msgs.map .send ++ w.child.core.stack ∧
      w'.parent.core.stack = rest ∧ w'.child.core.core = w.child.core.core := by
  obtain ⟨h1, _, h2⟩ := C96_admin hi h hk
  have h3 := outsider hi h
  obtain ⟨⟨⟨pcore, pstack⟩, pm, pv, pa⟩, ⟨⟨ccore, cstack⟩, cm, cv, ca⟩⟩ := w
  simp only at hs h1 h2 h3
  subst hs
  refine ⟨⟨⟨⟨pcore, rest⟩, pm, pv, pa⟩, ⟨⟨ccore, msgs.map .send ++ cstack⟩, cm, cv, ca⟩⟩,
    Out.mk ⟨.none, []⟩ ⟨.none, msgs.map .send⟩, ?_, rfl, rfl, rfl, rfl⟩
  show step V N U M decode decodeChild toChild _ e .pass = _
  simp only [step, next, hn, orErr, ok_bind, FullDao.step, FullDao.notByModule, require, if_true, DaoCore.step, h3,
    Option.isNone_none, DaoCore.execute, DaoCore.dispatch, DaoCore.adminMsgs, h1, decide_true, Bool.or_true, h2, ne_eq,
    not_false_eq_true]

/-- **C96.** Likewise the parent can end a pause of the SubDAO. -/
theorem C96_unpause {w0 w : World S T} {b0 b : Block} {log : List (Event S T E C F D)} (hi : Init V U b0 w0)
    (h : (sys V N U M decode decodeChild toChild).Run w0 b0 log w b) (hk : KeepsAdmin toChild log) {n : Nat}
    {rest : List DaoCore.Sub} (hs : w.parent.core.stack = .send (.other n) :: rest)
    (hn : toChild n = some .unpause) (e : Env) :
    ∃ w' out, (sys V N U M decode decodeChild toChild).step w e .pass = .ok (w', out) ∧
      ∀ b, ¬ Spec.DaoCore.Paused w'.child.core.core b := by
  obtain ⟨h1, _, h2⟩ := C96_admin hi h hk
  have h3 := outsider hi h
  obtain ⟨⟨⟨pcore, pstack⟩, pm, pv, pa⟩, ⟨⟨ccore, cstack⟩, cm, cv, ca⟩⟩ := w
  simp only at hs h1 h2 h3
  subst hs
  refine ⟨⟨⟨⟨pcore, rest⟩, pm, pv, pa⟩, ⟨⟨{ ccore with paused := none }, cstack⟩, cm, cv, ca⟩⟩,
    Out.mk ⟨.none, []⟩ ⟨.none, []⟩, ?_, ?_⟩
  · show step V N U M decode decodeChild toChild _ e .pass = _
    simp only [step, next, hn, orErr, ok_bind, FullDao.step, FullDao.notByModule, require, if_true, DaoCore.step, h3,
      Option.isNone_none, DaoCore.execute, DaoCore.dispatch, DaoCore.unpause, h1, decide_true, Bool.or_true, h2, ne_eq,
      not_false_eq_true, List.nil_append]
  · rintro b ⟨x, hx, _⟩
    cases hx

/-- **C96.** The parent can take over the SubDAO whatever its members do and also if it is paused: told to replace proposal
modules, the SubDAO does so, in the next two steps, and the old modules have no say in it any more. -/
theorem C96_takeover {w0 w : World S T} {b0 b : Block} {log : List (Event S T E C F D)} (hi : Init V U b0 w0)
    (h : (sys V N U M decode decodeChild toChild).Run w0 b0 log w b) (hk : KeepsAdmin toChild log) {n : Nat}
    {rest : List DaoCore.Sub} (hs : w.parent.core.stack = .send (.other n) :: rest) {i : Nat} {old : List Addr}
    (hn : toChild n = some (.executeAdminMsgs [.toSelf (.updateProposalModules [i] old)])) (hold : old.Nodup)
    (hen : ∀ a ∈ old, Spec.DaoCore.Enabled w.child.core.core a) (e e' : Env) :
    ∃ w1 out w2 out', (sys V N U M decode decodeChild toChild).step w e .pass = .ok (w1, out) ∧
      (sys V N U M decode decodeChild toChild).step w1 e' (.child (.core (.deliver ⟨0, []⟩))) = .ok (w2, out') ∧
      (∀ a, Spec.DaoCore.Enabled w2.child.core.core a ↔ Spec.DaoCore.Enabled w.child.core.core a ∧ a ∉ old) ∧
      w2.child.core.stack = .create .proposalModule i :: w.child.core.stack := by
  obtain ⟨w1, out, h1, h2, h3, h4, h5⟩ := C96_obeys hi h hk hs hn e
  obtain ⟨_, hc, _⟩ := C96_child h
  obtain ⟨b1, l, h6, _⟩ := FullDao.core_reach ⟨_, _, hi.2.1, hc⟩
  obtain ⟨s, h7, h8⟩ := DaoCore.C48_can_disable h6 (FullDao.coreEnv e') [i] old hold hen (Or.inr (by simp))
  refine ⟨w1, out, { w1 with child := { w1.child with core := ⟨s, .create .proposalModule i :: w.child.core.stack⟩ } },
    Out.mk silent ⟨.none, [.create .proposalModule i]⟩, h1, ?_, h8, rfl⟩
  show step V N U M decode decodeChild toChild _ e' (.child (.core (.deliver ⟨0, []⟩))) = _
  obtain ⟨p, ⟨⟨ccore, cstack⟩, cm, cv, ca⟩⟩ := w1
  simp only at h3 h5
  subst h3 h5
  simp only [step, childAlone, require, if_true, ok_bind, FullDao.step, FullDao.notByModule, DaoCore.step,
    List.map_cons, List.map_nil, List.cons_append, List.nil_append, h7]

/-- **C96.** The parent can release the SubDAO, which is then its own admin, and from then on does not obey the parent as its
admin. -/
theorem C96_released {w0 w : World S T} {b0 b : Block} {log : List (Event S T E C F D)} (hi : Init V U b0 w0)
    (h : (sys V N U M decode decodeChild toChild).Run w0 b0 log w b) (hk : KeepsAdmin toChild log) {n : Nat}
    {rest : List DaoCore.Sub} (hs : w.parent.core.stack = .send (.other n) :: rest)
    (hn : toChild n = some (.nominateAdmin none)) (e : Env) :
    ∃ w' out, (sys V N U M decode decodeChild toChild).step w e .pass = .ok (w', out) ∧
      w'.child.core.core.admin = w'.child.core.core.me ∧
      ∀ e' msgs w2 out', FullDao.step U M decodeChild w'.child e'
        (.core (.call w'.parent.core.core.me (.executeAdminMsgs msgs))) ≠ .ok (w2, out') := by
  obtain ⟨h1, h4, h2⟩ := C96_admin hi h hk
  have h3 := outsider hi h
  obtain ⟨⟨⟨pcore, pstack⟩, pm, pv, pa⟩, ⟨⟨ccore, cstack⟩, cm, cv, ca⟩⟩ := w
  simp only at hs h1 h2 h3 h4
  subst hs
  refine ⟨⟨⟨⟨pcore, rest⟩, pm, pv, pa⟩, ⟨⟨{ ccore with admin := ccore.me }, cstack⟩, cm, cv, ca⟩⟩,
    Out.mk ⟨.none, []⟩ ⟨.none, []⟩, ?_, rfl, ?_⟩
  · show step V N U M decode decodeChild toChild _ e .pass = _
    simp only [step, next, hn, orErr, ok_bind, FullDao.step, FullDao.notByModule, require, if_true, DaoCore.step, h3,
      Option.isNone_none, DaoCore.execute, DaoCore.dispatch, DaoCore.nominateAdmin, h1, decide_true, Bool.or_true, h2, ne_eq,
      not_false_eq_true, List.nil_append, h4]
  · intro e' msgs w2 out' hc
    obtain ⟨_, hc, _⟩ := FullDao.core_effect (V := U) (N := M) (decode := decodeChild) hc
    simp only [DaoCore.step, DaoCore.execute, DaoCore.dispatch, DaoCore.adminMsgs, bind_ok, require_ok, Prod.exists,
      Except.ok.injEq, Prod.mk.injEq, decide_eq_true_eq] at hc
    obtain ⟨_, _, _, _, ⟨_, _, _, hx, _⟩, _⟩ := hc
    exact h2 hx

end Verif.SubDao
