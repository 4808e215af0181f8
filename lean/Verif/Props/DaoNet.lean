import Verif.Spec.DaoNet
import Verif.Props.SubDao
import Verif.Props.TreasuryLive
/-!
# C134: in a network of DAOs everything goes back to decisions of members, and orders reach the last DAO
-/

namespace Verif.FullDao
open Verif Verif.Voting Verif.Spec Verif.Spec.FullDao
open Verif.WholeDao (VotingModule)
open Verif.WholeCondorcet (Now)
open Verif.Spec.WholeDao (Lawful)
open Verif.Spec.SubDao (OwnModules)

variable {S E C O : Type} {V : VotingModule S E C O} {N : Now S} {decode : Nat → DaoCore.CosmosMsg}

/-- Why a DAO sends something in an event. -/
inductive Cause (V : VotingModule S E C O) (decode : Nat → DaoCore.CosmosMsg) (before : List (Event S E C)) (e : Event S E C) :
    DaoCore.Sub → Prop where
  | proposal {a : Addr} {id : Nat} {msgs : List Nat} {n : Nat} (h : Chosen V before e a id msgs)
      (ha : DaoCore.Enabled e.pre.core.core a) (hn : n ∈ msgs) : Cause V decode before e (.send (decode n))
  | told {a : Addr} {msgs : List DaoCore.CosmosMsg} {m : DaoCore.CosmosMsg}
      (hc : e.call = .core (.call a (.executeAdminMsgs msgs))) (ha : e.pre.core.core.admin = a) (hm : m ∈ msgs) :
      Cause V decode before e (.send m)
  | nested {msgs : List DaoCore.CosmosMsg} {m : DaoCore.CosmosMsg}
      (h : .send (.toSelf (.executeAdminMsgs msgs)) ∈ e.pre.core.stack) (hm : m ∈ msgs) : Cause V decode before e (.send m)
  | voting {i : Nat} (h : .send (.toSelf (.updateVotingModule i)) ∈ e.pre.core.stack) :
      Cause V decode before e (.create .votingModuleUpdate i)
  | module {add : List Nat} {dis : List Addr} {i : Nat}
      (h : .send (.toSelf (.updateProposalModules add dis)) ∈ e.pre.core.stack) (hi : i ∈ add) :
      Cause V decode before e (.create .proposalModule i)
  | callback {c : DaoCore.Event} {role : DaoCore.Role} {i : Nat} {x : DaoCore.Created} {m : DaoCore.CosmosMsg}
      (h : .create role i ∈ e.pre.core.stack) (hc : coreEvent e = some c) (hr : DaoCore.created c = some (role, x))
      (hm : m ∈ x.callbacks) : Cause V decode before e (.send m)

theorem cause (hV : Lawful V) {w0 w : World S} {b0 b : Block} {log : List (Event S E C)} {ev : Event S E C} (hi : Init V b0 w0)
    (hrun : (sys V N decode).Run w0 b0 (ev :: log) w b) (hst : Steady (ev :: log)) (hN : TotalsOfHeight V N (ev :: log))
    (hown : OwnModules (ev :: log)) : ∀ d ∈ ev.out.core, Cause V decode log ev d := by
  cases hrun with
  | @step s1 s2 b3 log env call out hr hb3 hs =>
    have hen := hown _ (List.mem_cons_self)
    simp only at hen
    have hre : (sys V N decode).Reach w env.block (⟨s1, env, call, out, w⟩ :: log) := ⟨b0, w0, hi, .step hr hb3 hs⟩
    have hme : s1.mods.get s1.core.core.me = none := apart ⟨b0, w0, hi, hr⟩
    have man := C95_mandate hV hre hst hN (later := []) (before := log) rfl
    simp only at man
    intro d hd
    rcases man with ho | ⟨a, id, msgs, hc, ha, ho⟩ | ⟨c', hc', hms, hby⟩
    · simp only at hd; rw [ho] at hd; cases hd
    · simp only at hd
      rw [ho] at hd
      obtain ⟨n, hn, rfl⟩ := List.mem_map.1 hd
      exact .proposal hc ha hn
    · cases call with
      | core c =>
        obtain ⟨hn, hc, _⟩ := core_effect (V := V) (N := N) (decode := decode) hs
        have hdoes := DaoCore.step_does hc
        injection hc' with hc'
        subst hc'
        simp only at hby
        have self : ∀ {m : DaoCore.Msg}, DaoCore.handled ⟨s1.core, coreEnv env, c, out.core, w.core⟩ =
            some (s1.core.core.me, m) → .send (.toSelf m) ∈ s1.core.stack := by
          intro m hm
          cases hdoes with
          | msg hh _ _ _ hs1 _ hdd =>
            rw [hh] at hm
            injection hm with hm; injection hm with e1 e2
            subst e1 e2
            rcases hdd with ⟨_, hne⟩ | ⟨hdl, _⟩
            · exact absurd rfl hne
            · simp only at hs1
              rw [hs1, hdl]; simp
          | rep hh => rw [hh] at hm; cases hm
          | other hh => rw [hh] at hm; cases hm
        have outside : ∀ {a : Addr} {m : DaoCore.Msg}, DaoCore.handled ⟨s1.core, coreEnv env, c, out.core, w.core⟩ =
            some (a, m) → a ≠ s1.core.core.me → c = .call a m := by
          intro a m hm hne
          cases c with
          | call sender m' =>
            injection hm with hm; injection hm with e1 e2
            rw [e1, e2]
          | deliver r =>
            simp only [DaoCore.handled] at hm
            split at hm
            · injection hm with hm; injection hm with e1 e2
              exact absurd e1.symm hne
            · cases hm
        cases hms d hd with
        | hook hh ha hm =>
          rename_i a msgs m
          obtain ⟨mo, hmo⟩ := hen a ha
          have hne : a ≠ s1.core.core.me := by
            rintro rfl
            rw [hme] at hmo; cases hmo
          have := hby a _ (outside hh hne)
          rw [hmo] at this; cases this
        | admin hh hm =>
          simp only at hh
          by_cases hadm : s1.core.core.admin = s1.core.core.me
          · rw [hadm] at hh
            exact .nested (self hh) hm
          · exact .told (congrArg Call.core (outside hh hadm)) rfl hm
        | callback hh hr' hm =>
          cases hdoes with
          | msg _ hh' => rw [hh'] at hh; cases hh
          | @rep role' c' i rest _ hh' _ _ _ _ hs1 _ =>
            rw [hh'] at hh
            injection hh with hh; injection hh with e1 e2
            subst e1 e2
            refine .callback (i := i) ?_ rfl hh' hm
            simp only at hs1 ⊢
            rw [hs1]; exact List.mem_cons_self
          | other _ hh' => rw [hh'] at hh; cases hh
        | voting hh => exact .voting (self hh)
        | proposal hh hi => exact .module (self hh) hi
      | vote ve c => cases hc'
      | spawn a k => cases hc'
      | single a c => cases hc'
      | multi a c => cases hc'
      | condorcet a c => cases hc'

/-- Only calls of the core change what the core has stored. -/
theorem core_same {w w' : World S} {e : Env} {c : Call E C} {out : Out} (h : step V N decode w e c = .ok (w', out))
    (hc : ∀ k, c ≠ .core k) : w'.core.core = w.core.core := by
  cases c with
  | core c0 => exact absurd rfl (hc c0)
  | vote ve c0 =>
    obtain ⟨_, _, _, h1, _⟩ := vote_effect h
    rw [h1]
  | spawn a k =>
    obtain ⟨_, _, _, _, h1, _⟩ := spawn_effect h
    rw [h1]
  | single a c0 =>
    obtain ⟨s, s', o, _, _, h1, _⟩ := single_effect (N := N) h
    obtain ⟨_, _, _, _, ⟨h2, _⟩ | ⟨id, p, _, _, h2⟩⟩ := WholeDao.prop_effect (decode := decode) h1
    · rw [show w'.core = w.core from h2]
    · obtain ⟨_, _, h3, _⟩ := hook_inv h2
      rw [show w'.core = ⟨w.core.core, _⟩ from h3]
  | multi a c0 =>
    obtain ⟨s, s', o, _, _, h1, _⟩ := multi_effect h
    obtain ⟨_, _, _, _, ⟨h2, _⟩ | ⟨id, p, ms, _, _, _, h2⟩⟩ := WholeMulti.prop_effect (decode := decode) h1
    · rw [show w'.core = w.core from h2]
    · obtain ⟨_, _, h3, _⟩ := hook_inv h2
      rw [show w'.core = ⟨w.core.core, _⟩ from h3]
  | condorcet a c0 =>
    obtain ⟨s, s', o, _, _, h1, _⟩ := condorcet_effect h
    obtain ⟨_, _, _, _, ⟨h2, _⟩ | ⟨id, p, t, i, ms, _, _, _, _, _, h2⟩⟩ := WholeCondorcet.prop_effect (decode := decode) h1
    · rw [show w'.core = w.core from h2]
    · obtain ⟨_, _, h3, _⟩ := hook_inv h2
      rw [show w'.core = ⟨w.core.core, _⟩ from h3]

/-- An address that is no proposal module becomes one only by being created as one. -/
theorem stays_outside {w w' : World S} {e : Env} {c : Call E C} {out : Out} (h : step V N decode w e c = .ok (w', out)) {q : Addr}
    (hq : w.mods.get q = none) (hsp : ∀ a k, c = .spawn a k → a ≠ q) : w'.mods.get q = none := by
  cases ht : Spec.FullDao.touches q c with
  | false => rw [(effect h).2.1 _ ht]; exact hq
  | true =>
    exfalso
    cases c with
    | core c => cases ht
    | vote ve c => cases ht
    | spawn a k => exact hsp a k rfl (of_decide_eq_true ht)
    | single a c =>
      obtain ⟨s, _, _, hg, _⟩ := single_effect (V := V) (N := N) (decode := decode) h
      rw [of_decide_eq_true ht, hq] at hg; cases hg
    | multi a c =>
      obtain ⟨s, _, _, hg, _⟩ := multi_effect (V := V) (N := N) (decode := decode) h
      rw [of_decide_eq_true ht, hq] at hg; cases hg
    | condorcet a c =>
      obtain ⟨s, _, _, hg, _⟩ := condorcet_effect (V := V) (N := N) (decode := decode) h
      rw [of_decide_eq_true ht, hq] at hg; cases hg

end Verif.FullDao

namespace Verif.DaoNet
open Verif Verif.Voting Verif.Spec Verif.Spec.DaoNet
open Verif.Spec.FullDao (Steady TotalsOfHeight)
open Verif.Spec.SubDao (OwnModules)
open Verif.WholeDao (VotingModule)
open Verif.WholeCondorcet (Now)
open Verif.Spec.WholeDao (Lawful)
open Verif.FullDao (Env)

variable {I : Type} [DecidableEq I] [Fintype I] {T F D P : I → Type} {U : ∀ i, VotingModule (T i) (F i) (D i) (P i)}
  {N : ∀ i, Now (T i)} {decode : I → Nat → DaoCore.CosmosMsg} {r : Reading I}

theorem isDao_iff {w : World T} {a : Addr} : w.isDao a = true ↔ ∃ i, (w.dao i).core.core.me = a := by
  simp [World.isDao]

theorem net_dao {w w' : World T} {e : Env} {i : I} {c : FullDao.Call (F i) (D i)} {o : Out}
    (h : step U N decode r w e (.dao i c) = .ok (w', o)) :
    alone r i w.isDao (w.dao i).core.stack c = true ∧
    FullDao.step (U i) (N i) (decode i) (w.dao i) e c = .ok (w'.dao i, o.dao) ∧ (∀ j, j ≠ i → w'.dao j = w.dao j) ∧
    o.told = silent := by
  simp only [step, bind_ok, require_ok, Prod.exists, Except.ok.injEq, Prod.mk.injEq] at h
  obtain ⟨_, h0, q, o', h1, rfl, rfl⟩ := h
  exact ⟨h0, by simpa using h1, fun j hj => by simp [Function.update_of_ne hj], rfl⟩

theorem net_pass {w w' : World T} {e : Env} {i : I} {o : Out}
    (h : step U N decode r w e (.pass i : Call F D) = .ok (w', o)) :
    ∃ j m, next r i (w.dao i).core.stack = some (j, m) ∧ j ≠ i ∧
      FullDao.step (U i) (N i) (decode i) (w.dao i) e (.core (.deliver ⟨0, []⟩)) = .ok (w'.dao i, o.dao) ∧
      FullDao.step (U j) (N j) (decode j) (w.dao j) e (.core (.call (w.dao i).core.core.me m)) = .ok (w'.dao j, o.told) ∧
      ∀ k, k ≠ i → k ≠ j → w'.dao k = w.dao k := by
  simp only [step, bind_ok, require_ok, orErr_ok, Prod.exists, Except.ok.injEq, Prod.mk.injEq, decide_eq_true_eq] at h
  obtain ⟨j, m, hk, _, h0, p, o', h1, q, o2, h2, rfl, rfl⟩ := h
  refine ⟨j, m, hk, h0, ?_, by simpa using h2, fun k hk hj => by simp [Function.update_of_ne hj, Function.update_of_ne hk]⟩
  simp only [Function.update_of_ne (Ne.symm h0), Function.update_self]
  exact h1

/-- What an event does to each DAO: nothing, or a step of that DAO. -/
theorem net_each {w w' : World T} {e : Env} {c : Call F D} {o : Out} (h : step U N decode r w e c = .ok (w', o)) (i : I) :
    (daoEvent r i ⟨w, e, c, o, w'⟩ = none ∧ w'.dao i = w.dao i) ∨
    ∃ k x, daoEvent r i ⟨w, e, c, o, w'⟩ = some ⟨w.dao i, e, k, x, w'.dao i⟩ ∧
      FullDao.step (U i) (N i) (decode i) (w.dao i) e k = .ok (w'.dao i, x) := by
  cases c with
  | dao j c =>
    obtain ⟨_, h1, h2, _⟩ := net_dao h
    by_cases hj : j = i
    · subst hj
      exact Or.inr ⟨c, o.dao, by simp only [daoEvent, dite_true], h1⟩
    · exact Or.inl ⟨by simp only [daoEvent, dif_neg hj], h2 i (Ne.symm hj)⟩
  | pass j =>
    obtain ⟨k, m, h0, hne, h1, h2, h3⟩ := net_pass h
    by_cases hj : j = i
    · subst hj
      exact Or.inr ⟨_, o.dao, by simp only [daoEvent, if_true], h1⟩
    · by_cases hk : k = i
      · subst hk
        exact Or.inr ⟨_, o.told, by simp only [daoEvent, if_neg hj, h0, if_true], h2⟩
      · exact Or.inl ⟨by simp only [daoEvent, if_neg hj, h0, if_neg hk], h3 i (Ne.symm hj) (Ne.symm hk)⟩

/-- **C134.** Seen from each DAO, a history of the network is a history of a DAO as in C95. -/
theorem C134_dao {w0 w : World T} {b0 b : Block} {log : List (Event T F D)} (h : (sys U N decode r).Run w0 b0 log w b) (i : I) :
    ∃ b1, (FullDao.sys (U i) (N i) (decode i)).Run (w0.dao i) b0 (daoLog r i log) (w.dao i) b1 ∧ b1.le b := by
  induction h with
  | refl => exact ⟨_, .refl, Block.le_refl _⟩
  | @step s1 s2 b3 log env call out hr hb3 hs ih =>
    obtain ⟨b1, h1, h2⟩ := ih
    have h3 : b1.le env.block := Block.le_trans h2 hb3
    rcases net_each hs i with ⟨h4, h5⟩ | ⟨k, x, h4, h5⟩
    · refine ⟨b1, ?_, h3⟩
      simp only [daoLog, List.filterMap_cons_none h4]
      rw [h5]; exact h1
    · refine ⟨env.block, ?_, Block.le_refl _⟩
      simp only [daoLog, List.filterMap_cons_some h4]
      exact .step (M := FullDao.sys (U i) (N i) (decode i)) (env := env) (call := k) h1 h3 h5

theorem net_me {w0 w : World T} {b0 b : Block} {log : List (Event T F D)} (h : (sys U N decode r).Run w0 b0 log w b) (i : I) :
    (w.dao i).core.core.me = (w0.dao i).core.core.me := by
  obtain ⟨_, h1, _⟩ := C134_dao h i
  exact SubDao.me_run h1

theorem auth_mono {first : I → List DaoCore.Sub} {log : List (Event T F D)} {e : Event T F D} {i : I} {d : DaoCore.Sub}
    (h : Authorised U decode r first log i d) : Authorised U decode r first (e :: log) i d := by
  induction h with
  | founding h => exact .founding h
  | @proposal i later before f a id msgs n hl h ha hn =>
    refine .proposal (later := (daoEvent r i e).toList ++ later) (before := before) ?_ h ha hn
    have : daoLog r i (e :: log) = (daoEvent r i e).toList ++ daoLog r i log := by
      simp only [daoLog, List.filterMap_cons]
      cases daoEvent r i e <;> simp
    rw [this, hl, List.append_assoc]
  | admin he ht ha _ hn hm ih => exact .admin (List.mem_cons_of_mem _ he) ht ha ih hn hm
  | outside he hc ha ho hm => exact .outside (List.mem_cons_of_mem _ he) hc ha ho hm
  | nested _ hm ih => exact .nested ih hm
  | voting _ ih => exact .voting ih
  | module _ hn ih => exact .module ih hn
  | callback _ he hc hr hm ih =>
    refine .callback ih ?_ hc hr hm
    simp only [daoLog, List.mem_filterMap] at he ⊢
    obtain ⟨x, hx, h⟩ := he
    exact ⟨x, List.mem_cons_of_mem _ hx, h⟩

theorem sound_tail {e : Event T F D} {log : List (Event T F D)} (h : Sound U N r (e :: log)) : Sound U N r log := by
  intro i
  obtain ⟨h1, h2, h3⟩ := h i
  have : ∀ x ∈ daoLog r i log, x ∈ daoLog r i (e :: log) := by
    intro x hx
    simp only [daoLog, List.mem_filterMap] at hx ⊢
    obtain ⟨y, hy, h⟩ := hx
    exact ⟨y, List.mem_cons_of_mem _ hy, h⟩
  exact ⟨fun x hx => h1 x (this x hx), fun x hx => h2 x (this x hx), fun x hx => h3 x (this x hx)⟩

theorem net_authorised (hU : ∀ i, Lawful (U i)) {w0 w : World T} {b0 b : Block} {log : List (Event T F D)} (hi : Init U b0 w0)
    (h : (sys U N decode r).Run w0 b0 log w b) (hs : Sound U N r log) :
    (∀ i, ∀ d ∈ (w.dao i).core.stack, Authorised U decode r (fun i => (w0.dao i).core.stack) log i d) ∧
      ∀ i, ∀ ev ∈ daoLog r i log, ∀ d ∈ ev.out.core, Authorised U decode r (fun i => (w0.dao i).core.stack) log i d := by
  induction h with
  | refl => exact ⟨fun i d hd => .founding hd, by simp [daoLog]⟩
  | @step s1 s2 b3 log env call out hr hb3 hst ih =>
    obtain ⟨ih1, ih2⟩ := ih (sound_tail hs)
    have hrun : (sys U N decode r).Run w0 b0 (⟨s1, env, call, out, s2⟩ :: log) s2 env.block := .step hr hb3 hst
    suffices hnew : ∀ i k x, daoEvent r i ⟨s1, env, call, out, s2⟩ = some ⟨s1.dao i, env, k, x, s2.dao i⟩ → ∀ d ∈ x.core,
        Authorised U decode r (fun i => (w0.dao i).core.stack) (⟨s1, env, call, out, s2⟩ :: log) i d by
      refine ⟨?_, ?_⟩
      · intro i d hd
        rcases net_each hst i with ⟨_, h5⟩ | ⟨k, x, h4, h5⟩
        · rw [h5] at hd; exact auth_mono (ih1 i d hd)
        · rcases FullDao.stack_step h5 d hd with hd | hd
          · exact hnew i k x h4 d hd
          · exact auth_mono (ih1 i d hd)
      · intro i ev hev d hd
        rcases net_each hst i with ⟨h4, _⟩ | ⟨k, x, h4, _⟩
        · simp only [daoLog, List.filterMap_cons_none h4] at hev
          exact auth_mono (ih2 i ev hev d hd)
        · simp only [daoLog, List.filterMap_cons_some h4] at hev
          rcases List.mem_cons.1 hev with rfl | hev
          · exact hnew i k x h4 d hd
          · exact auth_mono (ih2 i ev hev d hd)
    intro i k x h4 d hd
    have hlog : daoLog r i ((⟨s1, env, call, out, s2⟩ : Event T F D) :: log) =
        ⟨s1.dao i, env, k, x, s2.dao i⟩ :: daoLog r i log := by
      simp only [daoLog, List.filterMap_cons_some h4]
    obtain ⟨b1, hr1, _⟩ := C134_dao hrun i
    obtain ⟨g1, g2, g3⟩ := hs i
    rw [hlog] at hr1 g1 g2 g3
    have hin := FullDao.cause (hU i) (hi.1 i) hr1 g1 g2 g3 d hd
    cases hin with
    | proposal h ha hn => exact .proposal (later := []) hlog h ha hn
    | @told a msgs m hc ha hm =>
      simp only at hc ha
      subst hc
      cases call with
      | dao j c =>
        obtain ⟨hal, _⟩ := net_dao hst
        have hj : j = i := by
          by_contra hj
          simp only [daoEvent, dif_neg hj] at h4
          cases h4
        subst hj
        simp only [daoEvent, dite_true, Option.some.injEq, Ev.mk.injEq] at h4
        obtain ⟨_, _, h4, _⟩ := h4
        subst h4
        refine .outside (e := ⟨s1, env, _, out, s2⟩) List.mem_cons_self rfl ha ?_ hm
        intro q hq
        simp only [alone, Bool.not_eq_true'] at hal
        have := isDao_iff.2 ⟨q, hq⟩
        rw [hal] at this; cases this
      | pass j =>
        obtain ⟨q, m', h0, hne, _⟩ := net_pass hst
        by_cases hj : j = i
        · simp only [daoEvent, if_pos hj, Option.some.injEq, Ev.mk.injEq] at h4
          obtain ⟨_, _, h4, _⟩ := h4
          cases h4
        · by_cases hq : q = i
          · subst hq
            simp only [daoEvent, if_neg hj, h0, if_true, Option.some.injEq, Ev.mk.injEq, FullDao.Call.core.injEq,
              DaoCore.Call.call.injEq] at h4
            obtain ⟨_, _, ⟨h5, h6⟩, _⟩ := h4
            subst h6
            have hn : ∃ n rest, (s1.dao j).core.stack = .send (.other n) :: rest ∧ r j n = some (q, .executeAdminMsgs msgs) := by
              unfold next at h0
              split at h0
              · rename_i n rest heq
                exact ⟨n, rest, heq, h0⟩
              · cases h0
            obtain ⟨n, rest, hn1, hn2⟩ := hn
            refine .admin (e := ⟨s1, env, .pass j, out, s2⟩) (j := j) (n := n) List.mem_cons_self ?_ ?_
              (auth_mono (ih1 j _ (by rw [hn1]; exact List.mem_cons_self))) hn2 hm
            · simp only [Spec.DaoNet.told, h0, Option.map_some]
            · simp only; rw [ha, h5]
          · simp only [daoEvent, if_neg hj, h0, if_neg hq] at h4
            cases h4
    | nested h hm => exact .nested (auth_mono (ih1 i _ h)) hm
    | voting h => exact .voting (auth_mono (ih1 i _ h))
    | module h hi' => exact .module (auth_mono (ih1 i _ h)) hi'
    | callback h hc hr' hm => exact .callback (auth_mono (ih1 i _ h)) (by rw [hlog]; exact List.mem_cons_self) hc hr' hm

/-- **C134.** Everything any DAO of the network ever sends is sent on good authority: it goes back, through any number of admins,
to decisions of members of the DAOs, to their foundings, or to outside accounts which they have as admins. -/
theorem C134_governed (hU : ∀ i, Lawful (U i)) {w0 w : World T} {b0 b : Block} {log : List (Event T F D)} (hi : Init U b0 w0)
    (h : (sys U N decode r).Run w0 b0 log w b) (hs : Sound U N r log) :
    ∀ i, ∀ ev ∈ daoLog r i log, ∀ d ∈ ev.out.core, Authorised U decode r (fun i => (w0.dao i).core.stack) log i d :=
  (net_authorised hU hi h hs).2

theorem told_ne {w0 w : World T} {b0 b : Block} {log : List (Event T F D)} (h : (sys U N decode r).Run w0 b0 log w b)
    {e : Event T F D} (he : e ∈ log) {j i : I} {m : DaoCore.Msg} (ht : told r e = some (j, i, m)) : j ≠ i := by
  obtain ⟨_, _, _, _, _, _, hs, _⟩ := h.event e he
  obtain ⟨pre, env, call, out, post⟩ := e
  cases call with
  | dao k c => cases ht
  | pass k =>
    obtain ⟨i', m', h0, hne, _⟩ := net_pass hs
    simp only [told, h0, Option.map_some, Option.some.injEq, Prod.mk.injEq] at ht
    obtain ⟨rfl, rfl, rfl⟩ := ht
    exact Ne.symm hne

/-- **C134.** Nobody but those above has a hand in it: whatever a DAO sends began in the DAO itself or in one that is above it, with
the founding of that one, a decision of its members, or an outside account that is its admin; and it led from there, order by
order, to what the DAO sends. -/
theorem C134_sources (hU : ∀ i, Lawful (U i)) {w0 w : World T} {b0 b : Block} {log : List (Event T F D)} (hi : Init U b0 w0)
    (h : (sys U N decode r).Run w0 b0 log w b) (hs : Sound U N r log) {i : I} {ev : FullDao.Event (T i) (F i) (D i)}
    (hev : ev ∈ daoLog r i log) {d : DaoCore.Sub} (hd : d ∈ ev.out.core) :
    ∃ k d', Begins U decode r (fun i => (w0.dao i).core.stack) log k d' ∧
      Relation.ReflTransGen (Leads r log) (k, d') (i, d) ∧ Above log k i := by
  have ha := C134_governed hU hi h hs i ev hev d hd
  clear hev hd ev
  induction ha with
  | founding h1 => exact ⟨_, _, .founding h1, .refl, .same⟩
  | proposal hl h1 h2 hn => exact ⟨_, _, .members hl h1 h2 hn, .refl, .same⟩
  | admin he ht ha _ hn hm ih =>
    obtain ⟨k, d', h1, h2, h3⟩ := ih
    have hj := told_ne h he ht
    exact ⟨k, d', h1, h2.tail (.order he ht ⟨hj, ha⟩ hn hm), .over he ⟨hj, ha⟩ h3⟩
  | outside he hc ha ho hm => exact ⟨_, _, .outside he hc ha ho hm, .refl, .same⟩
  | nested _ hm ih =>
    obtain ⟨k, d', h1, h2, h3⟩ := ih
    exact ⟨k, d', h1, h2.tail (.nested hm), h3⟩
  | voting _ ih =>
    obtain ⟨k, d', h1, h2, h3⟩ := ih
    exact ⟨k, d', h1, h2.tail .voting, h3⟩
  | module _ hn ih =>
    obtain ⟨k, d', h1, h2, h3⟩ := ih
    exact ⟨k, d', h1, h2.tail (.module hn), h3⟩
  | callback _ he hc hr' hm ih =>
    obtain ⟨k, d', h1, h2, h3⟩ := ih
    exact ⟨k, d', h1, h2.tail (.callback he hc hr' hm), h3⟩

/-- **C134.** So a DAO that never has another as its admin sends nothing on the orders of others: all it sends began with itself. -/
theorem C134_free (hU : ∀ i, Lawful (U i)) {w0 w : World T} {b0 b : Block} {log : List (Event T F D)} (hi : Init U b0 w0)
    (h : (sys U N decode r).Run w0 b0 log w b) (hs : Sound U N r log) {i : I} (hfree : ∀ e ∈ log, ∀ j, ¬ Admin e.pre j i)
    {ev : FullDao.Event (T i) (F i) (D i)} (hev : ev ∈ daoLog r i log) {d : DaoCore.Sub} (hd : d ∈ ev.out.core) :
    ∃ d', Begins U decode r (fun i => (w0.dao i).core.stack) log i d' ∧ Relation.ReflTransGen (Leads r log) (i, d') (i, d) := by
  obtain ⟨k, d', h1, h2, h3⟩ := C134_sources hU hi h hs hev hd
  cases h3 with
  | same => exact ⟨d', h1, h2⟩
  | over he ha _ => exact absurd ha (hfree _ he _)

/-- **C134.** What a DAO says to another is not lost: whenever its next message is for another DAO, sending it calls that DAO, in
the name of the sender. -/
theorem C134_not_dropped {w0 w : World T} {b0 b : Block} {log : List (Event T F D)} (h : (sys U N decode r).Run w0 b0 log w b)
    {e : Event T F D} (he : e ∈ log) {j i : I} {n : Nat} {rest : List DaoCore.Sub} {m : DaoCore.Msg}
    (hst : (e.pre.dao j).core.stack = .send (.other n) :: rest) (hm : r j n = some (i, m))
    {ev : FullDao.Event (T j) (F j) (D j)} (hev : daoEvent r j e = some ev) {x : DaoCore.Created}
    (hx : ev.call = .core (.deliver x)) :
    ∃ v, daoEvent r i e = some v ∧ v.call = .core (.call (e.pre.dao j).core.core.me m) := by
  obtain ⟨_, _, _, _, _, _, hs, _⟩ := h.event e he
  obtain ⟨pre, env, call, out, post⟩ := e
  simp only at hst
  have hnext : next r j (pre.dao j).core.stack = some (i, m) := by rw [hst]; exact hm
  cases call with
  | dao k c =>
    by_cases hk : k = j
    · subst hk
      simp only [daoEvent, dite_true, Option.some.injEq] at hev
      subst hev
      simp only at hx
      subst hx
      replace hs : step U N decode r pre env (.dao k (.core (.deliver x))) = .ok (post, out) := hs
      have := (net_dao hs).1
      simp [alone, hnext] at this
    · simp only [daoEvent, dif_neg hk] at hev
      cases hev
  | pass k =>
    replace hs : step U N decode r pre env (.pass k) = .ok (post, out) := hs
    obtain ⟨i', m', h0, hne, _⟩ := net_pass hs
    by_cases hk : k = j
    · subst hk
      rw [hnext] at h0
      simp only [Option.some.injEq, Prod.mk.injEq] at h0
      obtain ⟨rfl, rfl⟩ := h0
      exact ⟨⟨pre.dao i, env, .core (.call (pre.dao k).core.core.me m), out.told, post.dao i⟩,
        by simp only [daoEvent, if_neg (Ne.symm hne), hnext, if_true], rfl⟩
    · simp only [daoEvent, if_neg hk, h0] at hev
      split at hev
      · simp only [Option.some.injEq] at hev
        subst hev
        cases hx
      · cases hev

/-- **C134.** A DAO stays the admin of another one, and nobody is nominated to become it, as long as it does not tell the other
DAO to take another admin. -/
theorem C134_admin {w0 w : World T} {b0 b : Block} {log : List (Event T F D)} (hi : Init U b0 w0)
    (h : (sys U N decode r).Run w0 b0 log w b) {j i : I} (ha : Admin w0 j i) (hn : (w0.dao i).core.core.nominated = none)
    (hk : ∀ e ∈ log, ∀ a, told r e ≠ some (j, i, .nominateAdmin a)) :
    Admin w j i ∧ (w.dao i).core.core.nominated = none := by
  induction h with
  | refl => exact ⟨ha, hn⟩
  | @step s1 s2 b3 log env call out hr hb3 hs ih =>
    obtain ⟨⟨ih0, ih1⟩, ih2⟩ := ih (fun e he => hk e (List.mem_cons_of_mem _ he))
    have hk' := hk _ List.mem_cons_self
    have m1 := net_me (.step hr hb3 hs : (sys U N decode r).Run w0 b0 _ s2 env.block) j
    have m2 := net_me hr j
    have hne : (s1.dao i).core.core.admin ≠ (s1.dao i).core.core.me := by
      rw [ih1, m2, net_me hr i]
      exact hi.2 j i ih0
    suffices hsuff : (s2.dao i).core.core.admin = (s1.dao i).core.core.admin ∧ (s2.dao i).core.core.nominated = none from
      ⟨⟨ih0, by rw [hsuff.1, ih1, m1, m2]⟩, hsuff.2⟩
    rcases net_each hs i with ⟨_, h5⟩ | ⟨k, x, h4, h5⟩
    · rw [h5]; exact ⟨rfl, ih2⟩
    · rcases SubDao.admin_step h5 hne ih2 with h6 | ⟨n, h6⟩
      · exact h6
      · exfalso
        rw [ih1] at h6
        subst h6
        cases call with
        | dao q c =>
          obtain ⟨hal, _⟩ := net_dao hs
          have hq : q = i := by
            by_contra hq
            simp only [daoEvent, dif_neg hq] at h4
            cases h4
          subst hq
          simp only [daoEvent, dite_true, Option.some.injEq, Ev.mk.injEq] at h4
          obtain ⟨_, _, h4, _⟩ := h4
          subst h4
          simp only [alone, Bool.not_eq_true'] at hal
          have := isDao_iff.2 ⟨j, (rfl : (s1.dao j).core.core.me = _)⟩
          rw [hal] at this; cases this
        | pass q =>
          obtain ⟨p, m', h0, _, _⟩ := net_pass hs
          by_cases hq : q = i
          · simp only [daoEvent, if_pos hq, Option.some.injEq, Ev.mk.injEq] at h4
            obtain ⟨_, _, h4, _⟩ := h4
            cases h4
          · by_cases hp : p = i
            · subst hp
              simp only [daoEvent, if_neg hq, h0, if_true, Option.some.injEq, Ev.mk.injEq, FullDao.Call.core.injEq,
                DaoCore.Call.call.injEq] at h4
              obtain ⟨_, _, ⟨h7, h8⟩, _⟩ := h4
              have hqj : q = j := by
                by_contra hqj
                rw [net_me hr q, net_me hr j] at h7
                exact hi.2 q j hqj h7
              subst hqj h8
              exact hk' n (by simp only [Spec.DaoNet.told, h0, Option.map_some])
            · simp only [daoEvent, if_neg hq, h0, if_neg hp] at h4
              cases h4

/-- No DAO is a proposal module of another one. -/
theorem net_outsider {w0 w : World T} {b0 b : Block} {log : List (Event T F D)} (hi : Init U b0 w0)
    (h : (sys U N decode r).Run w0 b0 log w b) (i j : I) : (w.dao i).mods.get (w.dao j).core.core.me = none := by
  induction h with
  | refl => rw [(hi.1 i).1]; rfl
  | @step s1 s2 b3 log env call out hr hb3 hs ih =>
    rw [net_me (.step hr hb3 hs : (sys U N decode r).Run w0 b0 _ s2 env.block) j, ← net_me hr j]
    rcases net_each hs i with ⟨_, h5⟩ | ⟨k, x, h4, h5⟩
    · rw [h5]; exact ih
    · refine FullDao.stays_outside h5 ih ?_
      rintro a q rfl
      cases call with
      | dao p c =>
        obtain ⟨hal, _⟩ := net_dao hs
        have hp : p = i := by
          by_contra hp
          simp only [daoEvent, dif_neg hp] at h4
          cases h4
        subst hp
        simp only [daoEvent, dite_true, Option.some.injEq, Ev.mk.injEq] at h4
        obtain ⟨_, _, h4, _⟩ := h4
        subst h4
        rintro rfl
        simp only [alone, Bool.not_eq_true'] at hal
        have := isDao_iff.2 ⟨j, (rfl : (s1.dao j).core.core.me = _)⟩
        rw [hal] at this; cases this
      | pass p =>
        obtain ⟨q', m', h0, _, _⟩ := net_pass hs
        by_cases hp : p = i
        · simp only [daoEvent, if_pos hp, Option.some.injEq, Ev.mk.injEq] at h4
          obtain ⟨_, _, h4, _⟩ := h4
          cases h4
        · by_cases hq : q' = i
          · simp only [daoEvent, if_neg hp, h0, if_pos hq, Option.some.injEq, Ev.mk.injEq] at h4
            obtain ⟨_, _, h4, _⟩ := h4
            cases h4
          · simp only [daoEvent, if_neg hp, h0, if_neg hq] at h4
            cases h4

/-- **C134.** A DAO obeys its admin: an order that the admin sends next is carried out, also if the DAO is paused, and then the DAO
sends the messages in it, all of them, in order, before anything else. -/
theorem C134_obeys {w0 w : World T} {b0 b : Block} {log : List (Event T F D)} (hi : Init U b0 w0)
    (h : (sys U N decode r).Run w0 b0 log w b) {j i : I} (ha : Admin w j i) {n : Nat} {rest : List DaoCore.Sub}
    (hs : (w.dao j).core.stack = .send (.other n) :: rest) {msgs : List DaoCore.CosmosMsg}
    (hn : r j n = some (i, .executeAdminMsgs msgs)) (e : Env) :
    ∃ w' out, (sys U N decode r).step w e (.pass j) = .ok (w', out) ∧ out.told.core = msgs.map .send ∧
      ∀ x, (w'.dao x).core.core = (w.dao x).core.core ∧ (w'.dao x).core.stack =
        (if x = i then msgs.map .send else []) ++ (if x = j then rest else (w.dao x).core.stack) := by
  obtain ⟨hji, hadm⟩ := ha
  have h3 := net_outsider hi h i j
  have hne : (w.dao j).core.core.me ≠ (w.dao i).core.core.me := by
    rw [net_me h j, net_me h i]; exact hi.2 j i hji
  have h1 : FullDao.step (U j) (N j) (decode j) (w.dao j) e (.core (.deliver ⟨0, []⟩)) =
      .ok ({ w.dao j with core := ⟨(w.dao j).core.core, rest⟩ }, ⟨.none, []⟩) := by
    simp only [FullDao.step, FullDao.notByModule, require, if_true, ok_bind, DaoCore.step, hs]
  have h2 : FullDao.step (U i) (N i) (decode i) (w.dao i) e (.core (.call (w.dao j).core.core.me (.executeAdminMsgs msgs))) =
      .ok ({ w.dao i with core := ⟨(w.dao i).core.core, msgs.map .send ++ (w.dao i).core.stack⟩ }, ⟨.none, msgs.map .send⟩) := by
    simp only [FullDao.step, FullDao.notByModule, require, if_true, ok_bind, DaoCore.step, h3,
      Option.isNone_none, DaoCore.execute, DaoCore.dispatch, DaoCore.adminMsgs, hadm, decide_true, Bool.or_true, hne, ne_eq,
      not_false_eq_true]
  have hnext : next r j (w.dao j).core.stack = some (i, .executeAdminMsgs msgs) := by rw [hs]; exact hn
  refine ⟨⟨Function.update (Function.update w.dao j { w.dao j with core := ⟨(w.dao j).core.core, rest⟩ }) i
      { w.dao i with core := ⟨(w.dao i).core.core, msgs.map .send ++ (w.dao i).core.stack⟩ }⟩,
    ⟨⟨.none, []⟩, ⟨.none, msgs.map .send⟩⟩, ?_, rfl, ?_⟩
  · simp only [sys, step, hnext, orErr, ok_bind, Ne.symm hji, ne_eq, not_false_eq_true, decide_true, require, if_true, h1, h2]
  · intro x
    by_cases hx : x = i
    · subst hx
      simp only [Function.update_self, if_true, if_neg (Ne.symm hji), and_self]
    · by_cases hxj : x = j
      · subst hxj
        simp only [Function.update_of_ne hx, Function.update_self, if_neg hx, if_true, List.nil_append, and_self]
      · simp only [Function.update_of_ne hx, Function.update_of_ne hxj, if_neg hx, if_neg hxj, List.nil_append, and_self]

/-- **C134.** However long the chain of command, the order reaches the last DAO: each DAO in turn obeys, and the last one sends the
messages, before anything else. Nobody else has more or less to send than before. -/
theorem C134_chain {w0 w : World T} {b0 b : Block} {log : List (Event T F D)} (hi : Init U b0 w0)
    (h : (sys U N decode r).Run w0 b0 log w b) {e : Env} (hb : b.le e.block) {i j : I} {msgs : List DaoCore.CosmosMsg} {n : Nat}
    {path : List I} (hc : Command r w i msgs j n path) {rest : List DaoCore.Sub}
    (hs : (w.dao j).core.stack = .send (.other n) :: rest) :
    ∃ w' log', (sys U N decode r).Run w b log' w' e.block ∧
      log'.map (fun ev => (ev.env, ev.call)) = (path.map (fun x => (e, Call.pass x))).reverse ∧
      ∀ x, (w'.dao x).core.core = (w.dao x).core.core ∧ (w'.dao x).core.stack =
        (if x = i then msgs.map .send else []) ++ (if x = j then rest else (w.dao x).core.stack) := by
  suffices key : ∀ {w1 : World T} {b1 : Block} {log1 : List (Event T F D)}, (sys U N decode r).Run w0 b0 log1 w1 b1 →
      b1.le e.block → (∀ x, (w1.dao x).core.core = (w.dao x).core.core) → ∀ {rest : List DaoCore.Sub},
      (w1.dao j).core.stack = .send (.other n) :: rest →
      ∃ w' log', (sys U N decode r).Run w1 b1 log' w' e.block ∧
        log'.map (fun ev => (ev.env, ev.call)) = (path.map (fun x => (e, Call.pass x))).reverse ∧
        ∀ x, (w'.dao x).core.core = (w1.dao x).core.core ∧ (w'.dao x).core.stack =
          (if x = i then msgs.map .send else []) ++ (if x = j then rest else (w1.dao x).core.stack) from
    key h hb (fun _ => rfl) hs
  clear hs
  induction hc with
  | @last j n ha hn =>
    intro w1 b1 log1 h1 hb1 hsame rest hs
    obtain ⟨w', out, g1, _, g2⟩ := C134_obeys hi h1 (j := j) (i := i) ⟨ha.1, by rw [hsame, hsame]; exact ha.2⟩ hs hn e
    exact ⟨w', [⟨w1, e, .pass j, out, w'⟩], .step (M := sys U N decode r) (env := e) (call := .pass j) .refl hb1 g1, rfl, g2⟩
  | @through j k n n' path ha hn hc ih =>
    intro w1 b1 log1 h1 hb1 hsame rest hs
    obtain ⟨w2, out, g1, _, g2⟩ := C134_obeys hi h1 (j := j) (i := k) ⟨ha.1, by rw [hsame, hsame]; exact ha.2⟩ hs hn e
    have h2 : (sys U N decode r).Run w0 b0 (⟨w1, e, .pass j, out, w2⟩ :: log1) w2 e.block :=
      .step (M := sys U N decode r) (env := e) (call := .pass j) h1 hb1 g1
    have hk : (w2.dao k).core.stack = .send (.other n') :: (w1.dao k).core.stack := by
      rw [(g2 k).2, if_pos rfl, if_neg (Ne.symm ha.1)]; rfl
    obtain ⟨w3, log3, g3, g4, g5⟩ := ih h2 (Block.le_refl _) (fun x => ((g2 x).1).trans (hsame x)) hk
    refine ⟨w3, log3 ++ [⟨w1, e, .pass j, out, w2⟩],
      (Sys.Run.step (M := sys U N decode r) (env := e) (call := .pass j) .refl hb1 g1).append g3, ?_, ?_⟩
    · simp [g4]
    · intro x
      refine ⟨((g5 x).1).trans (g2 x).1, ?_⟩
      rw [(g5 x).2]
      congr 1
      by_cases hx : x = k
      · subst hx
        rw [if_pos rfl, if_neg (Ne.symm ha.1)]
      · rw [if_neg hx, (g2 x).2, if_neg hx, List.nil_append]

theorem command_same {w w1 : World T} (hsame : ∀ x, (w1.dao x).core.core = (w.dao x).core.core) {i j : I}
    {msgs : List DaoCore.CosmosMsg} {n : Nat} {path : List I} (hc : Command r w i msgs j n path) : Command r w1 i msgs j n path := by
  induction hc with
  | last ha hn => exact .last ⟨ha.1, by rw [hsame, hsame]; exact ha.2⟩ hn
  | through ha hn _ ih => exact .through ⟨ha.1, by rw [hsame, hsame]; exact ha.2⟩ hn ih

/-- **C134.** The members at the top can always command: whatever a DAO of the network is to be told through a chain of command,
once the members of the DAO at its top have decided it in one of their proposal modules, whoever may execute can carry it out. The
last DAO then has to send exactly these messages before anything else, and nobody else has more or less to send than before. -/
theorem C134_command (hU : ∀ i, Lawful (U i)) {w0 w : World T} {b0 b : Block} {log : List (Event T F D)} (hi : Init U b0 w0)
    (h : (sys U N decode r).Run w0 b0 log w b) (hsound : Sound U N r log) {e : Env} (hb : b.le e.block) {i j : I}
    {msgs : List DaoCore.CosmosMsg} {n : Nat} {path : List I} (hc : Command r w i msgs j n path)
    -- the decision
    {p : Nat} {c : FullDao.Call (F j) (D j)} (hp : Spec.Treasury.Resolved (U j) (w.dao j) (daoLog r j log) e [p] c)
    (hn : decode j p = .other n) :
    ∃ w' log', (sys U N decode r).Run w b log' w' e.block ∧
      log'.map (fun ev => (ev.env, ev.call)) = (path.map (fun x => (e, Call.pass x))).reverse ++ [(e, .dao j c)] ∧
      ∀ x, (w'.dao x).core.core = (w.dao x).core.core ∧
        (w'.dao x).core.stack = (if x = i then msgs.map .send else []) ++ (w.dao x).core.stack := by
  obtain ⟨b2, h5, _⟩ := C134_dao h j
  obtain ⟨hnc, y, oy, h2, h3⟩ := Treasury.resolved_executes (N := N j) (decode := decode j) (hU j) ⟨_, _, hi.1 j, h5⟩
    (hsound j).1 (hsound j).2.1 hp
  have hcs := FullDao.core_same h2 hnc
  have hal : alone r j w.isDao (w.dao j).core.stack c = true := by
    have hre : ∀ a k, c ≠ .spawn a k := by
      cases hp <;> simp
    cases c with
    | core c => exact absurd rfl (hnc c)
    | spawn a k => exact absurd rfl (hre a k)
    | _ => rfl
  have h4 : (sys U N decode r).step w e (.dao j c) = .ok (⟨Function.update w.dao j y⟩, ⟨oy, silent⟩) := by
    simp only [sys, step, hal, require, if_true, ok_bind, h2]
  have hst : y.core.stack = .send (.other n) :: (w.dao j).core.stack := by
    rw [h3]; simp [hn]
  let w1 : World T := ⟨Function.update w.dao j y⟩
  have hsame : ∀ x, (w1.dao x).core.core = (w.dao x).core.core := by
    intro x
    by_cases hx : x = j
    · subst hx
      simp only [w1, Function.update_self]; exact hcs
    · simp only [w1, Function.update_of_ne hx]
  have hr1 : (sys U N decode r).Run w0 b0 (⟨w, e, .dao j c, ⟨oy, silent⟩, w1⟩ :: log) w1 e.block :=
    .step (M := sys U N decode r) (env := e) (call := .dao j c) h hb h4
  obtain ⟨w', log', g1, g2, g3⟩ := C134_chain hi hr1 (Block.le_refl _) (command_same (fun x => hsame x) hc)
    (rest := (w.dao j).core.stack) (by simp only [w1, Function.update_self]; exact hst)
  refine ⟨w', log' ++ [⟨w, e, .dao j c, ⟨oy, silent⟩, w1⟩],
    (Sys.Run.step (M := sys U N decode r) (env := e) (call := .dao j c) .refl hb h4).append g1, ?_, ?_⟩
  · simp [g2]
  · intro x
    refine ⟨((g3 x).1).trans (hsame x), ?_⟩
    rw [(g3 x).2]
    congr 1
    by_cases hx : x = j
    · subst hx; rw [if_pos rfl]
    · simp only [if_neg hx, w1, Function.update_of_ne hx]

end Verif.DaoNet
