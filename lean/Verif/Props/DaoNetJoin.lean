import Verif.Props.DaoNetAdmin
import Verif.Props.DaoNetAdminExample
/-!
# C135: if the members of two DAOs want it, one becomes the SubDAO of the other
-/

namespace Verif.DaoNet
open Verif Verif.Spec Verif.Spec.DaoNet
open Verif.WholeDao (VotingModule)
open Verif.WholeCondorcet (Now)
open Verif.Spec.WholeDao (Lawful)
open Verif.FullDao (Env)

variable {I : Type} [DecidableEq I] [Fintype I] {T F D P : I → Type} {U : ∀ i, VotingModule (T i) (F i) (D i) (P i)}
  {N : ∀ i, Now (T i)} {decode : I → Nat → DaoCore.CosmosMsg} {r : Reading I}

/-- A decision can be executed. -/
theorem net_resolved (hU : ∀ i, Lawful (U i)) {w0 w : World T} {b0 b : Block} {log : List (Event T F D)} (hi : Init U b0 w0)
    (h : (sys U N decode r).Run w0 b0 log w b) (hsound : Sound U N r log) {e : Env} {j : I} {p : Nat}
    {c : FullDao.Call (F j) (D j)} (hp : Spec.Treasury.Resolved (U j) (w.dao j) (daoLog r j log) e [p] c) :
    ∃ y out, (sys U N decode r).step w e (.dao j c) = .ok (⟨Function.update w.dao j y⟩, out) ∧
      y.core.core = (w.dao j).core.core ∧ y.core.stack = .send (decode j p) :: (w.dao j).core.stack := by
  obtain ⟨b2, h5, _⟩ := C134_dao h j
  obtain ⟨hnc, y, oy, h2, h3⟩ := Treasury.resolved_executes (N := N j) (decode := decode j) (hU j) ⟨_, _, hi.1 j, h5⟩
    (hsound j).1 (hsound j).2.1 hp
  have hal : alone r j w.isDao (w.dao j).core.stack c = true := by
    have hre : ∀ a k, c ≠ .spawn a k := by
      cases hp <;> simp
    cases c with
    | core c => exact absurd rfl (hnc c)
    | spawn a k => exact absurd rfl (hre a k)
    | _ => rfl
  refine ⟨y, ⟨oy, silent⟩, ?_, FullDao.core_same h2 hnc, by rw [h3]; simp⟩
  simp only [sys, step, hal, require, if_true, ok_bind, h2]

/-- **C135.** If the members of both DAOs have decided so, and the one that is to be the SubDAO is its own admin, has nobody
nominated and is not paused, then whoever may execute can have it done, and nobody has more or less to send than before. -/
theorem C135_joined (hU : ∀ i, Lawful (U i)) {w0 w : World T} {b0 b : Block} {log : List (Event T F D)} (hi : Init U b0 w0)
    (h : (sys U N decode r).Run w0 b0 log w b) (hsound : Sound U N r log) {e : Env} (hb : b.le e.block) {i j : I} (hji : j ≠ i)
    (hown : (w.dao i).core.core.admin = (w.dao i).core.core.me) (hnone : (w.dao i).core.core.nominated = none)
    (hpause : DaoCore.isPaused (w.dao i).core.core e.block = false)
    -- the decision of the DAO to become a SubDAO
    {p : Nat} {c : FullDao.Call (F i) (D i)} (hp : Spec.Treasury.Resolved (U i) (w.dao i) (daoLog r i log) e [p] c)
    (hpn : decode i p = .toSelf (.nominateAdmin (some (w.dao j).core.core.me)))
    -- the decision of the other DAO to accept
    {q n : Nat} {d : FullDao.Call (F j) (D j)} (hq : Spec.Treasury.Resolved (U j) (w.dao j) (daoLog r j log) e [q] d)
    (hqn : decode j q = .other n) (hn : r j n = some (i, .acceptAdminNomination)) :
    ∃ w' log', (sys U N decode r).Run w b log' w' e.block ∧
      log'.map (fun ev => (ev.env, ev.call)) =
        [(e, .pass j), (e, .dao i (.core (.deliver ⟨0, []⟩))), (e, .dao i c), (e, .dao j d)] ∧
      Admin w' j i ∧ (w'.dao i).core.core.nominated = none ∧ ∀ x, (w'.dao x).core.stack = (w.dao x).core.stack := by
  obtain ⟨y, o1, h1, h2, h3⟩ := net_resolved (decode := decode) (N := N) hU hi h hsound hq
  let w1 : World T := ⟨Function.update w.dao j y⟩
  have k1 : w1.dao i = w.dao i := by simp only [w1, Function.update_of_ne (Ne.symm hji)]
  have k2 : w1.dao j = y := by simp only [w1, Function.update_self]
  have hr1 : (sys U N decode r).Run w0 b0 (⟨w, e, .dao j d, o1, w1⟩ :: log) w1 e.block :=
    .step (M := sys U N decode r) (env := e) (call := .dao j d) h hb h1
  -- the other decision is executed from the state of the DAO, which is unchanged
  obtain ⟨b2, g0, _⟩ := C134_dao h i
  obtain ⟨hnc, z, oz, g2, g3⟩ := Treasury.resolved_executes (N := N i) (decode := decode i) (hU i) ⟨_, _, hi.1 i, g0⟩
    (hsound i).1 (hsound i).2.1 hp
  have gcore := FullDao.core_same g2 hnc
  have hal : alone r i w1.isDao (w1.dao i).core.stack c = true := by
    have hre : ∀ a k, c ≠ .spawn a k := by
      cases hp <;> simp
    cases c with
    | core c => exact absurd rfl (hnc c)
    | spawn a k => exact absurd rfl (hre a k)
    | _ => rfl
  have g1 : (sys U N decode r).step w1 e (.dao i c) = .ok (⟨Function.update w1.dao i z⟩, ⟨oz, silent⟩) := by
    rw [k1] at hal
    simp only [sys, step, k1, hal, require, if_true, ok_bind, g2]
  let w2 : World T := ⟨Function.update w1.dao i z⟩
  have hr2 : (sys U N decode r).Run w0 b0 (⟨w1, e, .dao i c, ⟨oz, silent⟩, w2⟩ :: ⟨w, e, .dao j d, o1, w1⟩ :: log) w2 e.block :=
    .step (M := sys U N decode r) (env := e) (call := .dao i c) hr1 (Block.le_refl _) g1
  have k3 : w2.dao i = z := by simp only [w2, Function.update_self]
  have k4 : w2.dao j = y := by simp only [w2, Function.update_of_ne hji, k2]
  have hz : z.core.stack = .send (.toSelf (.nominateAdmin (some (w.dao j).core.core.me))) :: (w.dao i).core.stack := by
    rw [g3]; simp [hpn]
  obtain ⟨w3, o3, f1, f2, f3, f4⟩ := C135_offer hr2 (i := i) (a := (w.dao j).core.core.me) (rest := (w.dao i).core.stack)
    (by rw [k3, gcore]; exact hown) (by rw [k3, gcore]; exact hnone) (by rw [k3]; exact hz) e
  rw [k3, gcore] at f2
  have hr3 : (sys U N decode r).Run w0 b0 (⟨w2, e, .dao i (.core (.deliver ⟨0, []⟩)), o3, w3⟩ ::
      ⟨w1, e, .dao i c, ⟨oz, silent⟩, w2⟩ :: ⟨w, e, .dao j d, o1, w1⟩ :: log) w3 e.block :=
    .step (M := sys U N decode r) (env := e) (call := .dao i (.core (.deliver ⟨0, []⟩))) hr2 (Block.le_refl _) f1
  have k5 : w3.dao j = y := by rw [f4 j hji, k4]
  obtain ⟨w4, o4, l1, l2, l3, l4, l5, l6, l7⟩ := C135_accept hi hr3 hji (n := n) (rest := (w.dao j).core.stack) (e := e)
    (by rw [f2, k5, h2]) (by rw [k5, h3, hqn]) hn (by rw [f2]; exact hpause)
  have run : (sys U N decode r).Run w b [⟨w3, e, .pass j, o4, w4⟩, ⟨w2, e, .dao i (.core (.deliver ⟨0, []⟩)), o3, w3⟩,
      ⟨w1, e, .dao i c, ⟨oz, silent⟩, w2⟩, ⟨w, e, .dao j d, o1, w1⟩] w4 e.block :=
    .step (M := sys U N decode r) (env := e) (call := .pass j)
      (.step (M := sys U N decode r) (env := e) (call := .dao i (.core (.deliver ⟨0, []⟩)))
        (.step (M := sys U N decode r) (env := e) (call := .dao i c)
          (.step (M := sys U N decode r) (env := e) (call := .dao j d) .refl hb h1) (Block.le_refl _) g1) (Block.le_refl _) f1)
      (Block.le_refl _) l1
  refine ⟨w4, _, run, rfl, l2, by rw [l3], ?_⟩
  intro x
  by_cases hx : x = i
  · subst hx; rw [l6, f3]
  · by_cases hxj : x = j
    · subst hxj; rw [l5]
    · rw [l7 x hx hxj, f4 x hx]
      simp only [w2, w1, Function.update_of_ne hx, Function.update_of_ne hxj]

end Verif.DaoNet

namespace Verif.DaoNet.Example
open Verif Verif.Spec Verif.Spec.DaoNet Verif.DaoNet
open Verif.WholeDao (tokenStaked C80_token_staked)
open Verif.WholeCondorcet (tokenStakedNow C94_token_staked)
open Verif.FullDao (Env)
open Verif.FullDao.Example (vote0 single env)

/-- An event executes the first proposal of module `a` of DAO `i`, which is enabled. -/
def executing (i : Fin 3) (a : Addr) (ev : Event T' F' D') : Bool :=
  decide (DaoCore.isPaused (ev.pre.dao i).core.core ev.env.block = false) &&
    FullDao.Example.enabled (ev.pre.dao i) a && (ev.pre.dao i).core.stack.isEmpty &&
    (match ev.call with
      | .dao k (.single x (.execute n false)) => decide (k = i ∧ x = a ∧ n = 1)
      | _ => false) &&
    (match (ev.pre.dao i).mods.get a with
      | some (.single s) => decide (s.config.onlyMembersExecute = false) &&
          (match s.proposals.get 1 with
            | some p => decide (p.status = .passed) && decide (p.veto = none) &&
                decide (p.threshold = .absolutePercentage .majority)
            | none => false)
      | _ => false)

theorem executing_call {i : Fin 3} {a : Addr} {ev : Event T' F' D'} (h : executing i a ev = true) :
    ev.call = .dao i (.single a (.execute 1 false)) := by
  simp only [executing, Bool.and_eq_true] at h
  obtain ⟨⟨_, h⟩, _⟩ := h
  split at h
  · rename_i hc
    obtain ⟨rfl, rfl, rfl⟩ := of_decide_eq_true h
    exact hc
  · cases h

theorem executing_resolved {i : Fin 3} {a : Addr} {w w' : World T'} {b : Block} {before : List (Event T' F' D')} {e : Env}
    {c : Call F' D'} {out : Out} (hr : joinSys.Run v0 ⟨1, 1⟩ before w b) (hb : b.le e.block)
    (hs : joinSys.step w e c = .ok (w', out)) (hf : joinFine before = true)
    (hf' : joinFine (⟨w, e, c, out, w'⟩ :: before) = true) (hx : executing i a ⟨w, e, c, out, w'⟩ = true) :
    ∃ l, Spec.Treasury.Resolved (U' i) (w.dao i) (daoLog join i before) e l (.single a (.execute 1 false)) ∧
      (w'.dao i).core.stack = l.map (fun n => .send (dec i n)) ∧ ∀ k, k ≠ i → w'.dao k = w.dao k := by
  have hc := executing_call hx
  simp only at hc
  subst hc
  have hrun : joinSys.Run v0 ⟨1, 1⟩ (⟨w, e, .dao i (.single a (.execute 1 false)), out, w'⟩ :: before) w' e.block := .step hr hb hs
  simp only [executing, Bool.and_eq_true, decide_eq_true_eq] at hx
  obtain ⟨⟨⟨⟨hpause, hen⟩, hst0⟩, _⟩, hprop⟩ := hx
  have hst0 := List.isEmpty_iff.1 hst0
  have hen := FullDao.Example.enabled_iff.1 hen
  obtain ⟨_, hs', hoth, _⟩ := net_dao (U := U') (N := N') (decode := dec) (r := join) hs
  have hlog : daoLog join i ((⟨w, e, .dao i (.single a (.execute 1 false)), out, w'⟩ : Event T' F' D') :: before) =
      ⟨w.dao i, e, .single a (.execute 1 false), out.dao, w'.dao i⟩ :: daoLog join i before := by
    simp only [daoLog]
    rw [List.filterMap_cons_some]
    simp only [daoEvent, dite_true]
  obtain ⟨b3, hrb, _⟩ := C134_dao hr i
  obtain ⟨b4, hrd, _⟩ := C134_dao hrun i
  obtain ⟨hst, htot, _⟩ := join_sound hrun hf' i
  rw [hlog] at hst htot hrd
  obtain ⟨hstb, _, _⟩ := join_sound hr hf i
  have hnow := hst ⟨w.dao i, e, .single a (.execute 1 false), out.dao, w'.dao i⟩ List.mem_cons_self
  simp only at hnow
  obtain ⟨msgs, hch⟩ := FullDao.C95_decided C94_token_staked.1 (decode := dec i) (later := [])
    (ev := ⟨w.dao i, e, .single a (.execute 1 false), out.dao, w'.dao i⟩) (before := daoLog join i before) (a := a)
    (id := 1) ⟨_, _, join_init.1 i, hrd⟩ hst htot rfl (by simp [FullDao.executes])
  cases hch with
  | @single f s p hc' hg hp hdd _ =>
    simp only at hg hdd hc'
    rw [hg] at hprop
    simp only [hp, Bool.and_eq_true, decide_eq_true_eq] at hprop
    obtain ⟨h2, ⟨h3, h4⟩, h6⟩ := hprop
    have hdec := hdd (by rw [h6]; trivial)
    obtain ⟨y, o, g1, g2, g3⟩ := FullDao.C95_carried_out_single (decode := dec i) (N := tokenStakedNow) C80_token_staked
      ⟨_, _, join_init.1 i, hrb⟩ hstb hg (hnow a _ hg) hp (Or.inr h3) h4 hdec (by simp [h2]) hpause hen
    replace g1 : FullDao.step tokenStaked tokenStakedNow (dec i) (w.dao i) e (.single a (.execute 1 false)) = .ok (y, o) := g1
    have hs'' : FullDao.step tokenStaked tokenStakedNow (dec i) (w.dao i) e (.single a (.execute 1 false)) =
      .ok (w'.dao i, out.dao) := hs'
    rw [hs''] at g1
    simp only [Except.ok.injEq, Prod.mk.injEq] at g1
    obtain ⟨hy, rfl⟩ := g1
    rw [← hy, g2, hst0, List.append_nil] at g3
    exact ⟨_, .single hg (hnow a _ hg) hp (Or.inr h3) h4 hdec (by simp [h2]) hpause hen rfl, g3, hoth⟩
  | multi hc' => cases hc'
  | condorcet hc' => cases hc'

/-- Both decisions have been made, and then both are executed. -/
def deciding : List Step :=
  [(env 1 99, .dao 1 (.core (.deliver ⟨52, []⟩))),
   (env 1 99, .dao 1 (.spawn 53 single)),
   (env 1 99, .dao 1 (.core (.deliver ⟨53, []⟩))),
   (env 1 99, .dao 2 (.core (.deliver ⟨102, []⟩))),
   (env 1 99, .dao 2 (.spawn 103 single)),
   (env 1 99, .dao 2 (.core (.deliver ⟨103, []⟩))),
   (env 2 10, .dao 1 (.vote ⟨2, 2⟩ (.stake 10 60))),
   (env 2 11, .dao 2 (.vote ⟨2, 2⟩ (.stake 11 40))),
   (env 5 11, .dao 2 (.single 103 (.propose none 0 [70] none true))),
   (env 6 11, .dao 2 (.single 103 (.vote 1 .yes none))),
   (env 8 10, .dao 1 (.single 53 (.propose none 0 [300] none true))),
   (env 9 10, .dao 1 (.single 53 (.vote 1 .yes none))),
   (env 9 99, .dao 1 (.single 53 (.execute 1 false))),
   (env 9 99, .dao 2 (.single 103 (.execute 1 false)))]

/-- The last two events execute the two decisions. -/
def decided (log : List (Event T' F' D')) : Bool :=
  match log with
  | e2 :: e1 :: before => executing 2 103 e2 && executing 1 53 e1 && joinFine before && joinFine (e1 :: before) &&
      joinFine (e2 :: e1 :: before) && only 300 (e1.post.dao 1).core.stack && offers 51 (e2.post.dao 2).core.stack &&
      decide ((e2.post.dao 2).core.stack.length = 1) && decide (e1.env.block = e2.env.block ∧ e1.env.sender = e2.env.sender) &&
      decide ((e1.pre.dao 2).core.core.admin = (e1.pre.dao 2).core.core.me ∧ (e1.pre.dao 2).core.core.nominated = none ∧
        DaoCore.isPaused (e1.pre.dao 2).core.core e1.env.block = false ∧ (e1.pre.dao 1).core.core.me = 51)
  | _ => false

theorem resolved_env {w : FullDao.World TokenStaked.World} {log : List (FullDao.Event TokenStaked.World Block TokenStaked.Call)}
    {e e' : Env} {l : List Nat} {a : Addr} (h : Spec.Treasury.Resolved tokenStaked w log e l (.single a (.execute 1 false)))
    (hb : e.block = e'.block) (hs : e.sender = e'.sender) :
    Spec.Treasury.Resolved tokenStaked w log e' l (.single a (.execute 1 false)) := by
  cases h with
  | single h1 h2 h3 h4 h5 h6 h7 h8 h9 h10 =>
    rw [hb] at h6 h8
    rw [hs] at h7
    exact .single h1 h2 h3 h4 h5 h6 h7 h8 h9 h10

theorem one_sent {i : Fin 3} {l : List Nat} {m : DaoCore.CosmosMsg}
    (h : [DaoCore.Sub.send m] = l.map (fun n => DaoCore.Sub.send (dec i n))) : ∃ n, l = [n] ∧ dec i n = m := by
  cases l with
  | nil => cases h
  | cons n t =>
    simp only [List.map_cons, List.cons.injEq, DaoCore.Sub.send.injEq] at h
    obtain ⟨h1, h2⟩ := h
    cases t with
    | nil => exact ⟨n, rfl, h1.symm⟩
    | cons => cases h2

/-- **C135.** A history which meets everything `C135_joined` asks for. -/
theorem C135_example_joined : ∃ (w : World T') (b : Block) (log : List (Event T' F' D')) (e : Env) (p q : Nat)
    (c d : FullDao.Call Block TokenStaked.Call),
    Init U' ⟨1, 1⟩ v0 ∧ joinSys.Run v0 ⟨1, 1⟩ log w b ∧ Sound U' N' join log ∧ b.le e.block ∧
    (w.dao 2).core.core.admin = (w.dao 2).core.core.me ∧ (w.dao 2).core.core.nominated = none ∧
    DaoCore.isPaused (w.dao 2).core.core e.block = false ∧
    Spec.Treasury.Resolved (U' 2) (w.dao 2) (daoLog join 2 log) e [p] c ∧
    dec 2 p = .toSelf (.nominateAdmin (some (w.dao 1).core.core.me)) ∧
    Spec.Treasury.Resolved (U' 1) (w.dao 1) (daoLog join 1 log) e [q] d ∧ dec 1 q = .other 300 ∧
    join 1 300 = some (2, .acceptAdminNomination) := by
  obtain ⟨w2, b2, log, hr, hp⟩ := Sys.check_run (M := joinSys) (s := v0) (b := ⟨1, 1⟩) (cs := deciding)
    (p := fun _ _ log => decided log) (by decide +kernel)
  cases hr with
  | refl => cases hp
  | @step w1 _ b1 log1 e2 c2 o2 hr1 hb2 hs2 =>
    cases hr1 with
    | refl => cases hp
    | @step w _ b log e1 c1 o1 hr hb1 hs1 =>
      simp only [decided, Bool.and_eq_true, decide_eq_true_eq] at hp
      obtain ⟨⟨⟨⟨⟨⟨⟨⟨⟨x2, x1⟩, f0⟩, f1⟩, f2⟩, hon⟩, hof⟩, hlen⟩, heb, hes⟩, hadm, hnom, hpau, hme⟩ := hp
      have hr1 : joinSys.Run v0 ⟨1, 1⟩ (⟨w, e1, c1, o1, w1⟩ :: log) w1 e1.block := .step hr hb1 hs1
      obtain ⟨l1, r1, st1, oth1⟩ := executing_resolved hr hb1 hs1 f0 f1 x1
      obtain ⟨l2, r2, st2, _⟩ := executing_resolved hr1 hb2 hs2 f1 f2 x2
      have c1' := executing_call x1
      simp only at c1'
      subst c1'
      have hlog : daoLog join 2 ((⟨w, e1, .dao 1 (.single 53 (.execute 1 false)), o1, w1⟩ : Event T' F' D') :: log) =
          daoLog join 2 log := by
        simp only [daoLog]
        rw [List.filterMap_cons_none]
        rfl
      rw [oth1 2 (by decide), hlog] at r2
      rw [only_eq hon] at st1
      obtain ⟨q, rfl, hq⟩ := one_sent st1
      have hst2 : (w2.dao 2).core.stack = [.send (.toSelf (.nominateAdmin (some 51)))] := by
        unfold offers at hof
        split at hof
        · rename_i x rest hst
          have := of_decide_eq_true hof
          subst this
          rw [hst] at hlen ⊢
          cases rest with
          | nil => rfl
          | cons => simp at hlen
        · cases hof
      rw [hst2] at st2
      obtain ⟨p, rfl, hp⟩ := one_sent st2
      exact ⟨w, b, log, e1, p, q, _, _, join_init, hr, join_sound hr f0, hb1, hadm, hnom, hpau,
        resolved_env r2 heb.symm hes.symm, by rw [hp, hme], r1, hq, rfl⟩

end Verif.DaoNet.Example
