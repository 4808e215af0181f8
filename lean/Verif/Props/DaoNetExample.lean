import Verif.Props.DaoNetReform
import Verif.Props.SubDaoExample
/-!
# C134: three DAOs in a chain

DAO 1 is the admin of DAO 51, which is the admin of DAO 101. The members of DAO 101 decide to send message 8 and to pause their
DAO. The members of DAO 51 decide nothing. The members of DAO 1 decide that DAO 51 is to order DAO 101 to send message 9, and
this is done.
-/

namespace Verif.DaoNet.Example
open Verif Verif.Spec Verif.Spec.DaoNet Verif.DaoNet
open Verif.WholeDao (tokenStaked C80_token_staked)
open Verif.WholeCondorcet (tokenStakedNow C94_token_staked)
open Verif.FullDao (Env)
open Verif.FullDao.Example (vote0 single env)
open Verif.SubDao.Example (core core_init childFine child_steady child_own decodeChild)

abbrev T' : Fin 3 → Type := fun _ => TokenStaked.World
abbrev F' : Fin 3 → Type := fun _ => Block
abbrev D' : Fin 3 → Type := fun _ => TokenStaked.Call

def U' : ∀ i, WholeDao.VotingModule (T' i) (F' i) (D' i) ((fun _ => TokenStaked.Out : Fin 3 → Type) i) := fun _ => tokenStaked
def N' : ∀ i, WholeCondorcet.Now (T' i) := fun _ => tokenStakedNow

/-- DAO 1 is `0`, DAO 51 is `1`, DAO 101 is `2`. -/
def w0 : World T' := ⟨fun i => if i = 0 then ⟨core 1 none, [], vote0, 2⟩ else
  if i = 1 then ⟨core 51 (some 1), [], vote0, 52⟩ else ⟨core 101 (some 51), [], vote0, 102⟩⟩

/-- Message 200 of DAO 1 orders DAO 51 to send message 201, which orders DAO 101 to send message 9. Likewise messages 210 and 211
have DAO 101 note something, and messages 220 and 221 end its pause. -/
def reading : Reading (Fin 3) := fun i n =>
  if i = 0 ∧ n = 200 then some (1, .executeAdminMsgs [.other 201]) else
  if i = 1 ∧ n = 201 then some (2, .executeAdminMsgs [.other 9]) else
  if i = 0 ∧ n = 210 then some (1, .executeAdminMsgs [.other 211]) else
  if i = 1 ∧ n = 211 then some (2, .executeAdminMsgs [.toSelf (.setItem 5 6)]) else
  if i = 0 ∧ n = 220 then some (1, .executeAdminMsgs [.other 221]) else
  if i = 1 ∧ n = 221 then some (2, .unpause) else none

abbrev theSys : Sys (World T') Env (Call F' D') Out := sys U' N' (fun _ => decodeChild) reading

theorem init : Init U' ⟨1, 1⟩ w0 := by
  refine ⟨fun i => ?_, by decide +kernel⟩
  have h : ∀ me admin v, FullDao.Init tokenStaked ⟨1, 1⟩ ⟨core me admin, [], vote0, v⟩ := fun me admin v =>
    ⟨rfl, ⟨⟨1, 1⟩, [], ⟨⟨1, 1⟩, _, core_init _ _, .refl⟩, Block.le_refl _⟩, FullDao.Example.init.2.2⟩
  match i with
  | 0 => exact h 1 none 2
  | 1 => exact h 51 (some 1) 52
  | 2 => exact h 101 (some 51) 102

abbrev Step := Env × Call F' D'

/-- What happens until the members of DAO 1 have decided to send message `k`. -/
def start (k : Nat) : List Step :=
  [(env 1 99, .dao 0 (.core (.deliver ⟨2, []⟩))),
   (env 1 99, .dao 0 (.spawn 3 single)),
   (env 1 99, .dao 0 (.core (.deliver ⟨3, []⟩))),
   (env 1 99, .dao 1 (.core (.deliver ⟨52, []⟩))),
   (env 1 99, .dao 1 (.spawn 53 single)),
   (env 1 99, .dao 1 (.core (.deliver ⟨53, []⟩))),
   (env 1 99, .dao 2 (.core (.deliver ⟨102, []⟩))),
   (env 1 99, .dao 2 (.spawn 103 single)),
   (env 1 99, .dao 2 (.core (.deliver ⟨103, []⟩))),
   (env 2 10, .dao 0 (.vote ⟨2, 2⟩ (.stake 10 60))),
   (env 2 11, .dao 2 (.vote ⟨2, 2⟩ (.stake 11 40))),
   (env 5 11, .dao 2 (.single 103 (.propose none 0 [8, 60] none true))),
   (env 6 11, .dao 2 (.single 103 (.vote 1 .yes none))),
   (env 7 99, .dao 2 (.single 103 (.execute 1 false))),
   (env 7 99, .dao 2 (.core (.deliver ⟨0, []⟩))),
   (env 7 99, .dao 2 (.core (.deliver ⟨0, []⟩))),
   (env 8 10, .dao 0 (.single 3 (.propose none 0 [k] none true))),
   (env 9 10, .dao 0 (.single 3 (.vote 1 .yes none))),
   (env 9 99, .dao 0 (.single 3 (.execute 1 false)))]

def calls : List Step := start 200 ++ [(env 9 99, .pass 0), (env 9 99, .pass 1), (env 9 99, .dao 2 (.core (.deliver ⟨0, []⟩)))]

def fineAll (log : List (Event T' F' D')) : Bool :=
  childFine (daoLog reading 0 log) && childFine (daoLog reading 1 log) && childFine (daoLog reading 2 log)

theorem fine_sound {w : World T'} {b : Block} {log : List (Event T' F' D')} (hr : theSys.Run w0 ⟨1, 1⟩ log w b)
    (hf : fineAll log = true) : Sound U' N' reading log := by
  simp only [fineAll, Bool.and_eq_true] at hf
  have hf' : ∀ i, childFine (daoLog reading i log) = true := fun i => by
    match i with
    | 0 => exact hf.1.1
    | 1 => exact hf.1.2
    | 2 => exact hf.2
  intro i
  obtain ⟨b1, h1, _⟩ := C134_dao hr i
  exact ⟨child_steady (hf' i), FullDao.C95_totals C94_token_staked.2 ⟨_, _, init.1 i, h1⟩, child_own (hf' i)⟩

/-- DAO 101 sends message `k` in the history. -/
def lastSends (k : Nat) (log : List (Event T' F' D')) : Bool :=
  (daoLog reading 2 log).any (fun e => e.out.core.any (fun d => match d with | .send (.other n) => decide (n = k) | _ => false))

theorem lastSends_mem {k : Nat} {log : List (Event T' F' D')} (hs : lastSends k log = true) :
    ∃ ev ∈ daoLog reading 2 log, DaoCore.Sub.send (.other k) ∈ ev.out.core := by
  unfold lastSends at hs
  rw [List.any_eq_true] at hs
  obtain ⟨e, he, hs⟩ := hs
  rw [List.any_eq_true] at hs
  obtain ⟨d, hd, hs⟩ := hs
  refine ⟨e, he, ?_⟩
  split at hs
  · rw [of_decide_eq_true hs] at hd; exact hd
  · cases hs

/-- Nobody is told to take another admin. -/
def keeps (log : List (Event T' F' D')) : Bool :=
  log.all (fun e => match told reading e with | some (_, _, .nominateAdmin _) => false | _ => true)

/-- **C134.** The history: all assumptions of `C134_governed` and `C134_admin` are met, and DAO 101 has sent what its own members
decided and what the members of DAO 1 decided, although it is paused. -/
theorem C134_example : ∃ (w : World T') (b : Block) (log : List (Event T' F' D')),
    Init U' ⟨1, 1⟩ w0 ∧ theSys.Run w0 ⟨1, 1⟩ log w b ∧ Sound U' N' reading log ∧ Admin w0 0 1 ∧ Admin w0 1 2 ∧
    (∀ e ∈ log, ∀ j i a, told reading e ≠ some (j, i, .nominateAdmin a)) ∧
    (∃ ev ∈ daoLog reading 2 log, DaoCore.Sub.send (.other 8) ∈ ev.out.core) ∧
    (∃ ev ∈ daoLog reading 2 log, DaoCore.Sub.send (.other 9) ∈ ev.out.core) ∧
    DaoCore.isPaused (w.dao 2).core.core b = true := by
  obtain ⟨w, b, log, hr, hp⟩ := Sys.check_run (M := theSys) (s := w0) (b := ⟨1, 1⟩) (cs := calls)
    (p := fun w b log => fineAll log && (keeps log && (lastSends 8 log && (lastSends 9 log &&
      DaoCore.isPaused (w.dao 2).core.core b)))) (by decide +kernel)
  simp only [Bool.and_eq_true] at hp
  obtain ⟨h1, h2, h3, h4, h5⟩ := hp
  refine ⟨w, b, log, init, hr, fine_sound hr h1, ⟨by decide, by decide +kernel⟩, ⟨by decide, by decide +kernel⟩, ?_, lastSends_mem h3,
    lastSends_mem h4, h5⟩
  intro e he j i a hn
  have := List.all_eq_true.1 h2 e he
  rw [hn] at this
  cases this

/-- DAO `i` never has another DAO as its admin. -/
def free (i : Fin 3) (log : List (Event T' F' D')) : Bool :=
  log.all (fun e => decide ((e.pre.dao i).core.core.admin = (e.pre.dao i).core.core.me) &&
    (List.finRange 3).all (fun j => decide (j = i ∨ (e.pre.dao j).core.core.me ≠ (e.pre.dao i).core.core.me)))

/-- **C134.** In the same history DAO 1 meets the hypotheses of `C134_free`, and it sends something. -/
theorem C134_example_free : ∃ (w : World T') (b : Block) (log : List (Event T' F' D')),
    Init U' ⟨1, 1⟩ w0 ∧ theSys.Run w0 ⟨1, 1⟩ log w b ∧ Sound U' N' reading log ∧ (∀ e ∈ log, ∀ j, ¬ Admin e.pre j 0) ∧
    ∃ ev ∈ daoLog reading 0 log, ∃ d, d ∈ ev.out.core := by
  obtain ⟨w, b, log, hr, hp⟩ := Sys.check_run (M := theSys) (s := w0) (b := ⟨1, 1⟩) (cs := calls)
    (p := fun _ _ log => fineAll log && (free 0 log && (daoLog reading 0 log).any (fun e => !e.out.core.isEmpty)))
    (by decide +kernel)
  simp only [Bool.and_eq_true] at hp
  obtain ⟨h1, h2, h3⟩ := hp
  refine ⟨w, b, log, init, hr, fine_sound hr h1, ?_, ?_⟩
  · intro e he j hj
    have := List.all_eq_true.1 h2 e he
    simp only [Bool.and_eq_true, decide_eq_true_eq, List.all_eq_true] at this
    rcases this.2 j (List.mem_finRange j) with h | h
    · exact hj.1 h
    · exact h (hj.2.symm.trans this.1)
  · obtain ⟨ev, h4, h5⟩ := List.any_eq_true.1 h3
    refine ⟨ev, h4, ?_⟩
    cases h6 : ev.out.core with
    | nil => rw [h6] at h5; cases h5
    | cons d t => exact ⟨d, List.mem_cons_self⟩

/-- Only this message is to be sent. -/
def only (j : Nat) : List DaoCore.Sub → Bool
  | [.send (.other n)] => decide (n = j)
  | _ => false

theorem only_eq {j : Nat} {l : List DaoCore.Sub} (h : only j l = true) : l = [.send (.other j)] := by
  unfold only at h
  split at h
  · rw [of_decide_eq_true h]
  · cases h

instance {w : World T'} {j i : Fin 3} : Decidable (Admin w j i) := by unfold Admin; infer_instance

/-- The last event executes the proposal of DAO 1, whose module is enabled. -/
def ready (k : Nat) (log : List (Event T' F' D')) : Bool :=
  match log with
  | [] => false
  | ev :: before => decide (DaoCore.isPaused (ev.pre.dao 0).core.core ev.env.block = false) &&
    FullDao.Example.enabled (ev.pre.dao 0) 3 && (ev.pre.dao 0).core.stack.isEmpty &&
    only k (ev.post.dao 0).core.stack && decide ((Admin ev.pre 0 1 ∧ Admin ev.pre 1 2) ∧ DaoCore.isPaused (ev.pre.dao 2).core.core ev.env.block = true) && fineAll before &&
    (match ev.call with
      | .dao 0 (.single x (.execute n false)) => decide (x = 3 ∧ n = 1)
      | _ => false) &&
    (match (ev.pre.dao 0).mods.get 3 with
      | some (.single s) => decide (s.config.onlyMembersExecute = false) &&
          (match s.proposals.get 1 with
            | some p => decide (p.status = .passed) && decide (p.veto = none) &&
                decide (p.threshold = .absolutePercentage .majority)
            | none => false)
      | _ => false)

theorem one_msg {l : List Nat} {j : Nat}
    (h : [DaoCore.Sub.send (.other j)] = l.map (fun n => DaoCore.Sub.send (decodeChild n)) ++ []) :
    ∃ n, l = [n] ∧ decodeChild n = .other j := by
  cases l with
  | nil => cases h
  | cons n t =>
    simp only [List.map_cons, List.append_nil, List.cons.injEq, DaoCore.Sub.send.injEq] at h
    obtain ⟨h1, h2⟩ := h
    cases t with
    | nil => exact ⟨n, rfl, h1.symm⟩
    | cons => cases h2

theorem ready_of {j : Nat} (hchk : theSys.check w0 ⟨1, 1⟩ (start j) (fun _ _ log => fineAll log && ready j log) = true) :
    ∃ (w : World T') (b : Block) (log : List (Event T' F' D')) (e : Env) (n : Nat) (k : FullDao.Call Block TokenStaked.Call),
    theSys.Run w0 ⟨1, 1⟩ log w b ∧ Sound U' N' reading log ∧ b.le e.block ∧ (Admin w 0 1 ∧ Admin w 1 2) ∧
    DaoCore.isPaused (w.dao 2).core.core e.block = true ∧
    Spec.Treasury.Resolved (U' 0) (w.dao 0) (daoLog reading 0 log) e [n] k ∧ decodeChild n = .other j := by
  obtain ⟨w, b, log, hr, hp⟩ := Sys.check_run (M := theSys) (s := w0) (b := ⟨1, 1⟩) (cs := start j)
    (p := fun _ _ log => fineAll log && ready j log) hchk
  rw [Bool.and_eq_true] at hp
  obtain ⟨hf, hu⟩ := hp
  have hh := fine_sound hr hf
  obtain ⟨b2, hrd, _⟩ := C134_dao hr 0
  cases hr with
  | refl => cases hu
  | @step s1 _ b1 before env call out h1 hb hs =>
    simp only [ready, Bool.and_eq_true, decide_eq_true_eq] at hu
    obtain ⟨⟨⟨⟨⟨⟨⟨hpause, hen⟩, hst0⟩, hst1⟩, hadm⟩, hfb⟩, hcall⟩, hprop⟩ := hu
    have hst0 := List.isEmpty_iff.1 hst0
    have hst1 := only_eq hst1
    have hen := FullDao.Example.enabled_iff.1 hen
    have key : call = .dao 0 (.single 3 (.execute 1 false)) := by
      split at hcall
      · obtain ⟨rfl, rfl⟩ := of_decide_eq_true hcall; rfl
      · cases hcall
    subst key
    clear hcall
    have hs' := (net_dao (U := U') (N := N') (decode := fun _ => decodeChild) (r := reading) hs).2.1
    have hlog : daoLog reading 0 ((⟨s1, env, .dao 0 (.single 3 (.execute 1 false)), out, w⟩ : Event T' F' D') :: before) =
        ⟨s1.dao 0, env, .single 3 (.execute 1 false), out.dao, w.dao 0⟩ :: daoLog reading 0 before := by
      simp only [daoLog]
      rw [List.filterMap_cons_some]
      simp only [daoEvent, dite_true]
    have hhb := fine_sound h1 hfb
    obtain ⟨b3, hrb, _⟩ := C134_dao h1 0
    obtain ⟨hst, htot, _⟩ := hh 0
    rw [hlog] at hst htot hrd
    obtain ⟨hstb, _, _⟩ := hhb 0
    have hnow := hst ⟨s1.dao 0, env, .single 3 (.execute 1 false), out.dao, w.dao 0⟩ List.mem_cons_self
    simp only at hnow
    obtain ⟨msgs, hch⟩ := FullDao.C95_decided C94_token_staked.1 (decode := decodeChild) (later := [])
      (ev := ⟨s1.dao 0, env, .single 3 (.execute 1 false), out.dao, w.dao 0⟩) (before := daoLog reading 0 before) (a := 3)
      (id := 1) ⟨_, _, init.1 0, hrd⟩ hst htot rfl (by simp [FullDao.executes])
    cases hch with
    | @single f s p hc' hg hp hdd _ =>
      simp only at hg hdd hc'
      rw [hg] at hprop
      simp only [hp, Bool.and_eq_true, decide_eq_true_eq] at hprop
      obtain ⟨h2, ⟨h3, h4⟩, h6⟩ := hprop
      have hdec := hdd (by rw [h6]; trivial)
      obtain ⟨y, o, g1, g2, g3⟩ := FullDao.C95_carried_out_single (decode := decodeChild) (N := tokenStakedNow) C80_token_staked
        ⟨_, _, init.1 0, hrb⟩ hstb hg (hnow 3 _ hg) hp (Or.inr h3) h4 hdec (by simp [h2]) hpause hen
      replace g1 : FullDao.step tokenStaked tokenStakedNow decodeChild (s1.dao 0) env (.single 3 (.execute 1 false)) = .ok (y, o) :=
        g1
      have hs'' : FullDao.step tokenStaked tokenStakedNow decodeChild (s1.dao 0) env (.single 3 (.execute 1 false)) =
        .ok (w.dao 0, out.dao) := hs'
      rw [hs''] at g1
      simp only [Except.ok.injEq, Prod.mk.injEq] at g1
      obtain ⟨hy, rfl⟩ := g1
      rw [← hy, hst1, g2, hst0] at g3
      obtain ⟨n, hn1, hn2⟩ := one_msg g3
      exact ⟨s1, b1, before, env, n, _, h1, hhb, hb, hadm.1, hadm.2, .single hg (hnow 3 _ hg) hp (Or.inr h3) h4 hdec
        (by simp [h2]) hpause hen hn1, hn2⟩
    | multi hc' => cases hc'
    | condorcet hc' => cases hc'

/-- **C134.** A history which meets everything `C134_command` asks for, with a chain of two orders. -/
theorem C134_example_command : ∃ (w : World T') (b : Block) (log : List (Event T' F' D')) (e : Env) (n : Nat)
    (k : FullDao.Call Block TokenStaked.Call),
    Init U' ⟨1, 1⟩ w0 ∧ theSys.Run w0 ⟨1, 1⟩ log w b ∧ Sound U' N' reading log ∧ b.le e.block ∧
    Command reading w 2 [.other 9] 0 200 [0, 1] ∧
    Spec.Treasury.Resolved (U' 0) (w.dao 0) (daoLog reading 0 log) e [n] k ∧ decodeChild n = .other 200 := by
  obtain ⟨w, b, log, e, n, k, h1, h2, h3, h4, _, h5, h6⟩ := ready_of (j := 200) (by decide +kernel)
  exact ⟨w, b, log, e, n, k, init, h1, h2, h3, .through (n' := 201) h4.1 rfl (.last h4.2 rfl), h5, h6⟩

/-- **C134.** Likewise for `C134_reforms`. The last DAO is paused. -/
theorem C134_example_reforms : ∃ (w : World T') (b : Block) (log : List (Event T' F' D')) (e : Env) (n : Nat)
    (k : FullDao.Call Block TokenStaked.Call) (s : DaoCore.State) (subs : List DaoCore.Sub),
    Init U' ⟨1, 1⟩ w0 ∧ theSys.Run w0 ⟨1, 1⟩ log w b ∧ Sound U' N' reading log ∧ b.le e.block ∧
    Command reading w 2 [.toSelf (.setItem 5 6)] 0 210 [0, 1] ∧
    Spec.Treasury.Resolved (U' 0) (w.dao 0) (daoLog reading 0 log) e [n] k ∧ decodeChild n = .other 210 ∧
    DaoCore.execute (w.dao 2).core.core (FullDao.coreEnv e) (w.dao 2).core.core.me (.setItem 5 6) = .ok (s, subs) ∧
    DaoCore.isPaused (w.dao 2).core.core e.block = true := by
  obtain ⟨w, b, log, e, n, k, h1, h2, h3, h4, h7, h5, h6⟩ := ready_of (j := 210) (by decide +kernel)
  refine ⟨w, b, log, e, n, k, { (w.dao 2).core.core with items := (w.dao 2).core.core.items.set 5 6 }, [], init, h1, h2, h3,
    .through (n' := 211) h4.1 rfl (.last h4.2 rfl), h5, h6, ?_, h7⟩
  simp only [DaoCore.execute, DaoCore.dispatch, DaoCore.setItem, require, decide_true, Bool.or_true, Bool.true_or, if_true, ok_bind]

/-- **C134.** A state in which `C134_unpause` applies. -/
theorem C134_example_unpause : ∃ (w : World T') (b : Block) (log : List (Event T' F' D')) (rest : List DaoCore.Sub),
    Init U' ⟨1, 1⟩ w0 ∧ theSys.Run w0 ⟨1, 1⟩ log w b ∧ Admin w 1 2 ∧ (w.dao 1).core.stack = .send (.other 221) :: rest ∧
    reading 1 221 = some (2, .unpause) ∧ DaoCore.isPaused (w.dao 2).core.core b = true := by
  obtain ⟨w, b, log, hr, hp⟩ := Sys.check_run (M := theSys) (s := w0) (b := ⟨1, 1⟩) (cs := start 220 ++ [(env 9 99, .pass 0)])
    (p := fun w b _ => decide (Admin w 1 2) && only 221 (w.dao 1).core.stack &&
      decide (DaoCore.isPaused (w.dao 2).core.core b = true)) (by decide +kernel)
  simp only [Bool.and_eq_true, decide_eq_true_eq] at hp
  exact ⟨w, b, log, [], init, hr, hp.1.1, only_eq hp.1.2, rfl, hp.2⟩

end Verif.DaoNet.Example
