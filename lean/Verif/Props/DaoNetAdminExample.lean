import Verif.Props.DaoNetAdmin
import Verif.Props.DaoNetExample
/-!
# C135: a DAO joins another and is let go

Nobody is the admin of another DAO in the beginning. The members of DAO 101 decide to nominate DAO 51, and the members of DAO 51
decide to accept. Later the members of DAO 51 decide to let DAO 101 go.
-/

namespace Verif.DaoNet.Example
open Verif Verif.Spec Verif.Spec.DaoNet Verif.DaoNet
open Verif.WholeDao (tokenStaked)
open Verif.WholeCondorcet (C94_token_staked)
open Verif.FullDao (Env)
open Verif.FullDao.Example (vote0 single env)
open Verif.SubDao.Example (core core_init childFine child_steady child_own)

/-- Three DAOs without admins. -/
def v0 : World T' := ⟨fun i => if i = 0 then ⟨core 1 none, [], vote0, 2⟩ else
  if i = 1 then ⟨core 51 none, [], vote0, 52⟩ else ⟨core 101 none, [], vote0, 102⟩⟩

/-- Message 70 of a DAO to itself nominates DAO 51. -/
def dec : Fin 3 → Nat → DaoCore.CosmosMsg := fun _ n => if n = 70 then .toSelf (.nominateAdmin (some 51)) else .other n

/-- Message 300 of DAO 51 accepts to be the admin of DAO 101, and message 301 lets it go. -/
def join : Reading (Fin 3) := fun i n =>
  if i = 1 ∧ n = 300 then some (2, .acceptAdminNomination) else
  if i = 1 ∧ n = 301 then some (2, .nominateAdmin none) else none

abbrev joinSys : Sys (World T') Env (Call F' D') Out := sys U' N' dec join

theorem join_init : Init U' ⟨1, 1⟩ v0 := by
  refine ⟨fun i => ?_, by decide +kernel⟩
  have h : ∀ me admin v, FullDao.Init tokenStaked ⟨1, 1⟩ ⟨core me admin, [], vote0, v⟩ := fun me admin v =>
    ⟨rfl, ⟨⟨1, 1⟩, [], ⟨⟨1, 1⟩, _, core_init _ _, .refl⟩, Block.le_refl _⟩, FullDao.Example.init.2.2⟩
  match i with
  | 0 => exact h 1 none 2
  | 1 => exact h 51 none 52
  | 2 => exact h 101 none 102

/-- Until the nomination is to be delivered. -/
def offering : List Step :=
  [(env 1 99, .dao 1 (.core (.deliver ⟨52, []⟩))),
   (env 1 99, .dao 1 (.spawn 53 single)),
   (env 1 99, .dao 1 (.core (.deliver ⟨53, []⟩))),
   (env 1 99, .dao 2 (.core (.deliver ⟨102, []⟩))),
   (env 1 99, .dao 2 (.spawn 103 single)),
   (env 1 99, .dao 2 (.core (.deliver ⟨103, []⟩))),
   (env 2 10, .dao 1 (.vote ⟨2, 2⟩ (.stake 10 60))),
   (env 2 11, .dao 2 (.vote ⟨2, 2⟩ (.stake 11 40))),
   (env 5 11, .dao 2 (.single 103 (.propose none 0 [70] none true))),
   (env 6 11, .dao 2 (.single 103 (.vote 1 .yes none))),
   (env 7 99, .dao 2 (.single 103 (.execute 1 false)))]

/-- Until the acceptance is to be sent. -/
def accepting : List Step := offering ++
  [(env 7 99, .dao 2 (.core (.deliver ⟨0, []⟩))),
   (env 8 10, .dao 1 (.single 53 (.propose none 0 [300] none true))),
   (env 8 10, .dao 1 (.single 53 (.propose none 0 [301] none true))),
   (env 9 10, .dao 1 (.single 53 (.vote 1 .yes none))),
   (env 9 10, .dao 1 (.single 53 (.vote 2 .yes none))),
   (env 9 99, .dao 1 (.single 53 (.execute 1 false)))]

/-- All of it. -/
def joining : List Step := accepting ++
  [(env 9 99, .pass 1),
   (env 10 99, .dao 1 (.single 53 (.execute 2 false))),
   (env 10 99, .pass 1)]

def joinFine (log : List (Event T' F' D')) : Bool :=
  childFine (daoLog join 0 log) && childFine (daoLog join 1 log) && childFine (daoLog join 2 log)

theorem join_sound {w : World T'} {b : Block} {log : List (Event T' F' D')} (hr : joinSys.Run v0 ⟨1, 1⟩ log w b)
    (hf : joinFine log = true) : Sound U' N' join log := by
  simp only [joinFine, Bool.and_eq_true] at hf
  have hf' : ∀ i, childFine (daoLog join i log) = true := fun i => by
    match i with
    | 0 => exact hf.1.1
    | 1 => exact hf.1.2
    | 2 => exact hf.2
  intro i
  obtain ⟨b1, h1, _⟩ := C134_dao hr i
  exact ⟨child_steady (hf' i), FullDao.C95_totals C94_token_staked.2 ⟨_, _, join_init.1 i, h1⟩, child_own (hf' i)⟩

/-- **C135.** The history: the assumptions of `C135_consent` and `C135_release` are met by two of its events. -/
theorem C135_example : ∃ (w : World T') (b : Block) (log : List (Event T' F' D')),
    Init U' ⟨1, 1⟩ v0 ∧ joinSys.Run v0 ⟨1, 1⟩ log w b ∧ Sound U' N' join log ∧
    (∃ e ∈ log, ¬ Admin e.pre 1 2 ∧ Admin e.post 1 2) ∧ (∃ e ∈ log, Admin e.pre 1 2 ∧ ¬ Admin e.post 1 2) := by
  obtain ⟨w, b, log, hr, hp⟩ := Sys.check_run (M := joinSys) (s := v0) (b := ⟨1, 1⟩) (cs := joining)
    (p := fun _ _ log => joinFine log && (log.any (fun e => decide (¬ Admin e.pre 1 2 ∧ Admin e.post 1 2)) &&
      log.any (fun e => decide (Admin e.pre 1 2 ∧ ¬ Admin e.post 1 2)))) (by decide +kernel)
  simp only [Bool.and_eq_true] at hp
  obtain ⟨h1, h2, h3⟩ := hp
  obtain ⟨e, he, h2⟩ := List.any_eq_true.1 h2
  obtain ⟨e', he', h3⟩ := List.any_eq_true.1 h3
  exact ⟨w, b, log, join_init, hr, join_sound hr h1, ⟨e, he, of_decide_eq_true h2⟩, ⟨e', he', of_decide_eq_true h3⟩⟩

/-- The next message nominates this account. -/
def offers (a : Addr) : List DaoCore.Sub → Bool
  | .send (.toSelf (.nominateAdmin (some x))) :: _ => decide (x = a)
  | _ => false

/-- **C135.** A state in which `C135_offer` applies, and somebody is nominated in another one, as `C135_nominated` assumes. -/
theorem C135_example_offer : (∃ (w : World T') (b : Block) (log : List (Event T' F' D')) (rest : List DaoCore.Sub),
    Init U' ⟨1, 1⟩ v0 ∧ joinSys.Run v0 ⟨1, 1⟩ log w b ∧ (w.dao 2).core.core.admin = (w.dao 2).core.core.me ∧
    (w.dao 2).core.core.nominated = none ∧ (w.dao 2).core.stack = .send (.toSelf (.nominateAdmin (some 51))) :: rest) ∧
    ∃ (w : World T') (b : Block) (log : List (Event T' F' D')), joinSys.Run v0 ⟨1, 1⟩ log w b ∧ Sound U' N' join log ∧
    (w.dao 2).core.core.nominated = some 51 ∧ (v0.dao 2).core.core.nominated = none := by
  constructor
  · obtain ⟨w, b, log, hr, hp⟩ := Sys.check_run (M := joinSys) (s := v0) (b := ⟨1, 1⟩) (cs := offering)
      (p := fun w _ _ => decide ((w.dao 2).core.core.admin = (w.dao 2).core.core.me ∧ (w.dao 2).core.core.nominated = none) &&
        offers 51 (w.dao 2).core.stack) (by decide +kernel)
    simp only [Bool.and_eq_true, decide_eq_true_eq] at hp
    obtain ⟨⟨h1, h2⟩, h3⟩ := hp
    unfold offers at h3
    split at h3
    · rename_i x rest hst
      have := of_decide_eq_true h3
      subst this
      exact ⟨w, b, log, rest, join_init, hr, h1, h2, hst⟩
    · cases h3
  · obtain ⟨w, b, log, hr, hp⟩ := Sys.check_run (M := joinSys) (s := v0) (b := ⟨1, 1⟩) (cs := accepting)
      (p := fun w _ log => joinFine log && decide ((w.dao 2).core.core.nominated = some 51)) (by decide +kernel)
    simp only [Bool.and_eq_true, decide_eq_true_eq] at hp
    exact ⟨w, b, log, hr, join_sound hr hp.1, hp.2, by decide +kernel⟩

/-- **C135.** A state in which `C135_accept` applies. -/
theorem C135_example_accept : ∃ (w : World T') (b : Block) (log : List (Event T' F' D')) (rest : List DaoCore.Sub),
    Init U' ⟨1, 1⟩ v0 ∧ joinSys.Run v0 ⟨1, 1⟩ log w b ∧ (w.dao 2).core.core.nominated = some (w.dao 1).core.core.me ∧
    (w.dao 1).core.stack = .send (.other 300) :: rest ∧ join 1 300 = some (2, .acceptAdminNomination) ∧
    DaoCore.isPaused (w.dao 2).core.core b = false := by
  obtain ⟨w, b, log, hr, hp⟩ := Sys.check_run (M := joinSys) (s := v0) (b := ⟨1, 1⟩) (cs := accepting)
    (p := fun w b _ => decide ((w.dao 2).core.core.nominated = some (w.dao 1).core.core.me) &&
      only 300 (w.dao 1).core.stack && decide (DaoCore.isPaused (w.dao 2).core.core b = false)) (by decide +kernel)
  simp only [Bool.and_eq_true, decide_eq_true_eq] at hp
  obtain ⟨⟨h1, h2⟩, h3⟩ := hp
  exact ⟨w, b, log, [], join_init, hr, h1, only_eq h2, rfl, h3⟩

end Verif.DaoNet.Example
