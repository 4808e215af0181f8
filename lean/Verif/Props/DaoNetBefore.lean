import Verif.Props.DaoNetExample
/-!
# C134: authority comes first

Whatever is carried out in the name of a DAO, it was authorised by what had happened until then.
-/

namespace Verif.DaoNet
open Verif Verif.Spec Verif.Spec.DaoNet
open Verif.WholeDao (VotingModule)
open Verif.WholeCondorcet (Now)
open Verif.Spec.WholeDao (Lawful)
open Verif.FullDao (Env)

variable {I : Type} [DecidableEq I] [Fintype I] {T F D P : I → Type} {U : ∀ i, VotingModule (T i) (F i) (D i) (P i)}
  {N : ∀ i, Now (T i)} {decode : I → Nat → DaoCore.CosmosMsg} {r : Reading I}

/-- **C134.** Authority comes first: when a message of a DAO is carried out, or passed on to another DAO, then the decisions it goes
back to were made, and the orders it goes back to were given, before. -/
theorem C134_before (hU : ∀ i, Lawful (U i)) {w0 w : World T} {b0 b : Block} {later before : List (Event T F D)} {e : Event T F D}
    (hi : Init U b0 w0) (h : (sys U N decode r).Run w0 b0 (later ++ e :: before) w b) (hs : Sound U N r (later ++ e :: before))
    {i : I} {v : FullDao.Event (T i) (F i) (D i)} (hv : daoEvent r i e = some v) {x : DaoCore.Created}
    (hx : v.call = .core (.deliver x)) {d : DaoCore.Sub} {rest : List DaoCore.Sub} (hd : v.pre.core.stack = d :: rest) :
    Authorised U decode r (fun i => (w0.dao i).core.stack) before i d := by
  have hpre : v.pre = e.pre.dao i := by
    unfold daoEvent at hv
    split at hv
    · split at hv
      · injection hv with hv; rw [← hv]
      · cases hv
    · split at hv
      · injection hv with hv; rw [← hv]
      · split at hv
        · split at hv
          · injection hv with hv; rw [← hv]
          · cases hv
        · cases hv
  have hsub : Sound U N r before := by
    clear h hd hx hv hpre
    induction later with
    | nil => exact sound_tail hs
    | cons a l ih => exact ih (sound_tail hs)
  have hrun : ∃ b1, (sys U N decode r).Run w0 b0 before e.pre b1 := by
    clear hd hx hv hpre hs hsub
    induction later generalizing w b with
    | nil => cases h with | step hr _ _ => exact ⟨_, hr⟩
    | cons a l ih => cases h with | step hr _ _ => exact ih hr
  obtain ⟨b1, hrun⟩ := hrun
  rw [hpre] at hd
  exact (net_authorised hU hi hrun hsub).1 i d (by rw [hd]; exact List.mem_cons_self)

/-- **C134.** If all voting modules are staking modules, or others that answer for the height when asked without one, the totals are as
assumed. -/
theorem C134_sound (hN : ∀ i, Spec.WholeCondorcet.AnswersNow (U i) (N i)) {w0 w : World T} {b0 b : Block}
    {log : List (Event T F D)} (hi : Init U b0 w0) (h : (sys U N decode r).Run w0 b0 log w b)
    (hs : ∀ i, Spec.FullDao.Steady (daoLog r i log) ∧ Spec.SubDao.OwnModules (daoLog r i log)) : Sound U N r log := by
  intro i
  obtain ⟨b1, h1, _⟩ := C134_dao h i
  exact ⟨(hs i).1, FullDao.C95_totals (hN i) ⟨_, _, hi.1 i, h1⟩, (hs i).2⟩

end Verif.DaoNet

namespace Verif.DaoNet.Example
open Verif Verif.Spec Verif.Spec.DaoNet Verif.DaoNet
open Verif.FullDao (Env)

/-- DAO 101 carries out message `k` in the event. -/
def carries (k : Nat) (e : Event T' F' D') : Bool :=
  match daoEvent reading 2 e with
  | some ⟨pre, _, .core (.deliver _), _, _⟩ => (match pre.core.stack with | .send (.other n) :: _ => decide (n = k) | _ => false)
  | _ => false

/-- **C134.** In the history of `C134_example` DAO 101 carries out the message that the members of DAO 1 decided on. -/
theorem C134_example_before : ∃ (w : World T') (b : Block) (later before : List (Event T' F' D')) (e : Event T' F' D')
    (v : FullDao.Event (T' 2) (F' 2) (D' 2)) (x : DaoCore.Created) (rest : List DaoCore.Sub),
    Init U' ⟨1, 1⟩ w0 ∧ theSys.Run w0 ⟨1, 1⟩ (later ++ e :: before) w b ∧ Sound U' N' reading (later ++ e :: before) ∧
    daoEvent reading 2 e = some v ∧ v.call = .core (.deliver x) ∧ v.pre.core.stack = .send (.other 9) :: rest := by
  obtain ⟨w, b, log, hr, hp⟩ := Sys.check_run (M := theSys) (s := w0) (b := ⟨1, 1⟩) (cs := calls)
    (p := fun _ _ log => fineAll log && log.any (carries 9)) (by decide +kernel)
  simp only [Bool.and_eq_true] at hp
  obtain ⟨h1, h2⟩ := hp
  obtain ⟨e, he, h3⟩ := List.any_eq_true.1 h2
  obtain ⟨later, before, rfl⟩ := List.append_of_mem he
  clear h2
  unfold carries at h3
  split at h3
  · rename_i pre env x o post hev
    split at h3
    · rename_i n rest hst
      have := of_decide_eq_true h3
      subst this
      exact ⟨w, b, later, before, e, _, x, rest, init, hr, fine_sound hr h1, hev, rfl, hst⟩
    · cases h3
  · cases h3

end Verif.DaoNet.Example
