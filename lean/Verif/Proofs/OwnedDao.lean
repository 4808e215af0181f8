import Verif.Spec.OwnedDao
import Verif.Proofs.VetoDao
/-! The two sides of a history of a DAO and a contract that belongs to it. -/

namespace Verif.OwnedDao
open Verif Verif.Spec Verif.Spec.OwnedDao
open Verif.WholeDao (VotingModule Env)

variable {T A F D P G K R : Type} {U : VotingModule T F D P} {decode : Nat → DaoCore.CosmosMsg} {X : Contract A G K R}
  {toCall : Nat → Option K}

theorem dao_effect {w w' : World T A} {e : Env} {c : WholeDao.Call F D} {out : Out R}
    (h : step U decode X toCall w e (.dao c) = .ok (w', out)) :
    daoAlone toCall w.dao.core.stack c = true ∧ WholeDao.step U decode w.dao e c = .ok (w'.dao, out.dao) ∧ w'.it = w.it ∧
    out.it = none := by
  simp only [step, bind_ok, require_ok, Prod.exists, Except.ok.injEq, Prod.mk.injEq] at h
  obtain ⟨_, h1, p, o, h2, rfl, rfl⟩ := h
  exact ⟨h1, h2, rfl, rfl⟩

theorem it_effect {w w' : World T A} {e : Env} {g : G} {k : K} {out : Out R}
    (h : step U decode X toCall w e (.it g k) = .ok (w', out)) :
    X.sys.block g = e.block ∧ X.caller g k ≠ some w.dao.core.core.me ∧
    ∃ r, X.sys.step w.it g k = .ok (w'.it, r) ∧ w'.dao = w.dao ∧ out.dao = silent ∧ out.it = some r := by
  simp only [step, bind_ok, require_ok, Prod.exists, Except.ok.injEq, Prod.mk.injEq, Bool.and_eq_true, decide_eq_true_eq] at h
  obtain ⟨_, ⟨h1, h1'⟩, p, o, h2, rfl, rfl⟩ := h
  exact ⟨h1, h1', _, h2, rfl, rfl, rfl⟩

theorem pass_effect {w w' : World T A} {e : Env} {g : G} {out : Out R}
    (h : step U decode X toCall w e (.pass g) = .ok (w', out)) :
    ∃ k r, next toCall w.dao.core.stack = some k ∧ X.sys.block g = e.block ∧ X.caller g k = some w.dao.core.core.me ∧
    WholeDao.step U decode w.dao e (.core (.deliver ⟨0, []⟩)) = .ok (w'.dao, out.dao) ∧
    X.sys.step w.it g k = .ok (w'.it, r) ∧ out.it = some r := by
  simp only [step, bind_ok, require_ok, orErr_ok, Prod.exists, Except.ok.injEq, Prod.mk.injEq, Bool.and_eq_true,
    decide_eq_true_eq] at h
  obtain ⟨k, h1, _, ⟨h2, h3⟩, p, o, h4, q, o', h5, rfl, rfl⟩ := h
  exact ⟨k, _, h1, h2, h3, h4, h5, rfl⟩

theorem next_mem {l : List DaoCore.Sub} {k : K} (h : next toCall l = some k) :
    ∃ n rest, l = .send (.other n) :: rest ∧ toCall n = some k := by
  unfold next at h
  split at h
  · exact ⟨_, _, rfl, h⟩
  · cases h

end Verif.OwnedDao
