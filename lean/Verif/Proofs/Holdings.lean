import Verif.Spec.Holdings
import Verif.Proofs.FullDao
import Verif.Props.OwnedDaoContracts
/-! The sides of a history of a DAO with all its modules and contracts. -/

namespace Verif.FullDao
open Verif Verif.Spec
open Verif.WholeDao (VotingModule)
open Verif.WholeCondorcet (Now)

variable {S E C O : Type} {V : VotingModule S E C O} {N : Now S} {decode : Nat → DaoCore.CosmosMsg}

theorem full_stack_step {w w' : World S} {e : Env} {c : Call E C} {out : Out} (h : step V N decode w e c = .ok (w', out)) :
    w'.core.core.me = w.core.core.me ∧ ∀ d ∈ w'.core.stack, d ∈ out.core ∨ d ∈ w.core.stack := by
  obtain ⟨_, _, hp⟩ := effect h
  cases hp with
  | none hc => rw [hc]; exact ⟨rfl, fun d hd => Or.inr hd⟩
  | core c _ _ hs => exact WholeDao.stack_core hs
  | vote _ _ _ hc => rw [hc]; exact ⟨rfl, fun d hd => Or.inr hd⟩

theorem full_me_run {w0 w : World S} {b0 b : Block} {log : List (Event S E C)} (h : (sys V N decode).Run w0 b0 log w b) :
    w.core.core.me = w0.core.core.me := by
  induction h with
  | refl => rfl
  | step hr hb hs ih => rw [me_same (N := N) hs, ih]

/-- What is on the list of a DAO was there in the beginning or came out of a call. -/
theorem full_waiting {w0 w : World S} {b0 b : Block} {log : List (Event S E C)} (h : (sys V N decode).Run w0 b0 log w b) :
    ∀ d ∈ w.core.stack, d ∈ w0.core.stack ∨ ∃ e ∈ log, d ∈ e.out.core := by
  induction h with
  | refl => exact fun d hd => Or.inl hd
  | step hr hb hs ih =>
    intro d hd
    rcases (full_stack_step (N := N) hs).2 d hd with h1 | h1
    · exact Or.inr ⟨_, List.mem_cons_self, h1⟩
    · rcases ih d h1 with h2 | ⟨e, he, h2⟩
      · exact Or.inl h2
      · exact Or.inr ⟨e, List.mem_cons_of_mem _ he, h2⟩

end Verif.FullDao

namespace Verif.Holdings
open Verif Verif.Spec Verif.Spec.Holdings
open Verif.WholeDao (VotingModule)
open Verif.WholeCondorcet (Now)
open Verif.FullDao (Env)
open Verif.Spec.Owners (Said)

variable {T F D P I : Type} [DecidableEq I] {kind : I → Kind} {U : VotingModule T F D P} {N : Now T}
  {decode : Nat → DaoCore.CosmosMsg} {m : Mail kind}

theorem dao_effect {w w' : World T kind} {e : Env} {c : FullDao.Call F D} {out : Out kind}
    (h : step U N decode m w e (.dao c) = .ok (w', out)) :
    daoAlone m w.dao.core.stack c = true ∧ FullDao.step U N decode w.dao e c = .ok (w'.dao, out.dao) ∧ w'.its = w.its ∧
    ∀ i, out.its i = none := by
  simp only [step, bind_ok, require_ok, Prod.exists, Except.ok.injEq, Prod.mk.injEq] at h
  obtain ⟨_, h1, p, o, h2, rfl, rfl⟩ := h
  exact ⟨h1, h2, rfl, fun _ => rfl⟩

theorem it_effect {w w' : World T kind} {e : Env} {i : I} {g : (kind i).View} {k : (kind i).Call} {out : Out kind}
    (h : step U N decode m w e (.it i g k) = .ok (w', out)) :
    (kind i).contract.sys.block g = e.block ∧ (kind i).contract.caller g k ≠ some w.dao.core.core.me ∧
    ∃ r, (kind i).contract.sys.step (w.its i) g k = .ok (w'.its i, r) ∧ w'.dao = w.dao ∧ out.dao = silent ∧
      out.its i = some r ∧ ∀ j, j ≠ i → w'.its j = w.its j ∧ out.its j = none := by
  simp only [step, bind_ok, require_ok, Prod.exists, Except.ok.injEq, Prod.mk.injEq, Bool.and_eq_true, decide_eq_true_eq] at h
  obtain ⟨_, ⟨h1, h1'⟩, p, o, h2, rfl, rfl⟩ := h
  refine ⟨h1, h1', o, ?_, rfl, rfl, by simp, fun j hj => ?_⟩
  · rw [h2]; simp
  · simp [Function.update_of_ne hj]

theorem pass_effect {w w' : World T kind} {e : Env} {i : I} {g : (kind i).View} {out : Out kind}
    (h : step U N decode m w e (.pass i g) = .ok (w', out)) :
    ∃ k r, nextFor m i w.dao.core.stack = some k ∧ (kind i).contract.sys.block g = e.block ∧
      (kind i).contract.caller g k = some w.dao.core.core.me ∧
      FullDao.step U N decode w.dao e (.core (.deliver ⟨0, []⟩)) = .ok (w'.dao, out.dao) ∧
      (kind i).contract.sys.step (w.its i) g k = .ok (w'.its i, r) ∧ out.its i = some r ∧
      ∀ j, j ≠ i → w'.its j = w.its j ∧ out.its j = none := by
  simp only [step, bind_ok, require_ok, orErr_ok, Prod.exists, Except.ok.injEq, Prod.mk.injEq, Bool.and_eq_true,
    decide_eq_true_eq] at h
  obtain ⟨k, h1, _, ⟨h2, h3⟩, p, o, h4, q, o', h5, rfl, rfl⟩ := h
  refine ⟨k, o', h1, h2, h3, h4, ?_, by simp, fun j hj => ?_⟩
  · rw [h5]; simp
  · simp [Function.update_of_ne hj]

theorem nextFor_mem {i : I} {l : List DaoCore.Sub} {k : (kind i).Call} (h : nextFor m i l = some k) :
    ∃ n rest, l = .send (.other n) :: rest ∧ m.dest n = some i ∧ m.read i n = some k := by
  unfold nextFor at h
  split at h
  · split at h
    · rename_i hd
      exact ⟨_, _, rfl, hd, h⟩
    · cases h
  · cases h

/-! ### Each kind of contract -/

/-- The calls of `UpdateOwnership`. -/
def tells : (k : Kind) → k.View → k.Call → Option Said
  | .vesting => Owners.Vest.tells
  | .issuer => Owners.TokenIssuer.tells
  | .rewards => Owners.Rewards.tells
  | .stake => Owners.Stake.tells
  | .distributor => Owners.Distributor.tells
  | .external => Owners.External.tells
  | .payroll => Owners.Payroll.tells
  | .roles => Owners.Role.tells

theorem kind_owned (k : Kind) : Owners.Owned k.contract.sys (own k) (tells k) := by
  cases k
  · exact Owners.Vest.owned
  · exact Owners.TokenIssuer.owned
  · exact Owners.Rewards.owned
  · exact Owners.Stake.owned
  · exact Owners.Distributor.owned
  · exact Owners.External.owned
  · exact Owners.Payroll.owned
  · exact Owners.Role.owned

theorem ne_accept {x : OwnerAction} (h : x ≠ .accept) : (x != .accept) = true := by simpa using h

theorem kind_by (k : Kind) {g : k.View} {c : k.Call} {x : Said} (h : tells k g c = some x) :
    k.contract.caller g c = some x.by_ ∧ (x.action ≠ .accept → givesAway k c = true) := by
  cases k
  · change Owners.Vest.tells g c = some x at h
    unfold Owners.Vest.tells at h
    revert h
    dsimp only [Kind.Call] at c
    split
    · intro h; injection h with h; subst h; exact ⟨rfl, ne_accept⟩
    · intro h; injection h
  · change Owners.TokenIssuer.tells g c = some x at h
    unfold Owners.TokenIssuer.tells at h
    revert h
    dsimp only [Kind.Call] at c
    split
    · intro h; injection h with h; subst h; exact ⟨rfl, ne_accept⟩
    · intro h; injection h
  · change Owners.Rewards.tells g c = some x at h
    unfold Owners.Rewards.tells at h
    revert h
    dsimp only [Kind.Call] at c
    split
    · intro h; injection h with h; subst h; exact ⟨rfl, ne_accept⟩
    · intro h; injection h
  · change Owners.Stake.tells g c = some x at h
    unfold Owners.Stake.tells at h
    revert h
    dsimp only [Kind.Call] at c
    split
    · intro h; injection h with h; subst h; exact ⟨rfl, ne_accept⟩
    · intro h; injection h
  · change Owners.Distributor.tells g c = some x at h
    unfold Owners.Distributor.tells at h
    revert h
    dsimp only [Kind.Call] at c
    split
    · intro h; injection h with h; subst h; exact ⟨rfl, ne_accept⟩
    · intro h; injection h
  · change Owners.External.tells g c = some x at h
    unfold Owners.External.tells at h
    revert h
    dsimp only [Kind.Call] at c
    split
    · intro h; injection h with h; subst h; exact ⟨rfl, ne_accept⟩
    · intro h; injection h
  · change Owners.Payroll.tells g c = some x at h
    unfold Owners.Payroll.tells at h
    revert h
    dsimp only [Kind.Call] at c
    split
    · intro h; injection h with h; subst h; exact ⟨rfl, ne_accept⟩
    · intro h; injection h
  · change Owners.Role.tells g c = some x at h
    unfold Owners.Role.tells at h
    revert h
    dsimp only [Kind.Call] at c
    split
    · intro h; injection h with h; subst h; exact ⟨rfl, ne_accept⟩
    · intro h; injection h

theorem kind_owner (k : Kind) {ev : Ev k.State k.View k.Call k.Result}
    (hs : k.contract.sys.step ev.pre ev.env ev.call = .ok (ev.post, ev.out)) (ho : ownersOnly k ev.call = true) :
    ∀ a, (own k ev.pre).owner = some a → k.contract.caller ev.env ev.call = some a := by
  cases k
  · exact OwnedDao.vesting_owner hs ho
  · exact OwnedDao.issuer_owner hs ho
  · exact OwnedDao.rewards_owner hs ho
  · exact OwnedDao.stake_owner hs ho
  · exact OwnedDao.distributor_owner hs ho
  · exact OwnedDao.external_owner hs ho
  · exact OwnedDao.payroll_owner hs ho
  · exact fun a ha => ha.symm.trans (Roles.exec_owner hs) ▸ rfl

end Verif.Holdings
