import Verif.Props.DaoNet
/-!
# C134: what a DAO above can have done in a DAO below

The members at the top of a chain of command can reform the last DAO: whatever a DAO may do to itself can be ordered.
-/

namespace Verif.DaoNet
open Verif Verif.Spec Verif.Spec.DaoNet
open Verif.WholeDao (VotingModule)
open Verif.WholeCondorcet (Now)
open Verif.Spec.WholeDao (Lawful)
open Verif.FullDao (Env)

variable {I : Type} [DecidableEq I] [Fintype I] {T F D P : I → Type} {U : ∀ i, VotingModule (T i) (F i) (D i) (P i)}
  {N : ∀ i, Now (T i)} {decode : I → Nat → DaoCore.CosmosMsg} {r : Reading I}

/-- **C134.** The members at the top can reform the last DAO: if they decide that it is to do something to itself, such as
replacing its proposal modules, its voting module or its configuration, and the DAO could do so, then this is done, also if the
last DAO is paused; and nobody else has more or less to send than before. -/
theorem C134_reforms (hU : ∀ i, Lawful (U i)) {w0 w : World T} {b0 b : Block} {log : List (Event T F D)} (hi : Init U b0 w0)
    (h : (sys U N decode r).Run w0 b0 log w b) (hsound : Sound U N r log) {e : Env} (hb : b.le e.block) {i j : I}
    {m : DaoCore.Msg} {n : Nat} {path : List I} (hc : Command r w i [.toSelf m] j n path)
    -- the decision
    {p : Nat} {c : FullDao.Call (F j) (D j)} (hp : Spec.Treasury.Resolved (U j) (w.dao j) (daoLog r j log) e [p] c)
    (hn : decode j p = .other n)
    -- the last DAO could do it
    {s : DaoCore.State} {subs : List DaoCore.Sub}
    (hm : DaoCore.execute (w.dao i).core.core (FullDao.coreEnv e) (w.dao i).core.core.me m = .ok (s, subs)) :
    ∃ w' log', (sys U N decode r).Run w b log' w' e.block ∧
      log'.map (fun ev => (ev.env, ev.call)) = (e, .dao i (.core (.deliver ⟨0, []⟩))) ::
        (path.map (fun x => (e, Call.pass x))).reverse ++ [(e, .dao j c)] ∧
      (w'.dao i).core.core = s ∧ (w'.dao i).core.stack = subs ++ (w.dao i).core.stack ∧
      ∀ x, x ≠ i → (w'.dao x).core = (w.dao x).core := by
  obtain ⟨w1, log1, h1, h2, h3⟩ := C134_command hU hi h hsound hb hc hp hn
  have hi1 := (h3 i).1
  have hst : (w1.dao i).core.stack = .send (.toSelf m) :: (w.dao i).core.stack := by
    rw [(h3 i).2]; simp
  have h4 : FullDao.step (U i) (N i) (decode i) (w1.dao i) e (.core (.deliver ⟨0, []⟩)) =
      .ok ({ w1.dao i with core := ⟨s, subs ++ (w.dao i).core.stack⟩ }, ⟨.none, subs⟩) := by
    simp only [FullDao.step, FullDao.notByModule, require, if_true, ok_bind, DaoCore.step, hst, hi1, hm]
  have hnext : next r i (w1.dao i).core.stack = none := by rw [hst]; rfl
  have h5 : (sys U N decode r).step w1 e (.dao i (.core (.deliver ⟨0, []⟩))) =
      .ok (⟨Function.update w1.dao i { w1.dao i with core := ⟨s, subs ++ (w.dao i).core.stack⟩ }⟩, ⟨⟨.none, subs⟩, silent⟩) := by
    simp only [sys, step, alone, hnext, Option.isNone_none, require, if_true, ok_bind, h4]
  refine ⟨_, _, Sys.Run.step (M := sys U N decode r) (env := e) (call := .dao i (.core (.deliver ⟨0, []⟩))) h1
    (Block.le_refl _) h5, ?_, ?_, ?_, ?_⟩
  · simp only [List.map_cons, h2, List.cons_append]
  · simp only [Function.update_self]
  · simp only [Function.update_self]
  · intro x hx
    simp only [Function.update_of_ne hx]
    have g1 := (h3 x).1
    have g2 := (h3 x).2
    rw [if_neg hx, List.nil_append] at g2
    cases hw : (w1.dao x).core with
    | mk cc ss =>
      rw [hw] at g1 g2
      simp only at g1 g2
      rw [g1, g2]

/-- **C134.** An admin can end the pause of its SubDAO: if that is the next it sends, the SubDAO is not paused afterwards, in any
block. Nothing else changes in the core of any DAO. -/
theorem C134_unpause {w0 w : World T} {b0 b : Block} {log : List (Event T F D)} (hi : Init U b0 w0)
    (h : (sys U N decode r).Run w0 b0 log w b) {j i : I} (ha : Admin w j i) {n : Nat} {rest : List DaoCore.Sub}
    (hs : (w.dao j).core.stack = .send (.other n) :: rest) (hn : r j n = some (i, .unpause)) (e : Env) :
    ∃ w' out, (sys U N decode r).step w e (.pass j) = .ok (w', out) ∧
      (∀ b', DaoCore.isPaused (w'.dao i).core.core b' = false) ∧
      (w'.dao i).core.core = { (w.dao i).core.core with paused := none } ∧
      (∀ x, x ≠ i → (w'.dao x).core.core = (w.dao x).core.core) ∧
      ∀ x, (w'.dao x).core.stack = if x = j then rest else (w.dao x).core.stack := by
  obtain ⟨hji, hadm⟩ := ha
  have h3 := net_outsider hi h i j
  have hne : (w.dao j).core.core.me ≠ (w.dao i).core.core.me := by
    rw [net_me h j, net_me h i]; exact hi.2 j i hji
  have h1 : FullDao.step (U j) (N j) (decode j) (w.dao j) e (.core (.deliver ⟨0, []⟩)) =
      .ok ({ w.dao j with core := ⟨(w.dao j).core.core, rest⟩ }, ⟨.none, []⟩) := by
    simp only [FullDao.step, FullDao.notByModule, require, if_true, ok_bind, DaoCore.step, hs]
  have h2 : FullDao.step (U i) (N i) (decode i) (w.dao i) e (.core (.call (w.dao j).core.core.me .unpause)) =
      .ok ({ w.dao i with core := ⟨{ (w.dao i).core.core with paused := none }, (w.dao i).core.stack⟩ }, ⟨.none, []⟩) := by
    simp only [FullDao.step, FullDao.notByModule, require, if_true, ok_bind, DaoCore.step, h3,
      Option.isNone_none, DaoCore.execute, DaoCore.dispatch, DaoCore.unpause, hadm, decide_true, Bool.or_true, hne, ne_eq,
      not_false_eq_true, List.nil_append]
  have hnext : next r j (w.dao j).core.stack = some (i, .unpause) := by rw [hs]; exact hn
  refine ⟨⟨Function.update (Function.update w.dao j { w.dao j with core := ⟨(w.dao j).core.core, rest⟩ }) i
      { w.dao i with core := ⟨{ (w.dao i).core.core with paused := none }, (w.dao i).core.stack⟩ }⟩,
    ⟨⟨.none, []⟩, ⟨.none, []⟩⟩, ?_, ?_, ?_, ?_, ?_⟩
  · simp only [sys, step, hnext, orErr, ok_bind, Ne.symm hji, ne_eq, not_false_eq_true, decide_true, require, if_true, h1, h2]
  · intro b'
    simp only [Function.update_self, DaoCore.isPaused]
  · simp only [Function.update_self]
  · intro x hx
    by_cases hxj : x = j
    · subst hxj
      simp only [Function.update_of_ne hx, Function.update_self]
    · simp only [Function.update_of_ne hx, Function.update_of_ne hxj]
  · intro x
    by_cases hx : x = i
    · subst hx
      simp only [Function.update_self, if_neg (Ne.symm hji)]
    · by_cases hxj : x = j
      · subst hxj
        simp only [Function.update_of_ne hx, Function.update_self, if_true]
      · simp only [Function.update_of_ne hx, Function.update_of_ne hxj, if_neg hxj]

end Verif.DaoNet
