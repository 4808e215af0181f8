import Verif.Props.SubDao
import Verif.Spec.Federation
/-!
# C136: a DAO that is a member of other DAOs votes there as its own members decide
-/

namespace Verif.Federation
open Verif Verif.Voting Verif.Spec Verif.Spec.Federation
open Verif.Spec.FullDao (singleBallot lastSingle multiBallot lastMulti rankings)
open Verif.WholeDao (VotingModule)
open Verif.WholeCondorcet (Now)
open Verif.Spec.WholeDao (Lawful)
open Verif.FullDao (Env)

variable {I : Type} [DecidableEq I] [Fintype I] {T F D P : I → Type} {U : ∀ i, VotingModule (T i) (F i) (D i) (P i)}
  {N : ∀ i, Now (T i)} {decode : I → Nat → DaoCore.CosmosMsg} {r : Reading I}

theorem isDao_iff {w : World T} {a : Addr} : w.isDao a = true ↔ ∃ i, (w.dao i).core.core.me = a := by
  simp [World.isDao]

theorem fed_dao {w w' : World T} {e : Env} {i : I} {c : FullDao.Call (F i) (D i)} {o : Out}
    (h : step U N decode r w e (.dao i c) = .ok (w', o)) :
    alone r i w.isDao e.sender (w.dao i).core.stack c = true ∧
    FullDao.step (U i) (N i) (decode i) (w.dao i) e c = .ok (w'.dao i, o.dao) ∧ (∀ j, j ≠ i → w'.dao j = w.dao j) ∧
    o.told = silent := by
  simp only [step, bind_ok, require_ok, Prod.exists, Except.ok.injEq, Prod.mk.injEq] at h
  obtain ⟨_, h0, q, o', h1, rfl, rfl⟩ := h
  exact ⟨h0, by simpa using h1, fun j hj => by simp [Function.update_of_ne hj], rfl⟩

theorem fed_pass {w w' : World T} {e : Env} {i : I} {o : Out}
    (h : step U N decode r w e (.pass i : Call F D) = .ok (w', o)) :
    ∃ j m, next r i (w.dao i).core.stack = some (j, m) ∧ j ≠ i ∧
      FullDao.step (U i) (N i) (decode i) (w.dao i) e (.core (.deliver ⟨0, []⟩)) = .ok (w'.dao i, o.dao) ∧
      FullDao.step (U j) (N j) (decode j) (w.dao j) { e with sender := (w.dao i).core.core.me }
        (m.call (w.dao i).core.core.me) = .ok (w'.dao j, o.told) ∧
      ∀ k, k ≠ i → k ≠ j → w'.dao k = w.dao k := by
  simp only [step, bind_ok, require_ok, orErr_ok, Prod.exists, Except.ok.injEq, Prod.mk.injEq, decide_eq_true_eq] at h
  obtain ⟨j, m, hk, _, h0, p, o', h1, q, o2, h2, rfl, rfl⟩ := h
  refine ⟨j, m, hk, h0, ?_, by simpa using h2, fun k hk hj => by simp [Function.update_of_ne hj, Function.update_of_ne hk]⟩
  simp only [Function.update_of_ne (Ne.symm h0), Function.update_self]
  exact h1

/-- What an event does to each DAO: nothing, or a step of that DAO. -/
theorem fed_each {w w' : World T} {e : Env} {c : Call F D} {o : Out} (h : step U N decode r w e c = .ok (w', o)) (i : I) :
    (daoEvent r i ⟨w, e, c, o, w'⟩ = none ∧ w'.dao i = w.dao i) ∨
    ∃ e' k x, daoEvent r i ⟨w, e, c, o, w'⟩ = some ⟨w.dao i, e', k, x, w'.dao i⟩ ∧ e'.block = e.block ∧
      FullDao.step (U i) (N i) (decode i) (w.dao i) e' k = .ok (w'.dao i, x) := by
  cases c with
  | dao j c =>
    obtain ⟨_, h1, h2, _⟩ := fed_dao h
    by_cases hj : j = i
    · subst hj
      exact Or.inr ⟨e, c, o.dao, by simp only [daoEvent, dite_true], rfl, h1⟩
    · exact Or.inl ⟨by simp only [daoEvent, dif_neg hj], h2 i (Ne.symm hj)⟩
  | pass j =>
    obtain ⟨k, m, h0, hne, h1, h2, h3⟩ := fed_pass h
    by_cases hj : j = i
    · subst hj
      exact Or.inr ⟨e, _, o.dao, by simp only [daoEvent, if_true], rfl, h1⟩
    · by_cases hk : k = i
      · subst hk
        exact Or.inr ⟨{ e with sender := (w.dao j).core.core.me }, m.call (w.dao j).core.core.me, o.told,
          by simp only [daoEvent, if_neg hj, h0, if_true], rfl, h2⟩
      · exact Or.inl ⟨by simp only [daoEvent, if_neg hj, h0, if_neg hk], h3 i (Ne.symm hj) (Ne.symm hk)⟩

/-- **C136.** Seen from each DAO, a history of the federation is a history of a DAO as in C95. -/
theorem C136_dao {w0 w : World T} {b0 b : Block} {log : List (Event T F D)} (h : (sys U N decode r).Run w0 b0 log w b) (i : I) :
    ∃ b1, (FullDao.sys (U i) (N i) (decode i)).Run (w0.dao i) b0 (daoLog r i log) (w.dao i) b1 ∧ b1.le b := by
  induction h with
  | refl => exact ⟨_, .refl, Block.le_refl _⟩
  | @step s1 s2 b3 log env call out hr hb3 hs ih =>
    obtain ⟨b1, h1, h2⟩ := ih
    have h3 : b1.le env.block := Block.le_trans h2 hb3
    rcases fed_each hs i with ⟨h4, h5⟩ | ⟨e', k, x, h4, h6, h5⟩
    · refine ⟨b1, ?_, h3⟩
      simp only [daoLog, List.filterMap_cons_none h4]
      rw [h5]; exact h1
    · refine ⟨e'.block, ?_, by rw [h6]; exact Block.le_refl _⟩
      simp only [daoLog, List.filterMap_cons_some h4]
      exact .step (M := FullDao.sys (U i) (N i) (decode i)) (env := e') (call := k) h1 (show b1.le e'.block by rw [h6]; exact h3) h5

theorem fed_me {w0 w : World T} {b0 b : Block} {log : List (Event T F D)} (h : (sys U N decode r).Run w0 b0 log w b) (i : I) :
    (w.dao i).core.core.me = (w0.dao i).core.core.me := by
  obtain ⟨_, h1, _⟩ := C136_dao h i
  exact SubDao.me_run h1

theorem next_of {i j : I} {m : Order} {stack : List DaoCore.Sub} (h : next r i stack = some (j, m)) :
    ∃ n, .send (.other n) ∈ stack ∧ r i n = some (j, m) := by
  unfold next at h
  split at h
  · exact ⟨_, List.mem_cons_self, h⟩
  · cases h

/-- **C136.** Whatever a DAO without an outside admin says to another DAO, to its core or to a proposal module, goes back to its
founding or to proposals its own members have decided for; nobody else can speak in its name. -/
theorem C136_speaks (hU : ∀ i, Lawful (U i)) {w0 w : World T} {b0 b : Block} {log : List (Event T F D)} (hi : Init U b0 w0)
    (h : (sys U N decode r).Run w0 b0 log w b) {i j : I} (hij : i ≠ j) (hf : Free U N r log j)
    {ev : FullDao.Event (T i) (F i) (D i)} (hev : ev ∈ daoLog r i log) {m : Order} (hm : Heard ev (w.dao j).core.core.me m) :
    Resolved U decode r w0 log j i m := by
  obtain ⟨e, he, hx⟩ := List.mem_filterMap.1 hev
  obtain ⟨before, later, b1, hl, h1, _, hstep, _⟩ := h.event e he
  have hme : (w.dao j).core.core.me = (e.pre.dao j).core.core.me := by rw [fed_me h j, fed_me h1 j]
  rw [hme] at hm
  obtain ⟨pre, env, call, out, post⟩ := e
  simp only at h1 hm hstep
  have hdao := isDao_iff.2 ⟨j, (rfl : (pre.dao j).core.core.me = _)⟩
  cases call with
  | dao q c =>
    exfalso
    by_cases hq : q = i
    · subst hq
      obtain ⟨hal, _⟩ := fed_dao hstep
      simp only [daoEvent, dite_true, Option.some.injEq] at hx
      subst hx
      cases m with
      | core m =>
        simp only [Heard] at hm
        subst hm
        simp only [alone, hdao] at hal
        cases hal
      | single a c' =>
        obtain ⟨h2, h3⟩ := hm
        simp only at h2 h3
        subst h3
        rw [← h2] at hdao
        simp only [alone, hdao] at hal
        cases hal
      | multi a c' =>
        obtain ⟨h2, h3⟩ := hm
        simp only at h2 h3
        subst h3
        rw [← h2] at hdao
        simp only [alone, hdao] at hal
        cases hal
      | condorcet a c' =>
        obtain ⟨h2, h3⟩ := hm
        simp only at h2 h3
        subst h3
        rw [← h2] at hdao
        simp only [alone, hdao] at hal
        cases hal
    · simp only [daoEvent, dif_neg hq] at hx
      cases hx
  | pass q =>
    obtain ⟨k, m', h0, hne, _, _, _⟩ := fed_pass hstep
    by_cases hq : q = i
    · exfalso
      simp only [daoEvent, if_pos hq, Option.some.injEq] at hx
      subst hx
      cases m with
      | core m => cases hm
      | single a c => cases hm.2
      | multi a c => cases hm.2
      | condorcet a c => cases hm.2
    · by_cases hk : k = i
      · subst hk
        simp only [daoEvent, if_neg hq, h0, if_true, Option.some.injEq] at hx
        subst hx
        have hboth : (pre.dao q).core.core.me = (pre.dao j).core.core.me ∧ m' = m := by
          cases m with
          | core m =>
            simp only [Heard] at hm
            cases m' <;> simp only [Order.call, FullDao.Call.core.injEq, DaoCore.Call.call.injEq, reduceCtorEq] at hm
            exact ⟨hm.1, by rw [hm.2]⟩
          | single a c =>
            simp only [Heard] at hm
            cases m' <;> simp only [Order.call, FullDao.Call.single.injEq, reduceCtorEq, and_false] at hm
            exact ⟨hm.1, by rw [hm.2.1, hm.2.2]⟩
          | multi a c =>
            simp only [Heard] at hm
            cases m' <;> simp only [Order.call, FullDao.Call.multi.injEq, reduceCtorEq, and_false] at hm
            exact ⟨hm.1, by rw [hm.2.1, hm.2.2]⟩
          | condorcet a c =>
            simp only [Heard] at hm
            cases m' <;> simp only [Order.call, FullDao.Call.condorcet.injEq, reduceCtorEq, and_false] at hm
            exact ⟨hm.1, by rw [hm.2.1, hm.2.2]⟩
        obtain ⟨h7, rfl⟩ := hboth
        have hqj : q = j := by
          by_contra hqj
          rw [fed_me h1 q, fed_me h1 j] at h7
          exact hi.2 q j hqj h7
        subst hqj
        obtain ⟨n, hn, hr⟩ := next_of h0
        refine ⟨n, hr, ?_⟩
        obtain ⟨_, h8, _⟩ := C136_dao h1 q
        obtain ⟨_, h9, _⟩ := C136_dao h q
        rcases FullDao.waiting h8 _ hn with h10 | ⟨e', he', h10⟩
        · exact .founding h10
        · refine FullDao.C95_governed (hU q) (hi.1 q) h9 hf.1 hf.2.1 hf.2.2 e' ?_ _ h10
          subst hl
          simp only [daoLog, List.filterMap_append, List.mem_append, List.filterMap_cons]
          right
          split
          · exact he'
          · exact List.mem_cons_of_mem _ he'
      · simp only [daoEvent, if_neg hq, h0, if_neg hk] at hx
        cases hx

/-- **C136.** What a DAO says to another is not lost: whenever its next message is for another DAO, sending it says this to that DAO,
in the name of the sender. -/
theorem C136_not_dropped {w0 w : World T} {b0 b : Block} {log : List (Event T F D)} (h : (sys U N decode r).Run w0 b0 log w b)
    {e : Event T F D} (he : e ∈ log) {j i : I} {n : Nat} {rest : List DaoCore.Sub} {m : Order}
    (hst : (e.pre.dao j).core.stack = .send (.other n) :: rest) (hm : r j n = some (i, m))
    {ev : FullDao.Event (T j) (F j) (D j)} (hev : daoEvent r j e = some ev) {x : DaoCore.Created}
    (hx : ev.call = .core (.deliver x)) :
    ∃ v, daoEvent r i e = some v ∧ Heard v (e.pre.dao j).core.core.me m := by
  obtain ⟨_, _, _, _, _, _, hs, _⟩ := h.event e he
  obtain ⟨pre, env, call, out, post⟩ := e
  simp only at hst
  have hnext : next r j (pre.dao j).core.stack = some (i, m) := by rw [hst]; exact hm
  cases call with
  | dao k c =>
    by_cases hk : k = j
    · subst hk
      simp only [daoEvent, dite_true, Option.some.injEq] at hev
      subst hev
      simp only at hx
      subst hx
      replace hs : step U N decode r pre env (.dao k (.core (.deliver x))) = .ok (post, out) := hs
      have := (fed_dao hs).1
      simp [alone, hnext] at this
    · simp only [daoEvent, dif_neg hk] at hev
      cases hev
  | pass k =>
    replace hs : step U N decode r pre env (.pass k) = .ok (post, out) := hs
    obtain ⟨i', m', h0, hne, _⟩ := fed_pass hs
    by_cases hk : k = j
    · subst hk
      rw [hnext] at h0
      simp only [Option.some.injEq, Prod.mk.injEq] at h0
      obtain ⟨rfl, rfl⟩ := h0
      refine ⟨⟨pre.dao i, { env with sender := (pre.dao k).core.core.me }, m.call (pre.dao k).core.core.me, out.told, post.dao i⟩,
        by simp only [daoEvent, if_neg (Ne.symm hne), hnext, if_true], ?_⟩
      cases m with
      | core m => exact rfl
      | single a c => exact ⟨rfl, rfl⟩
      | multi a c => exact ⟨rfl, rfl⟩
      | condorcet a c => exact ⟨rfl, rfl⟩
    · simp only [daoEvent, if_neg hk, h0] at hev
      split at hev
      · simp only [Option.some.injEq] at hev
        subst hev
        cases m' <;> cases hx
      · cases hev

theorem lastSingle_cast {S E C : Type} {a : Addr} {id : Nat} {x : Addr} {v : Voting.Vote} {log : List (FullDao.Event S E C)}
    (h : lastSingle a id x log = some v) : ∃ e ∈ log, singleBallot a e = some (x, id, v) := by
  induction log with
  | nil => cases h
  | cons e rest ih =>
    simp only [lastSingle] at h
    split at h
    · rename_i x' id' v' hb
      split at h
      · rename_i h2
        injection h with h
        obtain ⟨rfl, rfl⟩ := h2
        subst h
        exact ⟨e, List.mem_cons_self, hb⟩
      · obtain ⟨e', he', h'⟩ := ih h
        exact ⟨e', List.mem_cons_of_mem _ he', h'⟩
    · obtain ⟨e', he', h'⟩ := ih h
      exact ⟨e', List.mem_cons_of_mem _ he', h'⟩

theorem lastMulti_cast {S E C : Type} {a : Addr} {id : Nat} {x : Addr} {v : Nat} {log : List (FullDao.Event S E C)}
    (h : lastMulti a id x log = some v) : ∃ e ∈ log, multiBallot a e = some (x, id, v) := by
  induction log with
  | nil => cases h
  | cons e rest ih =>
    simp only [lastMulti] at h
    split at h
    · rename_i x' id' v' hb
      split at h
      · rename_i h2
        injection h with h
        obtain ⟨rfl, rfl⟩ := h2
        subst h
        exact ⟨e, List.mem_cons_self, hb⟩
      · obtain ⟨e', he', h'⟩ := ih h
        exact ⟨e', List.mem_cons_of_mem _ he', h'⟩
    · obtain ⟨e', he', h'⟩ := ih h
      exact ⟨e', List.mem_cons_of_mem _ he', h'⟩

theorem rankings_cast {S E C : Type} {a : Addr} {id : Nat} {x : Addr} {l : List Nat} {log : List (FullDao.Event S E C)}
    (h : (x, l) ∈ rankings a id log) : ∃ e ∈ log, e.env.sender = x ∧ e.call = .condorcet a (.vote id l) := by
  induction log with
  | nil => cases h
  | cons e rest ih =>
    have old : (x, l) ∈ rankings a id rest → ∃ e' ∈ e :: rest, e'.env.sender = x ∧ e'.call = .condorcet a (.vote id l) := fun h => by
      obtain ⟨e', he', h'⟩ := ih h
      exact ⟨e', List.mem_cons_of_mem _ he', h'⟩
    simp only [rankings] at h
    split at h
    · rename_i a' i' l' hc
      rcases List.mem_append.1 h with h3 | h3
      · exact old h3
      · by_cases h2 : a' = a ∧ i' = id
        · rw [if_pos h2] at h3
          obtain ⟨rfl, rfl⟩ := h2
          simp only [List.mem_singleton, Prod.mk.injEq] at h3
          obtain ⟨rfl, rfl⟩ := h3
          exact ⟨e, List.mem_cons_self, rfl, hc⟩
        · rw [if_neg h2] at h3
          cases h3
    · exact old h

/-- **C136.** What counts as the vote of DAO `j` on a proposal in a module of dao-proposal-single of DAO `i` is what the members of
`j` decided: to vote so, or to make a proposal with this vote. The only other way is a pre-propose module of `i` that hands in a
proposal with a vote in the name of `j`. -/
theorem C136_vote_single (hU : ∀ i, Lawful (U i)) {w0 w : World T} {b0 b : Block} {log : List (Event T F D)} (hi : Init U b0 w0)
    (h : (sys U N decode r).Run w0 b0 log w b) {i j : I} (hij : i ≠ j) (hf : Free U N r log j) {a : Addr} {id : Nat}
    {v : Voting.Vote} (hv : lastSingle a id (w.dao j).core.core.me (daoLog r i log) = some v) :
    (∃ x, Resolved U decode r w0 log j i (.single a (.vote id v x))) ∨
    (∃ c m x z, Resolved U decode r w0 log j i (.single a (.propose none c m (some (v, x)) z))) ∨
    ∃ ev ∈ daoLog r i log, Sponsored ev (w.dao j).core.core.me := by
  obtain ⟨ev, hev, hb⟩ := lastSingle_cast hv
  unfold singleBallot at hb
  split at hb
  · rename_i a' id' v' x s hc _
    split at hb
    · rename_i ha
      simp only [Option.some.injEq, Prod.mk.injEq] at hb
      obtain ⟨h1, rfl, rfl⟩ := hb
      subst ha
      exact Or.inl ⟨x, C136_speaks hU hi h hij hf hev (m := .single _ _) ⟨h1, hc⟩⟩
    · cases hb
  · rename_i a' g c m v' x z s hc _
    split at hb
    · rename_i ha
      simp only [Option.some.injEq, Prod.mk.injEq] at hb
      obtain ⟨h1, _, rfl⟩ := hb
      subst ha
      cases g with
      | none => exact Or.inr (Or.inl ⟨c, m, x, z, C136_speaks hU hi h hij hf hev (m := .single _ _) ⟨h1, hc⟩⟩)
      | some g =>
        simp only [Option.getD_some] at h1
        subst h1
        exact Or.inr (Or.inr ⟨ev, hev, Or.inl ⟨_, _, _, _, _, hc⟩⟩)
    · cases hb
  · cases hb

/-- **C136.** The same in a module of dao-proposal-multiple. -/
theorem C136_vote_multi (hU : ∀ i, Lawful (U i)) {w0 w : World T} {b0 b : Block} {log : List (Event T F D)} (hi : Init U b0 w0)
    (h : (sys U N decode r).Run w0 b0 log w b) {i j : I} (hij : i ≠ j) (hf : Free U N r log j) {a : Addr} {id v : Nat}
    (hv : lastMulti a id (w.dao j).core.core.me (daoLog r i log) = some v) :
    (∃ x, Resolved U decode r w0 log j i (.multi a (.vote id v x))) ∨
    (∃ c m x z, Resolved U decode r w0 log j i (.multi a (.propose none c m (some (v, x)) z))) ∨
    ∃ ev ∈ daoLog r i log, Sponsored ev (w.dao j).core.core.me := by
  obtain ⟨ev, hev, hb⟩ := lastMulti_cast hv
  unfold multiBallot at hb
  split at hb
  · rename_i a' id' v' x s hc _
    split at hb
    · rename_i ha
      simp only [Option.some.injEq, Prod.mk.injEq] at hb
      obtain ⟨h1, rfl, rfl⟩ := hb
      subst ha
      exact Or.inl ⟨x, C136_speaks hU hi h hij hf hev (m := .multi _ _) ⟨h1, hc⟩⟩
    · cases hb
  · rename_i a' g c m v' x z s hc _
    split at hb
    · rename_i ha
      simp only [Option.some.injEq, Prod.mk.injEq] at hb
      obtain ⟨h1, _, rfl⟩ := hb
      subst ha
      cases g with
      | none => exact Or.inr (Or.inl ⟨c, m, x, z, C136_speaks hU hi h hij hf hev (m := .multi _ _) ⟨h1, hc⟩⟩)
      | some g =>
        simp only [Option.getD_some] at h1
        subst h1
        exact Or.inr (Or.inr ⟨ev, hev, Or.inr ⟨_, _, _, _, _, hc⟩⟩)
    · cases hb
  · cases hb

/-- **C136.** The same in a module of dao-proposal-condorcet, where proposals come without a vote. -/
theorem C136_vote_condorcet (hU : ∀ i, Lawful (U i)) {w0 w : World T} {b0 b : Block} {log : List (Event T F D)}
    (hi : Init U b0 w0) (h : (sys U N decode r).Run w0 b0 log w b) {i j : I} (hij : i ≠ j) (hf : Free U N r log j) {a : Addr}
    {id : Nat} {l : List Nat} (hv : ((w.dao j).core.core.me, l) ∈ rankings a id (daoLog r i log)) :
    Resolved U decode r w0 log j i (.condorcet a (.vote id l)) := by
  obtain ⟨ev, hev, h1, h2⟩ := rankings_cast hv
  exact C136_speaks hU hi h hij hf hev (m := .condorcet _ _) ⟨h1, h2⟩

end Verif.Federation
