import Verif.Props.Treasury
import Verif.Props.FullDaoLive
/-! C131: the members of a DAO can always spend what it has. -/

namespace Verif.Treasury
open Verif Verif.Spec.Treasury
open Verif.WholeDao (VotingModule)
open Verif.WholeCondorcet (Now)
open Verif.FullDao (Env)
open Verif.Spec.WholeDao (Lawful)

variable {T F D P : Type} {U : VotingModule T F D P} {N : Now T} {decode : Nat → DaoCore.CosmosMsg} {r : Reading}

theorem runAll_append {l l' : List Op} {c c' : Chain} {b : Block} {who : Addr} :
    c.runAll b who (l ++ l') = .ok c' ↔ ∃ c1, c.runAll b who l = .ok c1 ∧ c1.runAll b who l' = .ok c' := by
  induction l generalizing c with
  | nil => simp [Chain.runAll]
  | cons x l ih =>
    simp only [List.cons_append, Chain.runAll, bind_ok, ih]
    constructor
    · rintro ⟨c1, h1, c2, h2, h3⟩; exact ⟨c2, ⟨c1, h1, h2⟩, h3⟩
    · rintro ⟨c2, ⟨c1, h1, h2⟩, h3⟩; exact ⟨c1, h1, c2, h2, h3⟩

/-- Messages are sent one after the other. -/
theorem sends {js : List Nat} {w : World T} {e : Env} {rest : List DaoCore.Sub}
    (hst : w.dao.core.stack = js.map (fun j => .send (.other j)) ++ rest) {ch : Chain}
    (hrun : w.chain.runAll e.block w.dao.core.core.me (js.flatMap r.ops) = .ok ch) :
    ∃ w' log', (sys U N decode r).Run w e.block log' w' e.block ∧
      log'.map (fun ev => (ev.env, ev.call)) = js.map (fun _ => (e, (.dao (.core (.deliver ⟨0, []⟩)) : Call F D))) ∧
      w'.chain = ch ∧ w'.dao.core.stack = rest ∧ w'.dao.core.core = w.dao.core.core := by
  induction js generalizing w with
  | nil =>
    simp only [List.flatMap_nil, Chain.runAll, Except.ok.injEq] at hrun
    exact ⟨w, [], .refl, rfl, hrun, by simpa using hst, rfl⟩
  | cons j js ih =>
    simp only [List.map_cons, List.cons_append] at hst
    rw [List.flatMap_cons, runAll_append] at hrun
    obtain ⟨c1, h1, h2⟩ := hrun
    have h3 : FullDao.step U N decode w.dao e (.core (.deliver ⟨0, []⟩)) =
        .ok ({ w.dao with core := ⟨w.dao.core.core, js.map (fun j => .send (.other j)) ++ rest⟩ }, ⟨.none, []⟩) := by
      simp only [FullDao.step, FullDao.notByModule, require, if_true, ok_bind, DaoCore.step, hst]
    have h4 : due r w.dao.core.stack (.core (.deliver ⟨0, []⟩) : FullDao.Call F D) = r.ops j := by
      rw [hst]; rfl
    have h5 : (sys U N decode r).step w e (.dao (.core (.deliver ⟨0, []⟩))) =
        .ok (⟨{ w.dao with core := ⟨w.dao.core.core, js.map (fun j => .send (.other j)) ++ rest⟩ }, c1⟩, ⟨.none, []⟩) := by
      simp only [sys, step, h3, ok_bind, h4, h1]
    obtain ⟨w', log', h6, h7, h8, h9, h10⟩ := ih
      (w := ⟨{ w.dao with core := ⟨w.dao.core.core, js.map (fun j => .send (.other j)) ++ rest⟩ }, c1⟩) rfl h2
    refine ⟨w', log' ++ [⟨w, e, .dao (.core (.deliver ⟨0, []⟩)), _, _⟩],
      (show (sys U N decode r).Run w e.block _ _ e.block from
        Sys.Run.step (M := sys U N decode r) (b := e.block) (env := e) (call := .dao (.core (.deliver ⟨0, []⟩))) .refl
        (Block.le_refl _) h5).append h6, ?_, h8, h9, h10⟩
    have hc : ∀ (k : List Nat) (z : Env × Call F D), k.map (fun _ => z) ++ [z] = z :: k.map (fun _ => z) := by
      intro k z
      induction k with
      | nil => rfl
      | cons _ k ih => simp only [List.map_cons, List.cons_append, ih]
    simp only [List.map_append, h7, List.map_cons, List.map_nil, hc]

/-- What is decided can be executed, and its messages come first. -/
theorem resolved_executes (hU : Lawful U) {w : FullDao.World T} {b : Block} {log : List (FullDao.Event T F D)}
    (hreach : (FullDao.sys U N decode).Reach w b log) (hst : Spec.FullDao.Steady log)
    (hto : Spec.FullDao.TotalsOfHeight U N log) {e : Env} {msgs : List Nat} {k : FullDao.Call F D}
    (hp : Resolved U w log e msgs k) :
    (∀ c, k ≠ .core c) ∧ ∃ x o, FullDao.step U N decode w e k = .ok (x, o) ∧
      x.core.stack = msgs.map (fun n => .send (decode n)) ++ w.core.stack := by
  cases hp with
  | single module now proposal waits veto decided member runs enabled same =>
    refine ⟨by simp, ?_⟩
    obtain ⟨x, o, h1, h2, h3⟩ := FullDao.C95_carried_out_single hU hreach hst module now proposal waits veto decided member runs
      enabled
    exact ⟨x, o, h1, by rw [h3, h2, same]⟩
  | multi module now proposal waits veto decided member runs enabled same =>
    refine ⟨by simp, ?_⟩
    obtain ⟨c, x, o, h0, h1, h2, h3⟩ := FullDao.C95_carried_out_multi hU hreach hst hto module now proposal waits veto decided
      member runs enabled
    rw [h0, Option.map_some, Option.some.injEq] at same
    exact ⟨x, o, h1, by rw [h3, h2, same]⟩
  | condorcet module now proposal tally waits decided member runs enabled same =>
    refine ⟨by simp, ?_⟩
    obtain ⟨c, x, o, h0, h1, h2, h3⟩ := FullDao.C95_carried_out_condorcet hU hreach hst hto module now proposal tally waits
      decided member runs enabled
    rw [h0, Option.some.injEq] at same
    exact ⟨x, o, h1, by rw [h3, h2, same]⟩

/-- **C131.** What the members decided in any of the proposal modules to do with the coins and tokens of the DAO can be carried
out, whenever the DAO could do it by itself: the execution, and then the sending of each message, succeed, whoever executes the
proposal, and the coins and tokens are then where they would be. -/
theorem C131_spends (hU : Lawful U) {w0 w : World T} {b0 b : Block} {log : List (Event T F D)}
    (h : History U N decode r w0 w b0 b log) {e : Env} (hb : b.le e.block) {msgs js : List Nat} {k : FullDao.Call F D}
    (hp : Resolved U w.dao (daoLog log) e msgs k) (hjs : msgs.map decode = js.map (fun j => .other j)) {ch : Chain}
    (hrun : w.chain.runAll e.block w.dao.core.core.me (js.flatMap r.ops) = .ok ch) :
    ∃ w' log', (sys U N decode r).Run w b log' w' e.block ∧
      log'.map (fun ev => (ev.env, ev.call)) =
        js.map (fun _ => (e, (.dao (.core (.deliver ⟨0, []⟩)) : Call F D))) ++ [(e, .dao k)] ∧
      w'.chain = ch ∧ w'.dao.core.stack = w.dao.core.stack ∧ w'.dao.core.core.me = w.dao.core.core.me := by
  obtain ⟨b1, h1, _⟩ := treasury_run h.run
  obtain ⟨hnc, x, o, h2, h3⟩ := resolved_executes (N := N) (decode := decode) hU ⟨b0, w0.dao, h.init, h1⟩ h.steady h.totals hp
  have hdue : due r w.dao.core.stack k = [] := by
    cases k with
    | core c => exact absurd rfl (hnc c)
    | _ => rfl
  have h4 : (sys U N decode r).step w e (.dao k) = .ok (⟨x, w.chain⟩, o) := by
    simp only [sys, step, h2, ok_bind, hdue, Chain.runAll]
  have hme : x.core.core.me = w.dao.core.core.me := (FullDao.full_stack_step h2).1
  have hst : x.core.stack = js.map (fun j => .send (.other j)) ++ w.dao.core.stack := by
    rw [h3]
    have := congrArg (List.map DaoCore.Sub.send) hjs
    simp only [List.map_map] at this
    exact congrArg (· ++ w.dao.core.stack) this
  obtain ⟨w', log', h5, h6, h7, h8, h9⟩ := sends (U := U) (N := N) (decode := decode) (r := r) (w := ⟨x, w.chain⟩) (e := e)
    hst (ch := ch) (by rw [hme]; exact hrun)
  refine ⟨w', log' ++ [⟨w, e, .dao k, _, _⟩],
    (Sys.Run.step (M := sys U N decode r) (env := e) (call := .dao k) .refl hb h4).append h5, ?_, h7, h8, ?_⟩
  · simp only [List.map_append, h6, List.map_cons, List.map_nil]
  · rw [h9]; exact hme

theorem sumOf_cons (x : Addr × Nat) (l : List (Addr × Nat)) : sumOf (x :: l) = x.2 + sumOf l := by
  simp [sumOf]

theorem gets_cons (q : Addr) (x : Addr × Nat) (l : List (Addr × Nat)) :
    gets q (x :: l) = (if x.1 = q then x.2 else 0) + gets q l := by
  simp [gets]

/-- Payments to others that the account covers succeed. -/
theorem payments_run {t : Token} {me : Addr} {b : Block} {l : List (Addr × Nat)} {c : Chain} (hto : ∀ x ∈ l, x.1 ≠ me)
    (hsum : sumOf l ≤ getD0 c.bal (t, me)) (hfit : ∀ q, q ≠ me → getD0 c.bal (t, q) + gets q l < U128) :
    ∃ ch, c.runAll b me (payments t l) = .ok ch ∧ getD0 ch.bal (t, me) = getD0 c.bal (t, me) - sumOf l ∧
      (∀ q, q ≠ me → getD0 ch.bal (t, q) = getD0 c.bal (t, q) + gets q l) ∧
      (∀ t' q, t' ≠ t → getD0 ch.bal (t', q) = getD0 c.bal (t', q)) ∧ ch.allow = c.allow := by
  induction l generalizing c with
  | nil => exact ⟨c, rfl, rfl, fun _ _ => rfl, fun _ _ _ => rfl, rfl⟩
  | cons x l ih =>
    rw [sumOf_cons] at hsum
    have hne : (t, me) ≠ (t, x.1) := by
      intro he
      simp only [Prod.mk.injEq, true_and] at he
      exact hto x List.mem_cons_self he.symm
    have hx := hfit x.1 (hto x List.mem_cons_self)
    rw [gets_cons, if_pos rfl] at hx
    obtain ⟨l1, h1⟩ := Ledger.move_live (l := c.bal) hne (n := x.2) (by omega) (by omega)
    have m := fun q => (Ledger.move_get h1 hne q).2
    have m1 : getD0 l1 (t, me) = getD0 c.bal (t, me) - x.2 := by rw [m, if_pos rfl]
    have m2 : ∀ q, q ≠ me → getD0 l1 (t, q) = getD0 c.bal (t, q) + (if x.1 = q then x.2 else 0) := by
      intro q hq
      rw [m, if_neg (by simp [hq])]
      by_cases hxq : x.1 = q
      · subst hxq; simp
      · rw [if_neg (by simp [Ne.symm hxq]), if_neg hxq]; rfl
    have m3 : ∀ t' q, t' ≠ t → getD0 l1 (t', q) = getD0 c.bal (t', q) := by
      intro t' q ht
      rw [m, if_neg (by simp [ht]), if_neg (by simp [ht])]
    obtain ⟨ch, h2, h3, h4, h5, h6⟩ := ih (c := { c with bal := l1 }) (fun y hy => hto y (List.mem_cons_of_mem _ hy))
      (by simp only [m1]; omega)
      (fun q hq => by
        have := hfit q hq
        rw [gets_cons] at this
        simp only [m2 q hq]
        omega)
    refine ⟨ch, ?_, ?_, fun q hq => ?_, fun t' q ht => ?_, h6⟩
    · simp only [payments, List.map_cons, Chain.runAll, Chain.run, h1, ok_bind]
      exact h2
    · rw [h3, sumOf_cons]
      simp only [m1]
      omega
    · rw [h4 q hq, gets_cons]
      simp only [m2 q hq]
      omega
    · rw [h5 t' q ht]
      exact m3 t' q ht

/-- **C131.** Members can pay whom they want: when the messages of what they decided are payments to others in a token of which
the DAO has enough, everybody gets exactly what was decided and the DAO has that much less; nothing else changes hands. -/
theorem C131_pays (hU : Lawful U) {w0 w : World T} {b0 b : Block} {log : List (Event T F D)}
    (h : History U N decode r w0 w b0 b log) {e : Env} (hb : b.le e.block) {msgs js : List Nat} {k : FullDao.Call F D}
    (hp : Resolved U w.dao (daoLog log) e msgs k) (hjs : msgs.map decode = js.map (fun j => .other j)) {t : Token}
    {l : List (Addr × Nat)} (hl : js.flatMap r.ops = payments t l) (hto : ∀ x ∈ l, x.1 ≠ w.dao.core.core.me)
    (henough : sumOf l ≤ has w w.dao.core.core.me t) (hfit : ∀ q, q ≠ w.dao.core.core.me → has w q t + gets q l < U128) :
    ∃ w' log', (sys U N decode r).Run w b log' w' e.block ∧
      log'.map (fun ev => (ev.env, ev.call)) =
        js.map (fun _ => (e, (.dao (.core (.deliver ⟨0, []⟩)) : Call F D))) ++ [(e, .dao k)] ∧
      has w' w.dao.core.core.me t = has w w.dao.core.core.me t - sumOf l ∧
      (∀ q, q ≠ w.dao.core.core.me → has w' q t = has w q t + gets q l) ∧
      (∀ t' q, t' ≠ t → has w' q t' = has w q t') ∧ w'.chain.allow = w.chain.allow := by
  obtain ⟨ch, h1, h2, h3, h4, h5⟩ := payments_run (b := e.block) (c := w.chain) hto henough hfit
  obtain ⟨w', log', h6, h7, h8, _⟩ := C131_spends hU h hb hp hjs (ch := ch) (by rw [hl]; exact h1)
  refine ⟨w', log', h6, h7, ?_, fun q hq => ?_, fun t' q ht => ?_, by rw [h8, h5]⟩
  · rw [has, h8, h2]; rfl
  · rw [has, h8, h3 q hq]; rfl
  · rw [has, h8, h4 t' q ht]; rfl

end Verif.Treasury
