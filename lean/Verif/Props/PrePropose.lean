import Verif.Proofs.PreProposeFunds
import Verif.Proofs.PreProposeSingle
import Verif.Proofs.PreProposeMultiple
/-!
# Properties of pre-propose modules: deposits (C52) and who may submit (C53)

All statements are about any proposal module `M` that is lawful; `dao-proposal-single` and `dao-proposal-multiple` are
(`single_lawful`, `multiple_lawful`).
-/

namespace Verif.PrePropose
open Verif Verif.Voting Verif.Spec.PrePropose
open Verif.Spec (Final)

variable {M : PropModule}

/-- `dao-proposal-single` is a lawful proposal module. -/
theorem single_lawful : Lawful single := ⟨_, Verif.Single.lawful⟩

/-- `dao-proposal-multiple` is a lawful proposal module. -/
theorem multiple_lawful : Lawful multiple := ⟨_, Verif.Multiple.lawful⟩

/-! ## C52 -/

theorem told_count (log : List (Event M)) (id : Nat) :
    (told log).count id = log.countP (fun e => (delivered e).any (fun x => x.1 == id)) := by
  induction log with
  | nil => rfl
  | cons e log ih =>
    rw [List.countP_cons]
    unfold told at ih ⊢
    rw [List.filterMap_cons]
    cases hd : delivered e with
    | none => simp only [ih]; simp
    | some x =>
      simp only [List.map_cons, List.count_cons, ih, Option.any_some]

/-- C52: the completion of a proposal is told at most once, so its deposit is paid at most once. -/
theorem C52_once (L : Lawful M) {w : World M} {b : Block} {log : List (Event M)} (h : (sys M).Reach w b log)
    (id : Nat) : log.countP (fun e => (delivered e).any (fun x => x.1 == id)) ≤ 1 := by
  obtain ⟨inv, L⟩ := L
  have hn := (inv_reach L h).comp.nodup
  rw [← told_count]
  exact List.nodup_iff_count.1 (List.nodup_append.1 hn).2.1 id

/-- C52: a submission gets a new number, and records the rules then in force and the sender; a native deposit is
attached exactly, a cw20 deposit is to be taken from the sender. -/
theorem C52_submitted (L : Lawful M) {w : World M} {b : Block} {log l1 l2 : List (Event M)} {e : Event M}
    (h : (sys M).Reach w b log) (hl : log = l2 ++ e :: l1) {p : M.Payload} (hc : e.call = .propose p) :
    ∃ id, submission e = some (id, e.pre.pre.config.deposit, M.sender e.env.mod) ∧
      id = M.count e.pre.mod + 1 ∧ AMap.get (submissions log) id = some (e.pre.pre.config.deposit, M.sender e.env.mod) ∧
      match e.pre.pre.config.deposit with
      | none => e.post.takes = e.pre.takes
      | some d => match d.token with
        | .native n => e.env.funds = [(n, d.amount)] ∧ e.post.takes = e.pre.takes
        | .cw20 c => e.post.takes = e.pre.takes ++ [(M.sender e.env.mod, .cw20 c, d.amount)] := by
  obtain ⟨inv, L⟩ := L
  have hi := inv_reach L h
  obtain ⟨b0, s0, h0, hr⟩ := h
  have hmem : e ∈ log := by rw [hl]; simp
  obtain ⟨k1, k2, b1, _, hrun, _, hs, _⟩ := hr.event e hmem
  have hpre := inv_reach L ⟨b0, s0, h0, hrun⟩
  obtain ⟨pre, env, call, out, post⟩ := e
  simp only at hc hs hpre ⊢
  subst hc
  change step pre env (.propose p) = .ok (post, out) at hs
  simp only [step, stepPropose, bind_ok, require_ok, decide_eq_true_eq] at hs
  obtain ⟨_, ha, bal, hb, ⟨pr, ts⟩, hp, ⟨mod, mo⟩, hm, hs⟩ := hs
  simp only [Except.ok.injEq, Prod.mk.injEq] at hs
  obtain ⟨rfl, rfl⟩ := hs
  have hnew := (L.propose_new hm).1
  have hsub : submission (M := M) ⟨pre, env, .propose p, { newId := mo.newId },
      { pre with pre := pr, mod := mod, bal := bal, queue := pre.queue ++ hooksFor pre.here mo.completed
                 takes := pre.takes ++ ts }⟩ =
      some (M.count pre.mod + 1, pre.pre.config.deposit, M.sender env.mod) := by
    simp only [submission, hnew]
  refine ⟨M.count pre.mod + 1, hsub, rfl, ?_, ?_⟩
  · refine AMap.get_of_mem hi.wf ?_
    exact List.mem_filterMap.2 ⟨_, hmem, hsub⟩
  · unfold execPropose at hp
    obtain ⟨_, _, hp⟩ := (bind_ok _ _ _).mp hp
    cases hd : pre.pre.config.deposit with
    | none =>
      rw [hd] at hp
      simp only [Except.ok.injEq, Prod.mk.injEq] at hp
      obtain ⟨_, rfl⟩ := hp
      simp
    | some d =>
      rw [hd] at hp
      simp only [bind_ok, Except.ok.injEq, Prod.mk.injEq] at hp
      obtain ⟨_, h2, _, rfl⟩ := hp
      have hg : GoodDeposit (some d) := hd ▸ hpre.good
      cases ht : d.token with
      | native n =>
        simp only [checkPaid, ht, bind_ok, require_ok, decide_eq_true_eq] at h2
        obtain ⟨paid, h3, h4⟩ := h2
        have := mustPay_ok h3
        subst h4
        simp only [ht]
        exact ⟨this, by simp [takeMsgs, ht]⟩
      | cw20 c =>
        simp only [takeMsgs, ht]
        rw [if_neg hg.1]

/-- C52: when the completion of a proposal is told and accepted, exactly the deposit it was submitted with is paid, to
its proposer or to the DAO as the rules in force at submission say for how it completed; nothing is paid if it was
submitted without deposit or not through this module. The proposal was closed, executed or vetoed, or its execution
failed. -/
theorem C52_paid (L : Lawful M) {w : World M} {b : Block} {log : List (Event M)} (h : (sys M).Reach w b log)
    {e : Event M} (he : e ∈ log) {id : Nat} {st : Status} (hs : settled e = some (id, st)) :
    e.out.pays = payment (AMap.get (submissions log) id) w.pre.dao st ∧
      (∃ st', M.statusOf w.mod id = some st' ∧ Reports st st') ∧
      (∀ d a, AMap.get (submissions log) id = some (some d, a) →
        receiver d a w.pre.dao st ≠ w.here ∧
        getD0 e.post.bal (d.token, receiver d a w.pre.dao st) =
          getD0 e.pre.bal (d.token, receiver d a w.pre.dao st) + d.amount ∧
        e.pre.holds d.token = e.post.holds d.token + d.amount) := by
  obtain ⟨inv, L⟩ := L
  have hi := inv_reach L h
  have key : ∀ {w : World M} {b : Block} {log : List (Event M)}, (sys M).Reach w b log → ∀ e ∈ log,
      e.pre.pre.dao = w.pre.dao ∧ e.pre.here = w.here ∧ e.post.here = w.here ∧
      ∀ id st, settled e = some (id, st) → ∀ x, AMap.get (submissions log) id = x →
        e.out.pays = payment x w.pre.dao st ∧ payAll w.here e.out.pays e.pre.bal = .ok e.post.bal := by
    intro w b log h
    refine Sys.Reach.induct (P := fun w _ log => ∀ e ∈ log, e.pre.pre.dao = w.pre.dao ∧ e.pre.here = w.here ∧
      e.post.here = w.here ∧ ∀ id st, settled e = some (id, st) → ∀ x, AMap.get (submissions log) id = x →
        e.out.pays = payment x w.pre.dao st ∧ payAll w.here e.out.pays e.pre.bal = .ok e.post.bal) ?_ ?_ h
    · intro _ _ _ e he; simp at he
    · intro w b log e c o w' hr ih _ hs
      change step w e c = .ok (w', o) at hs
      have hi := inv_reach L hr
      have hi' := inv_step L hi hs
      have hsame : w'.pre.dao = w.pre.dao ∧ w'.here = w.here := by
        cases c with
        | propose p =>
          simp only [step, stepPropose, bind_ok, require_ok, decide_eq_true_eq] at hs
          obtain ⟨_, ha, bal, hb, ⟨pre, ts⟩, hp, ⟨mod, mo⟩, hm, hs⟩ := hs
          simp only [Except.ok.injEq, Prod.mk.injEq] at hs
          obtain ⟨rfl, rfl⟩ := hs
          obtain ⟨_, rfl, _, _⟩ := execPropose_ok hp
          exact ⟨rfl, rfl⟩
        | pre m =>
          simp only [step, stepPre, bind_ok, require_ok, decide_eq_true_eq] at hs
          obtain ⟨_, ha, bal, hb, ⟨pre, ps⟩, hp, bal', hpay, hs⟩ := hs
          simp only [Except.ok.injEq, Prod.mk.injEq] at hs
          obtain ⟨rfl, rfl⟩ := hs
          exact ⟨(exec_kept hp).1.dao, rfl⟩
        | completed id st =>
          simp only [step, stepCompleted, bind_ok, Except.ok.injEq, Prod.mk.injEq] at hs
          obtain ⟨_, ha, ps, hp, bal', hpay, rfl, rfl⟩ := hs
          exact ⟨rfl, rfl⟩
        | module c =>
          simp only [step, stepModule, bind_ok] at hs
          obtain ⟨_, ha, _, hout, ⟨mod, mo⟩, hm, hs⟩ := hs
          simp only [Except.ok.injEq, Prod.mk.injEq] at hs
          obtain ⟨rfl, rfl⟩ := hs
          exact ⟨rfl, rfl⟩
        | deliver i =>
          simp only [step, stepDeliver] at hs
          split at hs
          · cases hs
          · split at hs
            · simp only [Except.ok.injEq, Prod.mk.injEq] at hs
              obtain ⟨rfl, rfl⟩ := hs
              exact ⟨rfl, rfl⟩
            · simp only [bind_ok, Except.ok.injEq, Prod.mk.injEq] at hs
              obtain ⟨mod, hm, rfl, rfl⟩ := hs
              exact ⟨rfl, rfl⟩
        | take i =>
          simp only [step, stepTake] at hs
          split at hs
          · cases hs
          · simp only [bind_ok, Except.ok.injEq, Prod.mk.injEq] at hs
            obtain ⟨bal, hb, rfl, rfl⟩ := hs
            exact ⟨rfl, rfl⟩
        | transfer src dst t n =>
          simp only [step, stepTransfer, bind_ok, Except.ok.injEq, Prod.mk.injEq] at hs
          obtain ⟨_, ha, bal, hb, rfl, rfl⟩ := hs
          exact ⟨rfl, rfl⟩
      intro ev hev
      rw [hsame.1, hsame.2]
      rcases List.mem_cons.1 hev with rfl | hev
      · refine ⟨rfl, rfl, hsame.2, ?_⟩
        intro id st hset x hx
        simp only [settled] at hset
        split at hset
        · cases hset
        · rename_i hnf
          cases c with
          | deliver i =>
            simp only [delivered] at hset
            simp only [step, stepDeliver, hset] at hs
            split at hs
            · rename_i ps bal hrun
              simp only [Except.ok.injEq, Prod.mk.injEq] at hs
              obtain ⟨rfl, rfl⟩ := hs
              obtain ⟨h1, h2⟩ := runHook_ok hi hrun
              have hsub : submissions (M := M) (⟨w, e, .deliver i, { pays := ps },
                  { w with bal := bal, queue := w.queue.eraseIdx i }⟩ :: log) = submissions log := by
                rw [submissions_cons]; rfl
              rw [hsub] at hx
              subst hx
              exact ⟨h1, h2⟩
            · simp only [bind_ok, Except.ok.injEq, Prod.mk.injEq] at hs
              obtain ⟨mod, hm, rfl, rfl⟩ := hs
              simp at hnf
          | _ => simp [delivered] at hset
      · obtain ⟨h1, h2, h3, h4⟩ := ih ev hev
        refine ⟨h1, h2, h3, ?_⟩
        intro id st hset x hx
        obtain ⟨h5, h6⟩ := h4 id st hset _ rfl
        have hxx : AMap.get (submissions log) id = x := by
          have ht : id ∈ told log := by
            unfold settled at hset
            split at hset
            · cases hset
            · exact mem_told.2 ⟨ev, hev, st, hset⟩
          obtain ⟨e2, he2, st2, hd2⟩ := mem_told.1 ht
          obtain ⟨st3, hst3, _⟩ := hi.comp.past _ he2 _ hd2
          have hle := L.status_count hi.mod hst3
          simp only at hle
          rw [submissions_cons] at hx
          cases hsb : submission (M := M) ⟨w, e, c, o, w'⟩ with
          | none => rw [hsb] at hx; exact hx
          | some y =>
            rw [hsb] at hx
            have hne : y.1 ≠ id := by
              intro hy
              unfold submission at hsb
              split at hsb
              · rename_i p id2 hc hn
                simp only at hc hn
                subst hc
                injection hsb with hsb
                simp only [step, stepPropose, bind_ok] at hs
                obtain ⟨_, _, bal, hb, ⟨pre, ts⟩, hp, ⟨mod, mo⟩, hm, hs⟩ := hs
                simp only [Except.ok.injEq, Prod.mk.injEq] at hs
                obtain ⟨rfl, rfl⟩ := hs
                simp only at hn
                rw [(L.propose_new hm).1] at hn
                simp only [Option.some.injEq] at hn
                rw [← hsb] at hy
                simp only at hy
                omega
              · cases hsb
            obtain ⟨y1, y2⟩ := y
            simp only [AMap.get] at hx
            rw [if_neg hne] at hx
            exact hx
        subst hxx
        exact ⟨h5, h6⟩
  obtain ⟨k1, k2, k3, k4⟩ := key h e he
  obtain ⟨k5, k6⟩ := k4 id st hs _ rfl
  refine ⟨k5, ?_, ?_⟩
  · have hd : delivered e = some (id, st) := by
      unfold settled at hs; split at hs
      · cases hs
      · exact hs
    exact hi.comp.past e he _ hd
  · intro d a hd
    have hto := payment_to hi (id := id) (st := st)
    rw [← k5] at hto
    have hp := payAll_get k6 hto d.token
    rw [k5, hd] at hto
    have hr : receiver d a w.pre.dao st ≠ w.here := hto _ (List.mem_singleton.2 rfl)
    rw [k5, hd] at hp
    simp only [payment, payOf_one, if_true] at hp
    refine ⟨hr, ?_, ?_⟩
    · rw [hp.2.2 _ hr]; simp
    · simp only [World.holds, k2, k3]; omega

/-- C52: nothing else is paid: every payment settles a proposal or is a withdrawal by the DAO to itself. Nobody but the
proposal module can tell a completion. -/
theorem C52_only (L : Lawful M) {w : World M} {b : Block} {log : List (Event M)} (h : (sys M).Reach w b log)
    {e : Event M} (he : e ∈ log) :
    (∀ id st, e.call ≠ .completed id st) ∧
    (e.out.pays ≠ [] → (∃ id st, settled e = some (id, st)) ∨
      (isWithdraw e ∧ M.sender e.env.mod = e.pre.pre.dao ∧ ∀ p ∈ e.out.pays, p.to = e.pre.pre.dao)) := by
  obtain ⟨inv, L⟩ := L
  obtain ⟨b0, s0, h0, hr⟩ := h
  obtain ⟨k1, k2, b1, _, hrun, _, hs, _⟩ := hr.event e he
  obtain ⟨w, env, c, out, w'⟩ := e
  simp only at hs ⊢
  change step w env c = .ok (w', out) at hs
  clear he
  cases c with
  | propose p =>
    refine ⟨by simp, fun hp => absurd ?_ hp⟩
    simp only [step, stepPropose, bind_ok] at hs
    obtain ⟨_, _, bal, hb, ⟨pre, ts⟩, hp, ⟨mod, mo⟩, hm, hs⟩ := hs
    simp only [Except.ok.injEq, Prod.mk.injEq] at hs
    obtain ⟨rfl, rfl⟩ := hs
    rfl
  | pre m =>
    refine ⟨by simp, fun hne => ?_⟩
    simp only [step, stepPre, bind_ok] at hs
    obtain ⟨_, ha, bal, hb, ⟨pre, ps⟩, hp, bal', hpay, hs⟩ := hs
    simp only [Except.ok.injEq, Prod.mk.injEq] at hs
    obtain ⟨rfl, rfl⟩ := hs
    rcases (exec_kept hp).2 with rfl | ⟨t, t', rfl, _, hd, _, rfl, _⟩
    · exact absurd rfl hne
    · right
      refine ⟨⟨_, rfl⟩, hd, ?_⟩
      intro p hp
      simp only [List.mem_singleton] at hp
      rw [hp]
  | completed id st =>
    exfalso
    simp only [step, stepCompleted, bind_ok, require_ok, decide_eq_true_eq] at hs
    obtain ⟨_, ha, ps, hp, _⟩ := hs
    unfold execCompleted at hp
    simp only [bind_ok, require_ok, decide_eq_true_eq] at hp
    obtain ⟨_, h1, _⟩ := hp
    exact ha.2 h1
  | module c =>
    refine ⟨by simp, fun hp => absurd ?_ hp⟩
    simp only [step, stepModule, bind_ok] at hs
    obtain ⟨_, ha, _, hout, ⟨mod, mo⟩, hm, hs⟩ := hs
    simp only [Except.ok.injEq, Prod.mk.injEq] at hs
    obtain ⟨rfl, rfl⟩ := hs
    rfl
  | deliver i =>
    refine ⟨by simp, fun hne => ?_⟩
    simp only [step, stepDeliver] at hs
    split at hs
    · cases hs
    · rename_i id st hq
      split at hs
      · simp only [Except.ok.injEq, Prod.mk.injEq] at hs
        obtain ⟨rfl, rfl⟩ := hs
        exact .inl ⟨id, st, hq⟩
      · simp only [bind_ok, Except.ok.injEq, Prod.mk.injEq] at hs
        obtain ⟨mod, hm, rfl, rfl⟩ := hs
        exact absurd rfl hne
  | take i =>
    refine ⟨by simp, fun hp => absurd ?_ hp⟩
    simp only [step, stepTake] at hs
    split at hs
    · cases hs
    · simp only [bind_ok, Except.ok.injEq, Prod.mk.injEq] at hs
      obtain ⟨bal, hb, rfl, rfl⟩ := hs
      rfl
  | transfer src dst t n =>
    refine ⟨by simp, fun hp => absurd ?_ hp⟩
    simp only [step, stepTransfer, bind_ok, Except.ok.injEq, Prod.mk.injEq] at hs
    obtain ⟨_, ha, bal, hb, rfl, rfl⟩ := hs
    rfl

/-- C52: as long as the DAO has not withdrawn a token, the deposits in it that are still to be paid back are there, or
about to be taken in the running transaction. -/
theorem C52_solvent (L : Lawful M) {w : World M} {b : Block} {log : List (Event M)} (h : (sys M).Reach w b log)
    (t : Token) (hw : ∀ e ∈ log, isWithdraw e → payOf t e.out.pays = 0) :
    owed log t ≤ w.holds t + toTake w t := by
  obtain ⟨inv, L⟩ := L
  exact solvent L h t hw

/-- C52: then a completion that is told is accepted and the deposit paid, if no deposit is still to be taken and the
receiver's balance can grow by it. -/
theorem C52_accepted (L : Lawful M) {w : World M} {b : Block} {log : List (Event M)} (h : (sys M).Reach w b log)
    (hw : ∀ e ∈ log, ¬ isWithdraw e) (ht : w.takes = []) {i id : Nat} {st : Status} (hq : w.queue[i]? = some (id, st))
    (hroom : ∀ p ∈ payment (AMap.get (submissions log) id) w.pre.dao st, getD0 w.bal (p.token, p.to) + p.amount < U128)
    (e : Env M) :
    ∃ w', (sys M).step w e (.deliver i) =
      .ok (w', { pays := payment (AMap.get (submissions log) id) w.pre.dao st }) := by
  obtain ⟨inv, L⟩ := L
  have hi := inv_reach L h
  have hx : (id, st) ∈ w.queue := List.mem_of_getElem? hq
  obtain ⟨st', _, hrep⟩ := hi.comp.queued _ hx
  have hns : isSettled log id = false := by
    cases hc : isSettled log id with
    | false => rfl
    | true =>
      exfalso
      have h1 : id ∈ w.queue.map Prod.fst := List.mem_map.2 ⟨(id, st), hx, rfl⟩
      exact (List.nodup_append.1 hi.comp.nodup).2.2 id h1 id (isSettled_told hc) rfl
  have hcomp : execCompleted w.pre w.pre.module id st =
      .ok (payment (AMap.get (submissions log) id) w.pre.dao st) := by
    cases hc : execCompleted w.pre w.pre.module id st with
    | ok ps =>
      have := (execCompleted_ok (fun d p hd => by
        rw [hi.subs] at hd; exact (hi.ok _ _ _ (AMap.mem_of_get hd)).1) hc).2.2
      rw [this, hi.subs]
    | error x =>
      exfalso
      unfold execCompleted at hc
      rw [require, if_pos (by simp), ok_bind, require, if_pos (by simpa using hrep.done), ok_bind] at hc
      split at hc <;> cases hc
  have hpay : ∃ bal, payAll w.here (payment (AMap.get (submissions log) id) w.pre.dao st) w.bal = .ok bal := by
    have hto := payment_to hi (id := id) (st := st)
    cases hs : AMap.get (submissions log) id with
    | none => exact ⟨w.bal, rfl⟩
    | some x =>
      obtain ⟨d, a⟩ := x
      cases d with
      | none => exact ⟨w.bal, rfl⟩
      | some d =>
        rw [hs] at hto hroom
        have hto := hto _ (List.mem_singleton.2 rfl)
        have hroom := hroom _ (List.mem_singleton.2 rfl)
        simp only at hto hroom
        have hsol := solvent L h d.token (fun e he hwd => absurd hwd (hw e he))
        have hle : d.amount ≤ owed log d.token := by
          have := AMap.at_le_sum (fun id' x => if isSettled log id' then 0 else amountIn d.token x.1) (submissions log) id
          simp only [AMap.at?, hs, hns, amountIn, if_true] at this
          exact this
        have h0 : toTake w d.token = 0 := by simp [toTake, ht]
        simp only [World.holds] at hsol
        obtain ⟨l', hl'⟩ := Ledger.move_live (l := w.bal) (a := (d.token, w.here))
          (b := (d.token, receiver d a w.pre.dao st)) (n := d.amount)
          (by intro e; simp only [Prod.mk.injEq, true_and] at e; exact hto e.symm) (by omega) hroom
        refine ⟨l', ?_⟩
        simp only [payment, payAll, hl', ok_bind]
  obtain ⟨bal, hbal⟩ := hpay
  have hrun : runHook w id st = .ok (payment (AMap.get (submissions log) id) w.pre.dao st, bal) := by
    unfold runHook
    rw [hcomp, ok_bind, hbal, ok_bind]
  refine ⟨{ w with bal := bal, queue := w.queue.eraseIdx i }, ?_⟩
  change stepDeliver w i = _
  simp only [stepDeliver, hq, hrun]

end Verif.PrePropose
