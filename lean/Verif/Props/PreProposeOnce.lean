import Verif.Props.PrePropose
/-!
# Properties of pre-propose modules, continued: a deposit comes back (C52), who may submit (C53)
-/

namespace Verif.PrePropose
open Verif Verif.Voting Verif.Spec.PrePropose
open Verif.Spec (Final)

variable {M : PropModule} {inv : M.St → Prop}

/-- If the proposal is final its completion waits to be told or was told. -/
def Noted (w : World M) (log : List (Event M)) (id : Nat) : Prop :=
  ∀ st, M.statusOf w.mod id = some st → Final st → (∃ x ∈ w.queue, x.1 = id) ∨ id ∈ told log

/-- A call of the proposal module while the pre-propose module is attached. -/
theorem noted_module (L : LawfulBy M inv) {s s' : M.St} {e : M.Env} {c : M.Call} {o : ModOut} (hi : inv s)
    (hm : M.step s e c = .ok (s', o)) {here : Addr} (hp : M.policy s = .module here) {id : Nat} {st : Status}
    (h1 : M.statusOf s' id = some st) (h2 : Final st) :
    M.statusOf s id = some st ∨ ∃ x ∈ hooksFor here o.completed, x.1 = id := by
  rcases L.completed hi hm with ⟨_, hc⟩ | ⟨id', st1, st2, st0, hc, h0, hnf, h3, hrep, hother⟩
  · exact .inl (hc id st h1 h2)
  · by_cases hid : id = id'
    · subst hid
      right
      refine ⟨(id, st1), ?_, rfl⟩
      rw [hc, hp]
      simp [hooksFor, hookOf]
    · rw [hother id hid] at h1
      exact .inl h1

/-- Nothing gets lost while the pre-propose module stays attached. -/
theorem noted_step (L : LawfulBy M inv) {w w' : World M} {e : Env M} {c : Call M} {o : Out} {log l : List (Event M)}
    (hi : Inv M inv w log) (hs : step w e c = .ok (w', o)) (hp : M.policy w.mod = .module w.here) {id : Nat}
    (hn : Noted w l id) : Noted w' (⟨w, e, c, o, w'⟩ :: l) id := by
  have hmono : ∀ ev : Event M, id ∈ told l → id ∈ told (ev :: l) := by
    intro ev h
    obtain ⟨e2, he2, st, hd⟩ := mem_told.1 h
    exact mem_told.2 ⟨e2, List.mem_cons_of_mem _ he2, st, hd⟩
  intro st hst hf
  cases c with
  | propose p =>
    simp only [step, stepPropose, bind_ok] at hs
    obtain ⟨_, _, bal, hb, ⟨pre, ts⟩, hpp, ⟨mod, mo⟩, hm, hs⟩ := hs
    simp only [Except.ok.injEq, Prod.mk.injEq] at hs
    obtain ⟨rfl, rfl⟩ := hs
    rcases noted_module L hi.mod hm hp hst hf with h1 | ⟨x, hx, hid⟩
    · rcases hn st h1 hf with ⟨x, hx, hid⟩ | ht
      · exact .inl ⟨x, List.mem_append_left _ hx, hid⟩
      · exact .inr (hmono _ ht)
    · exact .inl ⟨x, List.mem_append_right _ hx, hid⟩
  | pre m =>
    simp only [step, stepPre, bind_ok] at hs
    obtain ⟨_, ha, bal, hb, ⟨pre, ps⟩, hpp, bal', hpay, hs⟩ := hs
    simp only [Except.ok.injEq, Prod.mk.injEq] at hs
    obtain ⟨rfl, rfl⟩ := hs
    exact (hn st hst hf).imp (fun h => h) (hmono _)
  | completed id st =>
    simp only [step, stepCompleted, bind_ok, Except.ok.injEq, Prod.mk.injEq] at hs
    obtain ⟨_, ha, ps, hpp, bal', hpay, rfl, rfl⟩ := hs
    exact (hn _ hst hf).imp (fun h => h) (hmono _)
  | module c =>
    simp only [step, stepModule, bind_ok] at hs
    obtain ⟨_, ha, _, hout, ⟨mod, mo⟩, hm, hs⟩ := hs
    simp only [Except.ok.injEq, Prod.mk.injEq] at hs
    obtain ⟨rfl, rfl⟩ := hs
    rcases noted_module L hi.mod hm hp hst hf with h1 | ⟨x, hx, hid⟩
    · rcases hn st h1 hf with ⟨x, hx, hid⟩ | ht
      · exact .inl ⟨x, List.mem_append_left _ hx, hid⟩
      · exact .inr (hmono _ ht)
    · exact .inl ⟨x, List.mem_append_right _ hx, hid⟩
  | deliver i =>
    have hold : M.statusOf w.mod id = some st ∧ w'.queue = w.queue.eraseIdx i ∧ ∃ y, w.queue[i]? = some y := by
      simp only [step, stepDeliver] at hs
      split at hs
      · cases hs
      · rename_i id2 st2 hq
        split at hs
        · simp only [Except.ok.injEq, Prod.mk.injEq] at hs
          obtain ⟨rfl, rfl⟩ := hs
          exact ⟨hst, rfl, _, hq⟩
        · simp only [bind_ok, Except.ok.injEq, Prod.mk.injEq] at hs
          obtain ⟨mod, hm, rfl, rfl⟩ := hs
          refine ⟨?_, rfl, _, hq⟩
          rw [← (L.failed hi.mod hm).2.2.1]; exact hst
    obtain ⟨h1, h2, y, hy⟩ := hold
    rcases hn st h1 hf with ⟨x, hx, hid⟩ | ht
    · by_cases hyx : y.1 = id
      · right
        exact mem_told.2 ⟨_, List.mem_cons_self .., y.2, by simp only [delivered, hy, ← hyx]⟩
      · left
        refine ⟨x, ?_, hid⟩
        rw [h2]
        have hlt : i < w.queue.length := (List.getElem?_eq_some_iff.1 hy).1
        have hget : w.queue[i] = y := (List.getElem?_eq_some_iff.1 hy).2
        have := (List.getElem_cons_eraseIdx_perm hlt).mem_iff.2 hx
        rw [hget] at this
        rcases List.mem_cons.1 this with rfl | h
        · exact absurd hid hyx
        · exact h
    · exact .inr (hmono _ ht)
  | take i =>
    simp only [step, stepTake] at hs
    split at hs
    · cases hs
    · simp only [bind_ok, Except.ok.injEq, Prod.mk.injEq] at hs
      obtain ⟨bal, hb, rfl, rfl⟩ := hs
      exact (hn st hst hf).imp (fun h => h) (hmono _)
  | transfer src dst t n =>
    simp only [step, stepTransfer, bind_ok, Except.ok.injEq, Prod.mk.injEq] at hs
    obtain ⟨_, ha, bal, hb, rfl, rfl⟩ := hs
    exact (hn st hst hf).imp (fun h => h) (hmono _)

/-- C52: the deposit of a proposal does come back: if since its submission the pre-propose module stayed attached to
the proposal module, the proposal is final and no completion hook waits, then its completion was told and accepted,
and its deposit was paid as the rules say. (By `C52_once` it was paid once.) -/
theorem C52_exactly_once (L : Lawful M) {w : World M} {b : Block} {log l1 l2 : List (Event M)} {e : Event M}
    (h : (sys M).Reach w b log) (hl : log = l2 ++ e :: l1) {id : Nat} {d : Option Deposit} {a : Addr}
    (hsub : submission e = some (id, d, a))
    (hatt : ∀ e' ∈ l2 ++ [e], M.policy e'.post.mod = .module w.here) (hq : w.queue = [])
    {st : Status} (hst : M.statusOf w.mod id = some st) (hf : Final st) :
    ∃ e' ∈ l2, ∃ st', settled e' = some (id, st') ∧ Reports st' st ∧ e'.out.pays = payment (some (d, a)) w.pre.dao st' := by
  have hLawful := L
  obtain ⟨inv, L⟩ := L
  have hall := h
  obtain ⟨b0, s0, h0, hr⟩ := h
  have hhere : ∀ {w1 b1 w2 b2 log}, (sys M).Run w1 b1 log w2 b2 → w2.here = w1.here := by
    intro w1 b1 w2 b2 log hr
    induction hr with
    | refl => rfl
    | step hrr hbb hs ih =>
      rename_i s1 s2 b1 log env call out
      rw [← ih]
      change step s1 env call = .ok (s2, out) at hs
      cases call with
      | propose p =>
        simp only [step, stepPropose, bind_ok] at hs
        obtain ⟨_, _, bal, hb, ⟨pre, ts⟩, hpp, ⟨mod, mo⟩, hm, hs⟩ := hs
        simp only [Except.ok.injEq, Prod.mk.injEq] at hs
        obtain ⟨rfl, rfl⟩ := hs; rfl
      | pre m =>
        simp only [step, stepPre, bind_ok] at hs
        obtain ⟨_, ha, bal, hb, ⟨pre, ps⟩, hpp, bal', hpay, hs⟩ := hs
        simp only [Except.ok.injEq, Prod.mk.injEq] at hs
        obtain ⟨rfl, rfl⟩ := hs; rfl
      | completed id st =>
        simp only [step, stepCompleted, bind_ok, Except.ok.injEq, Prod.mk.injEq] at hs
        obtain ⟨_, ha, ps, hpp, bal', hpay, rfl, rfl⟩ := hs; rfl
      | module c =>
        simp only [step, stepModule, bind_ok] at hs
        obtain ⟨_, ha, _, hout, ⟨mod, mo⟩, hm, hs⟩ := hs
        simp only [Except.ok.injEq, Prod.mk.injEq] at hs
        obtain ⟨rfl, rfl⟩ := hs; rfl
      | deliver i =>
        simp only [step, stepDeliver] at hs
        split at hs
        · cases hs
        · split at hs
          · simp only [Except.ok.injEq, Prod.mk.injEq] at hs
            obtain ⟨rfl, rfl⟩ := hs; rfl
          · simp only [bind_ok, Except.ok.injEq, Prod.mk.injEq] at hs
            obtain ⟨mod, hm, rfl, rfl⟩ := hs; rfl
      | take i =>
        simp only [step, stepTake] at hs
        split at hs
        · cases hs
        · simp only [bind_ok, Except.ok.injEq, Prod.mk.injEq] at hs
          obtain ⟨bal, hb, rfl, rfl⟩ := hs; rfl
      | transfer src dst t n =>
        simp only [step, stepTransfer, bind_ok, Except.ok.injEq, Prod.mk.injEq] at hs
        obtain ⟨_, ha, bal, hb, rfl, rfl⟩ := hs; rfl
  -- split the history at the submission
  have hsplit : ∃ b1, (sys M).Run s0 b0 l1 e.pre b1 ∧ b1.le ((sys M).block e.env) ∧
      (sys M).step e.pre e.env e.call = .ok (e.post, e.out) ∧ (sys M).Run e.post ((sys M).block e.env) l2 w b := by
    subst hl
    clear hatt hsub hq hst hall
    induction l2 generalizing w b with
    | nil => cases hr with | step hr hb hs => exact ⟨_, hr, hb, hs, .refl⟩
    | cons x l2 ih =>
      cases hr with
      | step hr hb hs =>
        obtain ⟨b1, h1, h2, h3, h4⟩ := ih hr
        exact ⟨b1, h1, h2, h3, .step h4 hb hs⟩
  obtain ⟨b1, hr1, hb1, hse, hr2⟩ := hsplit
  have hreach1 : (sys M).Reach e.pre b1 l1 := ⟨b0, s0, h0, hr1⟩
  have hi1 := inv_reach L hreach1
  have hreach2 := hreach1.step hb1 hse
  -- just submitted: not final
  have hstart : Noted e.post [] id := by
    intro st1 hst1 hf1
    exfalso
    obtain ⟨pre, env, call, out, post⟩ := e
    simp only at hst1 hse hi1
    unfold submission at hsub
    split at hsub
    · rename_i p id2 hc hnid
      simp only at hc hnid
      subst hc
      change step pre env (.propose p) = .ok (post, out) at hse
      simp only [step, stepPropose, bind_ok] at hse
      obtain ⟨_, _, bal, hb, ⟨pr, ts⟩, hpp, ⟨mod, mo⟩, hm, hs⟩ := hse
      simp only [Except.ok.injEq, Prod.mk.injEq] at hs
      obtain ⟨rfl, rfl⟩ := hs
      simp only [Option.some.injEq, Prod.mk.injEq] at hsub
      simp only at hnid hst1
      rw [(L.propose_new hm).1] at hnid
      simp only [Option.some.injEq] at hnid
      have hnone : ∀ x, M.statusOf pre.mod id ≠ some x := by
        intro x hx
        have := L.status_count hi1.mod hx
        omega
      rcases L.completed hi1.mod hm with ⟨_, hc⟩ | ⟨id', st1, st2, st0, hc, h0, hnf, h3, hrep, hother⟩
      · exact hnone _ (hc id _ hst1 hf1)
      · have : id ≠ id' := by
          intro hh; subst hh; exact hnone _ h0
        rw [hother id this] at hst1
        exact hnone _ hst1
    · cases hsub
  -- nothing gets lost
  have hend : Noted w l2 id := by
    have key : ∀ {w1 b1 l}, (sys M).Run e.post ((sys M).block e.env) l w1 b1 → (∀ e' ∈ l ++ [e], M.policy e'.post.mod = .module w.here) →
        w1.here = w.here → Noted w1 l id ∧ M.policy w1.mod = .module w.here := by
      intro w1 b1 l hr hat hwh
      induction hr with
      | refl => exact ⟨hstart, hat e (by simp)⟩
      | step hrr hb hs ih =>
        rename_i s1 s2 b3 l3 env call out
        have hh : s1.here = w.here := by
          have a1 := hhere (.step .refl (Block.le_refl _) hs : (sys M).Run s1 _ _ s2 _)
          rw [← a1]; exact hwh
        obtain ⟨i1, i2⟩ := ih (fun e' he' => hat e' (by
          simp only [List.cons_append, List.mem_cons]; exact .inr he')) hh
        exact ⟨noted_step L (inv_reach L (hreach2.run hrr)) hs (by rw [hh]; exact i2) i1,
          hat _ (List.mem_append_left _ (List.mem_cons_self ..))⟩
    exact (key hr2 hatt rfl).1
  rcases hend st hst hf with ⟨x, hx, _⟩ | ht
  · rw [hq] at hx; cases hx
  · obtain ⟨e', he', st', hd'⟩ := mem_told.1 ht
    have hmem : e' ∈ log := by rw [hl]; exact List.mem_append_left _ he'
    have hset : settled e' = some (id, st') := by
      unfold settled
      have hnf : e'.out.failed = false := by
        cases hfl : e'.out.failed with
        | false => rfl
        | true =>
          exfalso
          obtain ⟨_, _, b3, _, hrun, _, hs, _⟩ := hr.event e' hmem
          have hi3 := inv_reach L ⟨b0, s0, h0, hrun⟩
          have hpol := hatt e' (List.mem_append_left _ he')
          obtain ⟨pre, env, call, out, post⟩ := e'
          simp only at hs hfl hpol hi3
          change step pre env call = .ok (post, out) at hs
          cases call with
          | deliver i =>
            simp only [step, stepDeliver] at hs
            split at hs
            · cases hs
            · split at hs
              · simp only [Except.ok.injEq, Prod.mk.injEq] at hs
                obtain ⟨rfl, rfl⟩ := hs
                simp at hfl
              · simp only [bind_ok, Except.ok.injEq, Prod.mk.injEq] at hs
                obtain ⟨mod, hm, rfl, rfl⟩ := hs
                have := (L.failed hi3.mod hm).2.2.2
                simp only at hpol
                rw [this] at hpol; cases hpol
          | _ => simp [delivered] at hd'
      rw [hnf]; exact hd'
    have hi := inv_reach L hall
    obtain ⟨p1, ⟨st2, p2, p3⟩, _⟩ := C52_paid hLawful hall hmem hset
    rw [hst] at p2; injection p2 with p2; subst p2
    have hget : AMap.get (submissions log) id = some (d, a) :=
      AMap.get_of_mem hi.wf (List.mem_filterMap.2 ⟨e, by rw [hl]; simp, hsub⟩)
    rw [hget] at p1
    exact ⟨e', he', st', hset, p3, p1⟩

/-! ## C53 -/

/-- The coins attached are what the deposit asks for. -/
def Attached (d : Option Deposit) (funds : List (Nat × Nat)) : Prop :=
  match d with
  | some ⟨.native n, amount, _⟩ => funds = [(n, amount)] ∧ amount ≠ 0
  | _ => True

/-- C53: a submission goes through exactly when the policy allows the sender, the deposit is attached, the coins are
there, and the proposal module takes the proposal. -/
theorem C53_submit_iff (w : World M) (e : Env M) (p : M.Payload) (hne : M.sender e.mod ≠ w.here) :
    (∃ r, (sys M).step w e (.propose p) = .ok r) ↔
      MaySubmit w.pre.config.policy e.power (M.sender e.mod) ∧ Attached w.pre.config.deposit e.funds ∧
      (∃ bal, pullCoins w.here (M.sender e.mod) e.funds w.bal = .ok bal) ∧
      (∃ r, M.step w.mod (M.calledBy e.mod w.here) (M.propose (M.sender e.mod) p) = .ok r) := by
  constructor
  · rintro ⟨⟨w', o⟩, hs⟩
    change step w e (.propose p) = .ok (w', o) at hs
    simp only [step, stepPropose, bind_ok, require_ok, decide_eq_true_eq] at hs
    obtain ⟨_, ha, bal, hb, ⟨pre, ts⟩, hp, ⟨mod, mo⟩, hm, hs⟩ := hs
    refine ⟨(execPropose_ok hp).1, ?_, ⟨_, hb⟩, ⟨_, hm⟩⟩
    unfold execPropose at hp
    obtain ⟨_, _, hp⟩ := (bind_ok _ _ _).mp hp
    cases hd : w.pre.config.deposit with
    | none => trivial
    | some d =>
      rw [hd] at hp
      obtain ⟨_, h2, _⟩ := (bind_ok _ _ _).mp hp
      obtain ⟨tok, amount, refund⟩ := d
      cases tok with
      | native n =>
        simp only [checkPaid, bind_ok, require_ok, decide_eq_true_eq] at h2
        obtain ⟨paid, h3, rfl⟩ := h2
        refine ⟨mustPay_ok h3, ?_⟩
        have := mustPay_ok h3
        rw [this] at h3
        unfold mustPay at h3
        simp only at h3
        split at h3
        · rename_i hh; exact hh.2
        · cases h3
      | cw20 c => trivial
  · rintro ⟨h1, h2, ⟨bal, hb⟩, ⟨⟨mod, mo⟩, hm⟩⟩
    have h1' : checkCanSubmit w.pre.config.policy e.power (M.sender e.mod) = .ok () := checkCanSubmit_ok.2 h1
    have hx : ∃ pre ts, execPropose w.pre e.power (M.sender e.mod) e.funds (M.count w.mod + 1) = .ok (pre, ts) := by
      unfold execPropose
      rw [h1', ok_bind]
      cases hd : w.pre.config.deposit with
      | none => exact ⟨_, _, rfl⟩
      | some d =>
        have hpaid : checkPaid d e.funds = .ok () := by
          obtain ⟨tok, amount, refund⟩ := d
          rw [hd] at h2
          cases tok with
          | native n =>
            simp only [Attached] at h2
            simp only [checkPaid, h2.1, mustPay]
            rw [if_pos ⟨trivial, h2.2⟩, ok_bind, require, if_pos (by simp)]
          | cw20 c => rfl
        simp only [hpaid, ok_bind]
        exact ⟨_, _, rfl⟩
    obtain ⟨pre, ts, hx⟩ := hx
    refine ⟨({ w with pre := pre, mod := mod, bal := bal, queue := w.queue ++ hooksFor w.here mo.completed
                      takes := w.takes ++ ts }, { newId := mo.newId }), ?_⟩
    · change step w e (.propose p) = .ok _
      simp only [step, stepPropose, require, hne, ne_eq, not_false_eq_true, decide_true, if_true, ok_bind, hb, hx, hm]

/-- C53: in every state, nobody is both on the allowlist and on the denylist, and somebody may be allowed. -/
theorem C53_sound (L : Lawful M) {w : World M} {b : Block} {log : List (Event M)} (h : (sys M).Reach w b log) :
    SoundPolicy w.pre.config.policy := by
  obtain ⟨inv, L⟩ := L
  exact (inv_reach L h).sound

/-- The lists of a policy. -/
def denied : Policy → List Addr
  | .anyone deny => deny
  | .specific _ _ deny => deny

/-- See `denied`. -/
def allowed : Policy → List Addr
  | .anyone _ => []
  | .specific _ allow _ => allow

/-- C53: what an update of the lists does: exactly the additions join and the removals leave, removals last; members
are let in or not as the update says; nothing else of the configuration changes. -/
theorem C53_lists {w w' : World M} {e : Env M} {o : Out} {da dr aa ar : Option (List Addr)} {m : Option Bool}
    (hs : (sys M).step w e (.pre (.updatePolicy da dr m aa ar)) = .ok (w', o)) :
    M.sender e.mod = w.pre.dao ∧ w'.pre.config.deposit = w.pre.config.deposit ∧
    (∀ a, a ∈ denied w'.pre.config.policy ↔
      (a ∈ denied w.pre.config.policy ∨ ∃ l, da = some l ∧ a ∈ l) ∧ ∀ l, dr = some l → a ∉ l) ∧
    (∀ a, a ∈ allowed w'.pre.config.policy ↔
      (a ∈ allowed w.pre.config.policy ∨ ∃ l, aa = some l ∧ a ∈ l) ∧ ∀ l, ar = some l → a ∉ l) ∧
    (match w.pre.config.policy, w'.pre.config.policy with
      | .anyone _, .anyone _ => m = none
      | .specific x _ _, .specific y _ _ => y = m.getD x
      | _, _ => False) := by
  change step w e (.pre (.updatePolicy da dr m aa ar)) = .ok (w', o) at hs
  simp only [step, stepPre, bind_ok] at hs
  obtain ⟨_, ha, bal, hb, ⟨pre, ps⟩, hp, bal', hpay, hs⟩ := hs
  simp only [Except.ok.injEq, Prod.mk.injEq] at hs
  obtain ⟨rfl, rfl⟩ := hs
  simp only [exec, execUpdatePolicy, bind_ok, require_ok, Except.ok.injEq, Prod.mk.injEq, decide_eq_true_eq] at hp
  obtain ⟨s1, ⟨_, h1, h3⟩, rfl, rfl⟩ := hp
  refine ⟨h1, ?_⟩
  split at h3
  · rename_i deny hpol
    simp only [bind_ok, require_ok, Except.ok.injEq, Bool.and_eq_true, Option.isNone_iff_eq_none] at h3
    obtain ⟨_, ⟨⟨rfl, rfl⟩, rfl⟩, _, _, rfl⟩ := h3
    rw [hpol]
    refine ⟨rfl, fun a => ?_, fun a => ?_, rfl⟩
    · simp only [denied]; exact mem_addRemove
    · simp [allowed]
  · rename_i members allow deny hpol
    simp only [bind_ok, Except.ok.injEq] at h3
    obtain ⟨_, _, rfl⟩ := h3
    rw [hpol]
    refine ⟨rfl, fun a => ?_, fun a => ?_, rfl⟩
    · simp only [denied]; exact mem_addRemove
    · simp only [allowed]; exact mem_addRemove

/-- C53: the configuration changes only by an update sent by the DAO; the DAO and the proposal module never change. -/
theorem C53_only_dao {w w' : World M} {e : Env M} {c : Call M} {o : Out} (hs : (sys M).step w e c = .ok (w', o)) :
    w'.pre.dao = w.pre.dao ∧ w'.pre.module = w.pre.module ∧
    (w'.pre.config = w.pre.config ∨ (M.sender e.mod = w.pre.dao ∧
      ((∃ d p, c = .pre (.updateConfig d p) ∧ w'.pre.config.deposit = d ∧
          w'.pre.config.policy = p.getD w.pre.config.policy) ∨
        ∃ da dr m aa ar, c = .pre (.updatePolicy da dr m aa ar)))) := by
  change step w e c = .ok (w', o) at hs
  cases c with
  | propose p =>
    simp only [step, stepPropose, bind_ok] at hs
    obtain ⟨_, _, bal, hb, ⟨pre, ts⟩, hpp, ⟨mod, mo⟩, hm, hs⟩ := hs
    simp only [Except.ok.injEq, Prod.mk.injEq] at hs
    obtain ⟨rfl, rfl⟩ := hs
    obtain ⟨_, rfl, _, _⟩ := execPropose_ok hpp
    exact ⟨rfl, rfl, .inl rfl⟩
  | pre m =>
    simp only [step, stepPre, bind_ok] at hs
    obtain ⟨_, ha, bal, hb, ⟨pre, ps⟩, hpp, bal', hpay, hs⟩ := hs
    simp only [Except.ok.injEq, Prod.mk.injEq] at hs
    obtain ⟨rfl, rfl⟩ := hs
    have hk := (exec_kept hpp).1
    refine ⟨hk.dao, hk.module, ?_⟩
    cases m with
    | updateConfig d p =>
      right
      simp only [exec, execUpdateConfig, bind_ok, require_ok, Except.ok.injEq, Prod.mk.injEq, decide_eq_true_eq] at hpp
      obtain ⟨s1, ⟨_, h1, _, h2, h3⟩, rfl, rfl⟩ := hpp
      refine ⟨h1, .inl ⟨d, p, rfl, ?_⟩⟩
      cases p with
      | none => simp only [Except.ok.injEq] at h3; subst h3; exact ⟨rfl, rfl⟩
      | some p =>
        simp only [bind_ok, Except.ok.injEq] at h3
        obtain ⟨_, _, rfl⟩ := h3
        exact ⟨rfl, rfl⟩
    | updatePolicy da dr m aa ar =>
      right
      simp only [exec, execUpdatePolicy, bind_ok, require_ok, Except.ok.injEq, Prod.mk.injEq, decide_eq_true_eq] at hpp
      obtain ⟨s1, ⟨_, h1, h3⟩, rfl, rfl⟩ := hpp
      exact ⟨h1, .inr ⟨_, _, _, _, _, rfl⟩⟩
    | withdraw t =>
      simp only [exec, bind_ok, Except.ok.injEq, Prod.mk.injEq] at hpp
      obtain ⟨_, _, rfl, _⟩ := hpp
      exact .inl rfl
    | addHook a =>
      simp only [exec, execAddHook, bind_ok, require_ok, Except.ok.injEq, Prod.mk.injEq] at hpp
      obtain ⟨s1, ⟨_, _, hk, _, rfl⟩, rfl, rfl⟩ := hpp
      exact .inl rfl
    | removeHook a =>
      simp only [exec, execRemoveHook, bind_ok, require_ok, Except.ok.injEq, Prod.mk.injEq] at hpp
      obtain ⟨s1, ⟨_, _, hk, _, rfl⟩, rfl, rfl⟩ := hpp
      exact .inl rfl
    | extension =>
      simp only [exec, Except.ok.injEq, Prod.mk.injEq] at hpp
      obtain ⟨rfl, _⟩ := hpp
      exact .inl rfl
  | completed id st =>
    simp only [step, stepCompleted, bind_ok, Except.ok.injEq, Prod.mk.injEq] at hs
    obtain ⟨_, ha, ps, hpp, bal', hpay, rfl, rfl⟩ := hs
    exact ⟨rfl, rfl, .inl rfl⟩
  | module c =>
    simp only [step, stepModule, bind_ok] at hs
    obtain ⟨_, ha, _, hout, ⟨mod, mo⟩, hm, hs⟩ := hs
    simp only [Except.ok.injEq, Prod.mk.injEq] at hs
    obtain ⟨rfl, rfl⟩ := hs
    exact ⟨rfl, rfl, .inl rfl⟩
  | deliver i =>
    simp only [step, stepDeliver] at hs
    split at hs
    · cases hs
    · split at hs
      · simp only [Except.ok.injEq, Prod.mk.injEq] at hs
        obtain ⟨rfl, rfl⟩ := hs
        exact ⟨rfl, rfl, .inl rfl⟩
      · simp only [bind_ok, Except.ok.injEq, Prod.mk.injEq] at hs
        obtain ⟨mod, hm, rfl, rfl⟩ := hs
        exact ⟨rfl, rfl, .inl rfl⟩
  | take i =>
    simp only [step, stepTake] at hs
    split at hs
    · cases hs
    · simp only [bind_ok, Except.ok.injEq, Prod.mk.injEq] at hs
      obtain ⟨bal, hb, rfl, rfl⟩ := hs
      exact ⟨rfl, rfl, .inl rfl⟩
  | transfer src dst t n =>
    simp only [step, stepTransfer, bind_ok, Except.ok.injEq, Prod.mk.injEq] at hs
    obtain ⟨_, ha, bal, hb, rfl, rfl⟩ := hs
    exact ⟨rfl, rfl, .inl rfl⟩

end Verif.PrePropose
