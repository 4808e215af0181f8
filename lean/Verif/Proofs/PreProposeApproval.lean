import Verif.Spec.PreProposeApproval
import Verif.Proofs.PreProposeFunds
/-! Histories of dao-pre-propose-approval-single. -/

namespace Verif.PrePropose.App
open Verif Verif.Voting Verif.PrePropose Verif.Spec.Approval
open Verif.Spec (Final)
open Verif.Spec.PrePropose (SoundPolicy MaySubmit amountIn payment toTake receiver)

variable {M : PropModule} {inv : M.St → Prop}

/-- What is known of completions: those told (`dl`) and those waiting are of final proposals, each at most once. -/
structure Done (M : PropModule) (s : M.St) (queue dl : List (Nat × Status)) : Prop where
  queued : ∀ x ∈ queue, ∃ st', M.statusOf s x.1 = some st' ∧ Reports x.2 st'
  past : ∀ x ∈ dl, ∃ st', M.statusOf s x.1 = some st' ∧ Reports x.2 st'
  nodup : (queue.map Prod.fst ++ dl.map Prod.fst).Nodup

theorem Done.step {s s' : M.St} {e : M.Env} {c : M.Call} {o : ModOut} {q dl : List (Nat × Status)}
    (L : LawfulBy M inv) (hi : inv s) (h : Done M s q dl) (hs : M.step s e c = .ok (s', o)) (here : Addr) :
    Done M s' (q ++ hooksFor here o.completed) dl := by
  have keep : ∀ x : Nat × Status, (∃ st', M.statusOf s x.1 = some st' ∧ Reports x.2 st') →
      ∃ st', M.statusOf s' x.1 = some st' ∧ Reports x.2 st' := by
    rintro x ⟨st', h1, h2⟩
    exact ⟨st', L.final_stays hi hs h1 h2.final, h2⟩
  have same : hooksFor here o.completed = [] → Done M s' (q ++ hooksFor here o.completed) dl := by
    intro hn
    rw [hn, List.append_nil]
    exact ⟨fun x hx => keep x (h.queued x hx), fun x hx => keep x (h.past x hx), h.nodup⟩
  rcases L.completed hi hs with ⟨hc, _⟩ | ⟨id, st, st', st0, hc, h0, hnf, h1, hrep, _⟩
  · exact same (by rw [hc]; rfl)
  · cases hp : M.policy s with
    | anyone => exact same (by rw [hc, hp]; rfl)
    | module a =>
      by_cases ha : a = here
      · have hq : hooksFor here o.completed = [(id, st)] := by
          rw [hc, hp]; simp [hooksFor, hookOf, ha]
        rw [hq]
        have hnew : ∀ x : Nat × Status, (∃ st', M.statusOf s x.1 = some st' ∧ Reports x.2 st') → x.1 ≠ id := by
          rintro x ⟨st'', h2, h3⟩ hne
          rw [hne, h0] at h2; injection h2 with h2; subst h2
          exact hnf h3.final
        refine ⟨?_, fun x hx => keep x (h.past x hx), ?_⟩
        · intro x hx
          rcases List.mem_append.1 hx with hx | hx
          · exact keep x (h.queued x hx)
          · simp only [List.mem_singleton] at hx; subst hx
            exact ⟨st', h1, hrep⟩
        · have hid : id ∉ q.map Prod.fst ++ dl.map Prod.fst := by
            intro hm
            rcases List.mem_append.1 hm with hm | hm
            · obtain ⟨x, hx, rfl⟩ := List.mem_map.1 hm
              exact hnew x (h.queued x hx) rfl
            · obtain ⟨x, hx, rfl⟩ := List.mem_map.1 hm
              exact hnew x (h.past x hx) rfl
          rw [List.map_append, List.map_cons, List.map_nil, List.append_assoc]
          exact (List.Perm.nodup_iff List.perm_middle).2 (List.nodup_cons.2 ⟨hid, h.nodup⟩)
      · refine same ?_
        rw [hc, hp]
        simp [hooksFor, hookOf, ha]

theorem Done.deliver {s s' : M.St} {q dl : List (Nat × Status)} {i : Nat} {x : Nat × Status} (h : Done M s q dl)
    (hst : M.statusOf s' = M.statusOf s) (hi : q[i]? = some x) : Done M s' (q.eraseIdx i) (x :: dl) := by
  have hlt : i < q.length := (List.getElem?_eq_some_iff.1 hi).1
  have hget : q[i] = x := (List.getElem?_eq_some_iff.1 hi).2
  refine ⟨?_, ?_, ?_⟩
  · intro y hy; rw [hst]
    exact h.queued y (List.mem_of_mem_eraseIdx hy)
  · intro y hy; rw [hst]
    rcases List.mem_cons.1 hy with rfl | hy
    · exact h.queued _ (List.mem_of_getElem? hi)
    · exact h.past y hy
  · refine (List.Perm.nodup_iff ?_).1 h.nodup
    have p1 : (q.map Prod.fst).Perm (x.1 :: (q.eraseIdx i).map Prod.fst) := by
      have := (List.getElem_cons_eraseIdx_perm hlt).symm.map Prod.fst
      rwa [List.map_cons, hget] at this
    rw [List.map_cons]
    exact (p1.append_right _).trans List.perm_middle.symm

/-- What holds in every state of a history. -/
structure Inv (M : PropModule) (inv : M.St → Prop) (w : AWorld M) (log : List (Event M)) : Prop where
  mod : inv w.base.mod
  daoNe : w.base.pre.dao ≠ w.base.here
  modNe : w.base.pre.module ≠ w.base.here
  good : GoodDeposit w.base.pre.config.deposit
  sound : SoundPolicy w.base.pre.config.policy
  wf : AMap.WF (submissions log)
  le : ∀ id s, (id, s) ∈ submissions log → id ≤ w.app.current
  ok : ∀ id s, (id, s) ∈ submissions log → GoodDeposit s.deposit ∧ s.proposer ≠ w.base.here
  nodup : (decided log).Nodup
  known : ∀ id ∈ decided log, ∃ s, AMap.get (submissions log) id = some s
  pending : ∀ id, w.app.pending.get id = if id ∈ decided log then none else AMap.get (submissions log) id
  awf : AMap.WF (approvals log)
  ale : ∀ pid id, (pid, id) ∈ approvals log → pid ≤ M.count w.base.mod ∧ id ∈ decided log
  aone : ((approvals log).map Prod.snd).Nodup
  anot : ∀ pid id, (pid, id) ∈ approvals log → ∀ e ∈ log, rejects e id = false
  deps : ∀ pid, w.base.pre.deposits.get pid =
    ((AMap.get (approvals log) pid).bind (AMap.get (submissions log))).map (fun s => (s.deposit, s.proposer))
  created : ∀ pid, w.app.created.get pid = AMap.get (approvals log) pid
  comp : ∀ id, w.app.completed.get id = if id ∈ decided log then
      (AMap.get (submissions log) id).map (fun s =>
        (s, match (approvals log).find? (fun x => x.2 == id) with | some x => .approved x.1 | none => .rejected))
    else none
  done : Done M w.base.mod w.base.queue (log.filterMap delivered)
  payers : ∀ x ∈ w.base.takes, x.1 ≠ w.base.here

theorem inv_init (L : LawfulBy M inv) {b : Block} {w : AWorld M} (h : (asys M).init b w) : Inv M inv w [] := by
  obtain ⟨⟨h1, h2, h3, h4, h5, c, h6⟩, h7, h8, h9, h10⟩ := h
  obtain ⟨hg, hs, hp⟩ := instantiate_ok h6
  have e1 : w.base.pre.config = c := by rw [hp]
  have e2 : w.base.pre.deposits = [] := by rw [hp]
  refine ⟨reachable_inv L h1, h4, h5, e1 ▸ hg, e1 ▸ hs, ?_, ?_, ?_, ?_, ?_, ?_, ?_, ?_, ?_, ?_, ?_, ?_, ?_, ⟨?_, ?_, ?_⟩, ?_⟩
  · simp [submissions, AMap.WF]
  · intro id x hx; simp [submissions] at hx
  · intro id x hx; simp [submissions] at hx
  · simp [decided]
  · simp [decided]
  · intro id; rw [h8]; simp [decided, submissions, AMap.get]
  · simp [approvals, AMap.WF]
  · intro pid id hx; simp [approvals] at hx
  · simp [approvals]
  · intro pid id hx; simp [approvals] at hx
  · intro pid; rw [e2]; simp [approvals, AMap.get]
  · intro pid; rw [h10]; simp [approvals, AMap.get]
  · intro id; rw [h9]; simp [decided, AMap.get]
  · rw [h2]; simp
  · simp
  · rw [h2]; simp
  · rw [h3]; simp

theorem submissions_cons (e : Event M) (log : List (Event M)) :
    submissions (e :: log) = (match submission e with | some x => x :: submissions log | none => submissions log) := by
  simp only [submissions, List.filterMap_cons]
  cases submission e <;> rfl

theorem decided_cons (e : Event M) (log : List (Event M)) :
    decided (e :: log) = (match decides e with | some x => x :: decided log | none => decided log) := by
  simp only [decided, List.filterMap_cons]
  cases decides e <;> rfl

theorem approvals_cons (e : Event M) (log : List (Event M)) :
    approvals (e :: log) = (match approval e with | some x => x :: approvals log | none => approvals log) := by
  simp only [approvals, List.filterMap_cons]
  cases approval e <;> rfl

/-- Which parts of the state a step that neither submits nor decides leaves alone. -/
theorem inv_other {w w' : AWorld M} {e : Env M} {c : ACall M} {o : AOut} {log : List (Event M)}
    (hi : Inv M inv w log)
    (hsub : submission (M := M) ⟨w, e, c, o, w'⟩ = none) (hdec : decides (M := M) ⟨w, e, c, o, w'⟩ = none)
    (hmod : inv w'.base.mod) (hcnt : M.count w.base.mod ≤ M.count w'.base.mod)
    (hdao : w'.base.pre.dao = w.base.pre.dao) (hm : w'.base.pre.module = w.base.pre.module)
    (hh : w'.base.here = w.base.here)
    (hgood : GoodDeposit w'.base.pre.config.deposit) (hsound : SoundPolicy w'.base.pre.config.policy)
    (hdep : w'.base.pre.deposits = w.base.pre.deposits)
    (hcur : w'.app.current = w.app.current) (hpen : w'.app.pending = w.app.pending)
    (hcom : w'.app.completed = w.app.completed) (hcre : w'.app.created = w.app.created)
    (hdone : Done M w'.base.mod w'.base.queue (((⟨w, e, c, o, w'⟩ : Event M) :: log).filterMap delivered))
    (htakes : ∀ x ∈ w'.base.takes, x ∈ w.base.takes) : Inv M inv w' (⟨w, e, c, o, w'⟩ :: log) := by
  have happ : approval (M := M) ⟨w, e, c, o, w'⟩ = none := by
    unfold approval
    split
    · rename_i id pid hc _
      simp only at hc; subst hc
      simp [decides] at hdec
    · rfl
  have hrej : ∀ id, rejects (M := M) ⟨w, e, c, o, w'⟩ id = false := by
    intro id
    unfold rejects
    split
    · rename_i i hc
      simp only at hc; subst hc
      simp [decides] at hdec
    · rfl
  have e1 : submissions (M := M) (⟨w, e, c, o, w'⟩ :: log) = submissions log := by rw [submissions_cons, hsub]
  have e2 : decided (M := M) (⟨w, e, c, o, w'⟩ :: log) = decided log := by rw [decided_cons, hdec]
  have e3 : approvals (M := M) (⟨w, e, c, o, w'⟩ :: log) = approvals log := by rw [approvals_cons, happ]
  refine ⟨hmod, by rw [hdao, hh]; exact hi.daoNe, by rw [hm, hh]; exact hi.modNe, hgood, hsound, ?_, ?_, ?_, ?_, ?_, ?_,
    ?_, ?_, ?_, ?_, ?_, ?_, ?_, hdone, ?_⟩
  · rw [e1]; exact hi.wf
  · rw [e1, hcur]; exact hi.le
  · rw [e1, hh]; exact hi.ok
  · rw [e2]; exact hi.nodup
  · rw [e1, e2]; exact hi.known
  · rw [e1, e2, hpen]; exact hi.pending
  · rw [e3]; exact hi.awf
  · rw [e2, e3]; intro pid id h
    exact ⟨Nat.le_trans (hi.ale pid id h).1 hcnt, (hi.ale pid id h).2⟩
  · rw [e3]; exact hi.aone
  · rw [e3]; intro pid id h ev hev
    rcases List.mem_cons.1 hev with rfl | hev
    · exact hrej id
    · exact hi.anot pid id h ev hev
  · rw [e1, e3, hdep]; exact hi.deps
  · rw [e3, hcre]; exact hi.created
  · rw [e1, e2, e3, hcom]; exact hi.comp
  · intro x hx; rw [hh]; exact hi.payers x (htakes x hx)

theorem takeDeposit_ok {s : Pre} {a : Addr} {funds : List (Nat × Nat)} {ts : List (Addr × Token × Nat)}
    (h : takeDeposit s a funds = .ok ts) :
    (∀ t, amountIn t s.config.deposit ≤ coinsOf t funds + (ts.map (fun x => if x.2.1 = t then x.2.2 else 0)).sum) ∧
      ∀ x ∈ ts, x.1 = a := by
  unfold takeDeposit at h
  cases hd : s.config.deposit with
  | none =>
    rw [hd] at h
    simp only [Except.ok.injEq] at h
    subst h
    exact ⟨fun t => Nat.zero_le _, by simp⟩
  | some d =>
    rw [hd] at h
    simp only [bind_ok, Except.ok.injEq] at h
    obtain ⟨_, h2, rfl⟩ := h
    refine ⟨?_, ?_⟩
    · intro t
      simp only [amountIn]
      split
      · rename_i ht
        unfold checkPaid at h2
        unfold takeMsgs
        cases htok : d.token with
        | native n =>
          rw [htok] at h2
          simp only [bind_ok, require_ok, decide_eq_true_eq] at h2
          obtain ⟨paid, h3, h4⟩ := h2
          have := mustPay_ok h3
          subst this
          simp [← ht, htok, h4]
        | cw20 c =>
          simp only
          split
          · omega
          · simp [← ht, htok]
      · exact Nat.zero_le _
    · intro x hx
      unfold takeMsgs at hx
      split at hx
      · simp at hx
      · split at hx
        · simp at hx
        · simp only [List.mem_singleton] at hx
          subst hx; rfl

/-- What a step of the base leaves alone. -/
theorem base_kept {w w' : World M} {e : Env M} {c : Call M} {o : Out} (h : toBase c = true)
    (hs : step w e c = .ok (w', o)) :
    w'.here = w.here ∧ Kept w.pre w'.pre ∧ (∀ x ∈ w'.takes, x ∈ w.takes) := by
  cases c with
  | propose p => cases h
  | pre m =>
    simp only [step, stepPre, bind_ok] at hs
    obtain ⟨_, ha, bal, hb, ⟨pre, ps⟩, hp, bal', hpay, hs⟩ := hs
    simp only [Except.ok.injEq, Prod.mk.injEq] at hs
    obtain ⟨rfl, rfl⟩ := hs
    exact ⟨rfl, (exec_kept hp).1, fun x hx => hx⟩
  | completed id st =>
    simp only [step, stepCompleted, bind_ok, Except.ok.injEq, Prod.mk.injEq] at hs
    obtain ⟨_, ha, ps, hpp, bal', hpay, rfl, rfl⟩ := hs
    exact ⟨rfl, ⟨rfl, rfl, rfl, fun h => h, fun h => h⟩, fun x hx => hx⟩
  | module c =>
    simp only [step, stepModule, bind_ok] at hs
    obtain ⟨_, ha, _, hout, ⟨mod, mo⟩, hm, hs⟩ := hs
    simp only [Except.ok.injEq, Prod.mk.injEq] at hs
    obtain ⟨rfl, rfl⟩ := hs
    exact ⟨rfl, ⟨rfl, rfl, rfl, fun h => h, fun h => h⟩, fun x hx => hx⟩
  | deliver i =>
    simp only [step, stepDeliver] at hs
    split at hs
    · cases hs
    · split at hs
      · simp only [Except.ok.injEq, Prod.mk.injEq] at hs
        obtain ⟨rfl, rfl⟩ := hs
        exact ⟨rfl, ⟨rfl, rfl, rfl, fun h => h, fun h => h⟩, fun x hx => hx⟩
      · simp only [bind_ok, Except.ok.injEq, Prod.mk.injEq] at hs
        obtain ⟨mod, hm, rfl, rfl⟩ := hs
        exact ⟨rfl, ⟨rfl, rfl, rfl, fun h => h, fun h => h⟩, fun x hx => hx⟩
  | take i =>
    simp only [step, stepTake] at hs
    split at hs
    · cases hs
    · simp only [bind_ok, Except.ok.injEq, Prod.mk.injEq] at hs
      obtain ⟨bal, hb, rfl, rfl⟩ := hs
      exact ⟨rfl, ⟨rfl, rfl, rfl, fun h => h, fun h => h⟩, fun x hx => List.mem_of_mem_eraseIdx hx⟩
  | transfer src dst t n =>
    simp only [step, stepTransfer, bind_ok, Except.ok.injEq, Prod.mk.injEq] at hs
    obtain ⟨_, ha, bal, hb, rfl, rfl⟩ := hs
    exact ⟨rfl, ⟨rfl, rfl, rfl, fun h => h, fun h => h⟩, fun x hx => hx⟩

/-- The completions delivered after a step of the base. -/
def plus (w : World M) (c : Call M) (dl : List (Nat × Status)) : List (Nat × Status) :=
  match c with
  | .deliver i => match w.queue[i]? with | some x => x :: dl | none => dl
  | _ => dl

/-- What a step of the base does to the proposal module and the completions. -/
theorem base_done (L : LawfulBy M inv) {w w' : World M} {e : Env M} {c : Call M} {o : Out}
    {dl : List (Nat × Status)} (h : toBase c = true) (hi : inv w.mod) (hd : Done M w.mod w.queue dl)
    (hs : step w e c = .ok (w', o)) :
    inv w'.mod ∧ M.count w.mod ≤ M.count w'.mod ∧
      Done M w'.mod w'.queue (plus w c dl) := by
  cases c with
  | propose p => cases h
  | pre m =>
    simp only [step, stepPre, bind_ok] at hs
    obtain ⟨_, ha, bal, hb, ⟨pre, ps⟩, hp, bal', hpay, hs⟩ := hs
    simp only [Except.ok.injEq, Prod.mk.injEq] at hs
    obtain ⟨rfl, rfl⟩ := hs
    exact ⟨hi, Nat.le_refl _, hd⟩
  | completed id st =>
    simp only [step, stepCompleted, bind_ok, Except.ok.injEq, Prod.mk.injEq] at hs
    obtain ⟨_, ha, ps, hpp, bal', hpay, rfl, rfl⟩ := hs
    exact ⟨hi, Nat.le_refl _, hd⟩
  | module c =>
    simp only [step, stepModule, bind_ok] at hs
    obtain ⟨_, ha, _, hout, ⟨mod, mo⟩, hm, hs⟩ := hs
    simp only [Except.ok.injEq, Prod.mk.injEq] at hs
    obtain ⟨rfl, rfl⟩ := hs
    refine ⟨L.step_inv hi hm, ?_, hd.step L hi hm w.here⟩
    rcases L.count_step hi hm with ⟨_, h⟩ | ⟨_, h⟩ <;> (simp only; omega)
  | deliver i =>
    simp only [step, stepDeliver] at hs
    split at hs
    · cases hs
    · rename_i id st hq
      split at hs
      · simp only [Except.ok.injEq, Prod.mk.injEq] at hs
        obtain ⟨rfl, rfl⟩ := hs
        simp only [plus, hq]
        exact ⟨hi, Nat.le_refl _, hd.deliver rfl hq⟩
      · simp only [bind_ok, Except.ok.injEq, Prod.mk.injEq] at hs
        obtain ⟨mod, hm, rfl, rfl⟩ := hs
        obtain ⟨f1, f2, f3, f4⟩ := L.failed hi hm
        simp only [plus, hq]
        exact ⟨f1, by omega, hd.deliver f3 hq⟩
  | take i =>
    simp only [step, stepTake] at hs
    split at hs
    · cases hs
    · simp only [bind_ok, Except.ok.injEq, Prod.mk.injEq] at hs
      obtain ⟨bal, hb, rfl, rfl⟩ := hs
      exact ⟨hi, Nat.le_refl _, hd⟩
  | transfer src dst t n =>
    simp only [step, stepTransfer, bind_ok, Except.ok.injEq, Prod.mk.injEq] at hs
    obtain ⟨_, ha, bal, hb, rfl, rfl⟩ := hs
    exact ⟨hi, Nat.le_refl _, hd⟩

/-- The invariant is kept. -/
theorem inv_step (L : LawfulBy M inv) {w w' : AWorld M} {e : Env M} {c : ACall M} {o : AOut} {log : List (Event M)}
    (hi : Inv M inv w log) (hs : astep w e c = .ok (w', o)) : Inv M inv w' (⟨w, e, c, o, w'⟩ :: log) := by
  cases c with
  | submit p =>
    simp only [astep, stepSubmit, advanceId, bind_ok, require_ok, decide_eq_true_eq, Except.ok.injEq, Prod.mk.injEq,
      add64_ok] at hs
    obtain ⟨_, ha, bal, hb, _, hcan, ts, hts, id, ⟨_, rfl⟩, rfl, rfl⟩ := hs
    have e1 : ∀ o w', o.approvalId = some (w.app.current + 1) →
        submissions (M := M) (⟨w, e, .submit p, o, w'⟩ :: log) =
        (w.app.current + 1, ⟨p, M.sender e.mod, w.base.pre.config.deposit⟩) :: submissions log := by
      intro o w' ho; rw [submissions_cons]; simp only [submission, ho]
    have e2 : ∀ o w', decided (M := M) (⟨w, e, .submit p, o, w'⟩ :: log) = decided log := by
      intro o w'; rw [decided_cons]; rfl
    have e3 : ∀ o w', approvals (M := M) (⟨w, e, .submit p, o, w'⟩ :: log) = approvals log := by
      intro o w'; rw [approvals_cons]; rfl
    have hnew : ∀ s, (w.app.current + 1, s) ∉ submissions log := by
      intro s hm
      have := hi.le _ _ hm
      omega
    have hnk : w.app.current + 1 ∉ decided log := by
      intro hm
      obtain ⟨s, hs⟩ := hi.known _ hm
      exact hnew s (AMap.mem_of_get hs)
    have hold : ∀ id ∈ decided log, AMap.get ((w.app.current + 1, (⟨p, M.sender e.mod, w.base.pre.config.deposit⟩ :
        Submission M)) :: submissions log) id = AMap.get (submissions log) id := by
      intro id hid
      simp only [AMap.get]
      rw [if_neg (fun (h : w.app.current + 1 = id) => hnk (h ▸ hid))]
    refine ⟨hi.mod, hi.daoNe, hi.modNe, hi.good, hi.sound, ?_, ?_, ?_, ?_, ?_, ?_,
      ?_, ?_, ?_, ?_, ?_, ?_, ?_, hi.done, ?_⟩
    · rw [e1 _ _ rfl]
      unfold AMap.WF
      rw [List.map_cons, List.nodup_cons]
      refine ⟨?_, hi.wf⟩
      intro hm
      obtain ⟨⟨i, s⟩, hx, he⟩ := List.mem_map.1 hm
      simp only at he; subst he
      exact hnew s hx
    · rw [e1 _ _ rfl]
      intro id s hx
      rcases List.mem_cons.1 hx with hx | hx
      · simp only [Prod.mk.injEq] at hx; simp only; omega
      · have := hi.le _ _ hx; simp only; omega
    · rw [e1 _ _ rfl]
      intro id s hx
      rcases List.mem_cons.1 hx with hx | hx
      · simp only [Prod.mk.injEq] at hx
        obtain ⟨_, rfl⟩ := hx
        exact ⟨hi.good, ha⟩
      · exact hi.ok _ _ hx
    · rw [e2]; exact hi.nodup
    · rw [e1 _ _ rfl, e2]; intro id hid
      rw [hold id hid]; exact hi.known id hid
    · rw [e1 _ _ rfl, e2]; intro id
      simp only [AMap.get_set, AMap.get]
      by_cases h : w.app.current + 1 = id
      · subst h
        rw [if_pos rfl, if_pos rfl, if_neg hnk]
      · rw [if_neg h, if_neg h]; exact hi.pending id
    · rw [e3]; exact hi.awf
    · rw [e2, e3]; exact hi.ale
    · rw [e3]; exact hi.aone
    · rw [e3]; intro pid id h ev hev
      rcases List.mem_cons.1 hev with rfl | hev
      · rfl
      · exact hi.anot pid id h ev hev
    · rw [e1 _ _ rfl, e3]; intro pid
      rw [hi.deps pid]
      cases hg : AMap.get (approvals log) pid with
      | none => rfl
      | some id =>
        simp only [Option.bind_some]
        rw [hold id (hi.ale _ _ (AMap.mem_of_get hg)).2]
    · rw [e3]; exact hi.created
    · rw [e1 _ _ rfl, e2, e3]; intro id
      simp only
      rw [hi.comp id]
      by_cases h : id ∈ decided log
      · rw [if_pos h, if_pos h, hold id h]
      · rw [if_neg h, if_neg h]
    · intro x hx
      rcases List.mem_append.1 hx with hx | hx
      · exact hi.payers x hx
      · rw [(takeDeposit_ok hts).2 x hx]; exact ha
  | approve id =>
    simp only [astep, stepApprove, bind_ok, require_ok, decide_eq_true_eq, orErr_ok] at hs
    obtain ⟨_, ha, bal, hb, _, happ, s, hs0, ⟨mod, mo⟩, hm, hs⟩ := hs
    simp only [Except.ok.injEq, Prod.mk.injEq] at hs
    obtain ⟨rfl, rfl⟩ := hs
    have hnew := (L.propose_new hm).1
    have hcnt : M.count mod = M.count w.base.mod + 1 := by
      rcases L.count_step hi.mod hm with ⟨_, h⟩ | ⟨h, _⟩
      · exact h
      · rw [hnew] at h; cases h
    have hnd : id ∉ decided log := by
      intro h
      rw [hi.pending, if_pos h] at hs0; cases hs0
    have hsub : AMap.get (submissions log) id = some s := by
      rw [hi.pending, if_neg hnd] at hs0; exact hs0
    have e1 : ∀ o w', submissions (M := M) (⟨w, e, .approve id, o, w'⟩ :: log) = submissions log := by
      intro o w'; rw [submissions_cons]; rfl
    have e2 : ∀ o w', decided (M := M) (⟨w, e, .approve id, o, w'⟩ :: log) = id :: decided log := by
      intro o w'; rw [decided_cons]; rfl
    have e3 : ∀ o w', o.newId = some (M.count w.base.mod + 1) →
        approvals (M := M) (⟨w, e, .approve id, o, w'⟩ :: log) =
        (M.count w.base.mod + 1, id) :: approvals log := by
      intro o w' ho; rw [approvals_cons]; simp only [approval, ho]
    refine ⟨L.step_inv hi.mod hm, hi.daoNe, hi.modNe, hi.good, hi.sound, ?_, ?_, ?_, ?_, ?_, ?_,
      ?_, ?_, ?_, ?_, ?_, ?_, ?_, ?_, hi.payers⟩
    · rw [e1]; exact hi.wf
    · rw [e1]; exact hi.le
    · rw [e1]; exact hi.ok
    · rw [e2]; exact List.nodup_cons.2 ⟨hnd, hi.nodup⟩
    · rw [e1, e2]; intro i h
      rcases List.mem_cons.1 h with rfl | h
      · exact ⟨s, hsub⟩
      · exact hi.known i h
    · rw [e1, e2]; intro i
      simp only [AMap.get_erase, List.mem_cons]
      by_cases h : id = i
      · subst h
        rw [if_pos rfl, if_pos (.inl rfl)]
      · rw [if_neg h, hi.pending]
        by_cases h2 : i ∈ decided log
        · rw [if_pos h2, if_pos (.inr h2)]
        · rw [if_neg h2, if_neg (by rintro (h3 | h3); exact h h3.symm; exact h2 h3)]
    · rw [e3 _ _ hnew]
      unfold AMap.WF
      rw [List.map_cons, List.nodup_cons]
      refine ⟨?_, hi.awf⟩
      intro hmm
      obtain ⟨⟨i, a⟩, hx, he⟩ := List.mem_map.1 hmm
      have := (hi.ale _ _ hx).1
      simp only at he; omega
    · rw [e2, e3 _ _ hnew]; intro pid i h
      simp only
      rw [hcnt]
      rcases List.mem_cons.1 h with h | h
      · simp only [Prod.mk.injEq] at h
        exact ⟨by omega, by rw [h.2]; exact List.mem_cons_self ..⟩
      · have := hi.ale _ _ h
        exact ⟨by omega, List.mem_cons_of_mem _ this.2⟩
    · rw [e3 _ _ hnew, List.map_cons, List.nodup_cons]
      refine ⟨?_, hi.aone⟩
      intro hmm
      obtain ⟨⟨i, a⟩, hx, he⟩ := List.mem_map.1 hmm
      simp only at he; subst he
      exact hnd (hi.ale _ _ hx).2
    · rw [e3 _ _ hnew]; intro pid i h ev hev
      rcases List.mem_cons.1 hev with rfl | hev
      · rfl
      · rcases List.mem_cons.1 h with h | h
        · simp only [Prod.mk.injEq] at h
          cases hr : rejects ev i with
          | false => rfl
          | true =>
            exfalso
            unfold rejects at hr
            split at hr
            · rename_i j hj
              have := of_decide_eq_true hr
              subst this
              refine hnd ?_
              rw [← h.2]
              exact List.mem_filterMap.2 ⟨ev, hev, by simp only [decides, hj]⟩
            · cases hr
        · exact hi.anot pid i h ev hev
    · rw [e1, e3 _ _ hnew]; intro pid
      simp only [AMap.get_set, AMap.get]
      by_cases h : M.count w.base.mod + 1 = pid
      · rw [if_pos h, if_pos h]
        simp only [Option.bind_some, hsub, Option.map_some]
      · rw [if_neg h, if_neg h]; exact hi.deps pid
    · rw [e3 _ _ hnew]; intro pid
      simp only [AMap.get_set, AMap.get]
      by_cases h : M.count w.base.mod + 1 = pid
      · rw [if_pos h, if_pos h]
      · rw [if_neg h, if_neg h]; exact hi.created pid
    · rw [e1, e2, e3 _ _ hnew]; intro i
      simp only [AMap.get_set, List.mem_cons, List.find?_cons]
      by_cases h : id = i
      · subst h
        rw [if_pos rfl, if_pos (.inl rfl), hsub]
        simp
      · rw [if_neg h, hi.comp]
        have h' : (id == i) = false := by simp [h]
        simp only [h']
        by_cases h2 : i ∈ decided log
        · rw [if_pos h2, if_pos (.inr h2)]
        · rw [if_neg h2, if_neg (by rintro (h3 | h3); exact h h3.symm; exact h2 h3)]
    · exact hi.done.step L hi.mod hm w.base.here
  | reject id =>
    simp only [astep, stepReject, bind_ok, require_ok, decide_eq_true_eq, orErr_ok, Except.ok.injEq, Prod.mk.injEq] at hs
    obtain ⟨_, ha, bal, hb, _, happ, s, hs0, bal', hpay, rfl, rfl⟩ := hs
    have hnd : id ∉ decided log := by
      intro h
      rw [hi.pending, if_pos h] at hs0; cases hs0
    have hsub : AMap.get (submissions log) id = some s := by
      rw [hi.pending, if_neg hnd] at hs0; exact hs0
    have e1 : ∀ o w', submissions (M := M) (⟨w, e, .reject id, o, w'⟩ :: log) = submissions log := by
      intro o w'; rw [submissions_cons]; rfl
    have e2 : ∀ o w', decided (M := M) (⟨w, e, .reject id, o, w'⟩ :: log) = id :: decided log := by
      intro o w'; rw [decided_cons]; rfl
    have e3 : ∀ o w', approvals (M := M) (⟨w, e, .reject id, o, w'⟩ :: log) = approvals log := by
      intro o w'; rw [approvals_cons]; rfl
    refine ⟨hi.mod, hi.daoNe, hi.modNe, hi.good, hi.sound, ?_, ?_, ?_, ?_, ?_, ?_,
      ?_, ?_, ?_, ?_, ?_, ?_, ?_, hi.done, hi.payers⟩
    · rw [e1]; exact hi.wf
    · rw [e1]; exact hi.le
    · rw [e1]; exact hi.ok
    · rw [e2]; exact List.nodup_cons.2 ⟨hnd, hi.nodup⟩
    · rw [e1, e2]; intro i h
      rcases List.mem_cons.1 h with rfl | h
      · exact ⟨s, hsub⟩
      · exact hi.known i h
    · rw [e1, e2]; intro i
      simp only [AMap.get_erase, List.mem_cons]
      by_cases h : id = i
      · subst h
        rw [if_pos rfl, if_pos (.inl rfl)]
      · rw [if_neg h, hi.pending]
        by_cases h2 : i ∈ decided log
        · rw [if_pos h2, if_pos (.inr h2)]
        · rw [if_neg h2, if_neg (by rintro (h3 | h3); exact h h3.symm; exact h2 h3)]
    · rw [e3]; exact hi.awf
    · rw [e2, e3]; intro pid i h
      exact ⟨(hi.ale _ _ h).1, List.mem_cons_of_mem _ (hi.ale _ _ h).2⟩
    · rw [e3]; exact hi.aone
    · rw [e3]; intro pid i h ev hev
      rcases List.mem_cons.1 hev with rfl | hev
      · simp only [rejects]
        exact decide_eq_false (fun hh => hnd (hh ▸ (hi.ale _ _ h).2))
      · exact hi.anot pid i h ev hev
    · rw [e1, e3]; exact hi.deps
    · rw [e3]; exact hi.created
    · rw [e1, e2, e3]; intro i
      simp only [AMap.get_set, List.mem_cons]
      by_cases h : id = i
      · subst h
        rw [if_pos rfl, if_pos (.inl rfl), hsub]
        have : (approvals log).find? (fun x => x.2 == id) = none := by
          rw [List.find?_eq_none]
          intro x hx
          obtain ⟨pid, j⟩ := x
          simp only [beq_iff_eq]
          intro hj
          exact hnd (hj ▸ (hi.ale _ _ hx).2)
        simp [this]
      · rw [if_neg h, hi.comp]
        by_cases h2 : i ∈ decided log
        · rw [if_pos h2, if_pos (.inr h2)]
        · rw [if_neg h2, if_neg (by rintro (h3 | h3); exact h h3.symm; exact h2 h3)]
  | updateApprover a =>
    simp only [astep, stepUpdateApprover, bind_ok, require_ok, Except.ok.injEq, Prod.mk.injEq] at hs
    obtain ⟨_, ha, bal, hb, _, happ, rfl, rfl⟩ := hs
    exact inv_other hi rfl rfl hi.mod (Nat.le_refl _) rfl rfl rfl hi.good hi.sound rfl rfl rfl rfl rfl hi.done
      (fun x hx => hx)
  | addHook a =>
    simp only [astep, stepHook, bind_ok, require_ok, Except.ok.injEq, Prod.mk.injEq] at hs
    obtain ⟨_, ha, bal, hb, _, happ, hk, _, rfl, rfl⟩ := hs
    exact inv_other hi rfl rfl hi.mod (Nat.le_refl _) rfl rfl rfl hi.good hi.sound rfl rfl rfl rfl rfl hi.done
      (fun x hx => hx)
  | removeHook a =>
    simp only [astep, stepHook, bind_ok, require_ok, Except.ok.injEq, Prod.mk.injEq] at hs
    obtain ⟨_, ha, bal, hb, _, happ, hk, _, rfl, rfl⟩ := hs
    exact inv_other hi rfl rfl hi.mod (Nat.le_refl _) rfl rfl rfl hi.good hi.sound rfl rfl rfl rfl rfl hi.done
      (fun x hx => hx)
  | base c =>
    simp only [astep, stepBase, bind_ok, require_ok] at hs
    obtain ⟨_, hc, ⟨b, o1⟩, hb, hs⟩ := hs
    simp only [Except.ok.injEq, Prod.mk.injEq] at hs
    obtain ⟨rfl, rfl⟩ := hs
    obtain ⟨k1, k2, k3⟩ := base_kept hc hb
    obtain ⟨d1, d2, d3⟩ := base_done L hc hi.mod hi.done hb
    refine inv_other hi rfl rfl d1 d2 k2.dao k2.module k1 (k2.deposit hi.good) (k2.policy hi.sound) k2.deposits
      rfl rfl rfl rfl ?_ k3
    simp only [List.filterMap_cons]
    cases c with
    | deliver i =>
      simp only [delivered]
      simp only [plus] at d3
      cases hq : w.base.queue[i]? with
      | none => rw [hq] at d3; exact d3
      | some x => rw [hq] at d3; exact d3
    | _ => exact d3

theorem inv_reach (L : LawfulBy M inv) {w : AWorld M} {b : Block} {log : List (Event M)}
    (h : (asys M).Reach w b log) : Inv M inv w log := by
  refine Sys.Reach.induct (P := fun w _ log => Inv M inv w log) ?_ ?_ h
  · intro b s h0; exact inv_init L h0
  · intro s b l env call out s' _ ih _ hs; exact inv_step L ih hs

end Verif.PrePropose.App
