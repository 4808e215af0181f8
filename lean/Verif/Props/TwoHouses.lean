import Verif.Proofs.TwoHouses
import Verif.Props.DepositDao
/-! C113: a DAO whose proposals another DAO has to approve sends only what both decided for. -/

namespace Verif.TwoHouses
open Verif Verif.Voting
open Verif.Spec Verif.Spec.TwoHouses
open Verif.DepositDao (whole whole_step whole_cases whole_of_step lawful whole_lawful propose_made)
open Verif.PrePropose (tcall_one tcall_two astep_mod tstep_call completed_ok AWorld ACall AOut Submission SinglePayload)
open Verif.WholeDao (VotingModule)
open Verif.Spec.WholeDao (Lawful Steady coreEvent)
open Verif.Spec.Approval (submissions)
open Verif.Spec.Approver (mirrored mirror)
open Verif.PrePropose.Approve (mirrored_cons)

variable {S1 E1 C1 O1 S2 E2 C2 O2 : Type} {V1 : VotingModule S1 E1 C1 O1} {V2 : VotingModule S2 E2 C2 O2}
  {d1 d2 : Nat → DaoCore.CosmosMsg}

/-- A history of the approval contract in which these submissions were made, and what is known of them. -/
def Told (w : AWorld (whole V1 d1)) (b : Block) (K : Nat → Submission (whole V1 d1) → Prop) (ids : List Nat) : Prop :=
  ∃ b1 l, (PrePropose.asys (whole V1 d1)).Reach w b1 l ∧ b1.le b ∧
    ∀ id ∈ ids, ∃ s, AMap.get (submissions l) id = some s ∧ K id s

theorem Told.weaken {w : AWorld (whole V1 d1)} {b b' : Block} {K K' : Nat → Submission (whole V1 d1) → Prop}
    {ids ids' : List Nat} (h : Told w b K ids) (hb : b.le b') (hi : ∀ x ∈ ids', x ∈ ids)
    (hK : ∀ id s, id ∈ ids' → K id s → K' id s) : Told w b' K' ids' := by
  obtain ⟨b1, l, h1, h2, h3⟩ := h
  refine ⟨b1, l, h1, Block.le_trans h2 hb, fun x hx => ?_⟩
  obtain ⟨s, hs, hk⟩ := h3 x (hi x hx)
  exact ⟨s, hs, hK x s hx hk⟩

theorem Told.step {w w' : AWorld (whole V1 d1)} {b : Block} {K : Nat → Submission (whole V1 d1) → Prop} {ids : List Nat}
    {e : PrePropose.Env (whole V1 d1)} {c : ACall (whole V1 d1)} {o : AOut} (h : Told w b K ids) (hb : b.le e.mod.block)
    (hs : PrePropose.astep w e c = .ok (w', o)) :
    Told w' e.mod.block K ids ∧ ∀ id p, c = .submit p → o.approvalId = some id → id ∉ ids ∧
      ∀ K' : Nat → Submission (whole V1 d1) → Prop, (∀ x s, x ∈ ids → K x s → K' x s) → (∀ s : Submission (whole V1 d1),
        s.payload = p → s.proposer = e.mod.sender → K' id s) → Told w' e.mod.block K' (ids ++ [id]) := by
  obtain ⟨b1, l, h1, h2, h3⟩ := h
  have hi := PrePropose.App.inv_reach lawful h1
  have hr : (PrePropose.asys (whole V1 d1)).Reach w' e.mod.block (⟨w, e, c, o, w'⟩ :: l) :=
    Sys.Reach.step (M := PrePropose.asys (whole V1 d1)) (env := e) (call := c) (out := o) h1 (Block.le_trans h2 hb) hs
  have hi' := PrePropose.App.inv_reach lawful hr
  have keep : ∀ {id s}, AMap.get (submissions l) id = some s →
      AMap.get (submissions (⟨w, e, c, o, w'⟩ :: l)) id = some s := by
    intro id s hs
    refine AMap.get_of_mem hi'.wf ?_
    have := AMap.mem_of_get hs
    rw [PrePropose.App.submissions_cons]
    cases Spec.Approval.submission (M := whole V1 d1) ⟨w, e, c, o, w'⟩ with
    | none => exact this
    | some x => exact List.mem_cons_of_mem _ this
  refine ⟨⟨_, _, hr, Block.le_refl _, fun id hid => ?_⟩, ?_⟩
  · obtain ⟨s, hs, hk⟩ := h3 id hid
    exact ⟨s, keep hs, hk⟩
  · rintro id p rfl ho
    obtain ⟨hid, _⟩ := PrePropose.Approve.new_submission hs ho
    refine ⟨?_, ?_⟩
    · intro hm
      obtain ⟨s, hs, _⟩ := h3 _ hm
      have := hi.le _ _ (AMap.mem_of_get hs)
      omega
    · intro K' hK hn
      refine ⟨_, _, hr, Block.le_refl _, fun x hx => ?_⟩
      rcases List.mem_append.1 hx with hx | hx
      · obtain ⟨s, hs, hk⟩ := h3 x hx
        exact ⟨s, keep hs, hK x s hx hk⟩
      · rw [List.mem_singleton] at hx; subst hx
        refine ⟨⟨p, e.mod.sender, w.base.pre.config.deposit⟩, ?_, hn _ rfl rfl⟩
        rw [PrePropose.App.submissions_cons]
        simp only [Spec.Approval.submission, ho, AMap.get, if_true]

/-- What happens to a proposal of the approving DAO. -/
theorem two_kept {w w' : World V1 V2 d1 d2} {e : PrePropose.TEnv (whole V1 d1) (whole V2 d2)}
    {c : PrePropose.TCall (whole V1 d1) (whole V2 d2)} {o : PrePropose.TOut}
    (hs : (sys V1 V2 d1 d2).step w e c = .ok (w', o)) (hi : Single.Inv (approving w).prop) :
    (approving w).prop.count ≤ (approving w').prop.count ∧
    ∀ id p, (approving w).prop.proposals.get id = some p →
      ∃ p', (approving w').prop.proposals.get id = some p' ∧ Single.SameRules p p' := by
  rcases (two (V1 := V1) (V2 := V2) (d1 := d1) (d2 := d2)).law hs with ⟨env', c', o', _, _, h3⟩ | ⟨_, h3⟩
  · change WholeDao.step V2 d2 (approving w) env' c' = .ok (approving w', o') at h3
    rcases whole_cases (whole_of_step h3) with ⟨m, rfl, hm⟩ | ⟨hm, _⟩
    · obtain ⟨o2, hm1, _⟩ := Single.module_step hm
      refine ⟨?_, fun id p hp => ?_⟩
      · rcases Single.newId_step hi hm1 with ⟨_, h⟩ | ⟨_, h⟩ <;> omega
      · obtain ⟨p', hp', hsame, _⟩ := Single.run_prop (.step .refl (b1 := env'.block) (Block.le_refl _) hm1) hi hp
        exact ⟨p', hp', hsame⟩
    · rw [hm]
      exact ⟨Nat.le_refl _, fun id p hp => ⟨p, hp, .refl _⟩⟩
  · change approving w' = approving w at h3
    rw [h3]
    exact ⟨Nat.le_refl _, fun id p hp => ⟨p, hp, .refl _⟩⟩

/-- What is known of a submission that was told to the approver contract. -/
def Known (n0 : Nat) (w : World V1 V2 d1 d2) (log : List (Event V1 V2 d1 d2)) (id : Nat)
    (s : Submission (whole V1 d1)) : Prop :=
  Submitted log id s.payload s.proposer ∧ ∀ pid, (pid, id) ∈ mirrored log → n0 < pid ∧
    ∃ y, (approving w).prop.proposals.get pid = some y ∧ y.content = SinglePayload.content s.payload ∧ y.msgs = []

/-- What holds in every state of a history. -/
def J (n0 : Nat) (w : World V1 V2 d1 d2) (b : Block) (log : List (Event V1 V2 d1 d2)) : Prop :=
  n0 ≤ (approving w).prop.count ∧ Told w.one b (Known n0 w log) (w.mirrors ++ (mirrored log).map Prod.snd)

theorem Submitted.cons {log : List (Event V1 V2 d1 d2)} {id : Nat} {p : SinglePayload} {a : Addr}
    (h : Submitted log id p a) (e : Event V1 V2 d1 d2) : Submitted (e :: log) id p a := by
  obtain ⟨x, hx, h⟩ := h
  exact ⟨x, List.mem_cons_of_mem _ hx, h⟩

theorem mirrored_mem {log : List (Event V1 V2 d1 d2)} {x : Nat × Nat} (h : x ∈ mirrored log) (e : Event V1 V2 d1 d2) :
    x ∈ mirrored (e :: log) := by
  rw [mirrored_cons]
  split
  · exact List.mem_cons_of_mem _ h
  · exact h

theorem j_init {w : World V1 V2 d1 d2} {b : Block} (h : (sys V1 V2 d1 d2).init b w) :
    J (approving w).prop.count w b [] := by
  obtain ⟨⟨b1, l, h1, h2⟩, _, _, h5, _⟩ := h
  refine ⟨Nat.le_refl _, b1, l, h1, h2, ?_⟩
  intro id hid
  rw [h5] at hid
  simp [mirrored] at hid

theorem payload_known {w : AWorld (whole V1 d1)} {b : Block} {l : List (Spec.Approval.Event (whole V1 d1))}
    (h : (PrePropose.asys (whole V1 d1)).Reach w b l) {id : Nat} {pl : SinglePayload} {s : Submission (whole V1 d1)}
    (hs : AMap.get (submissions l) id = some s) (hp : PrePropose.payloadOf w id = some pl) : pl = s.payload := by
  have hi := PrePropose.App.inv_reach lawful h
  unfold PrePropose.payloadOf at hp
  split at hp
  · rename_i s1 h1
    have := (PrePropose.App.was_pending hi h1).2
    rw [hs] at this; injection this with this; subst this
    injection hp with hp; exact hp.symm
  · rw [hi.comp] at hp
    split at hp
    · rw [hs] at hp
      simp only [Option.map_some, Option.some.injEq] at hp
      exact hp.symm
    · cases hp

theorem j_step {n0 : Nat} {w w' : World V1 V2 d1 d2} {e : PrePropose.TEnv (whole V1 d1) (whole V2 d2)}
    {c : PrePropose.TCall (whole V1 d1) (whole V2 d2)} {o : PrePropose.TOut} {b : Block}
    {log : List (Event V1 V2 d1 d2)} (hj : J n0 w b log) (hb : b.le e.one.mod.block)
    (hs : (sys V1 V2 d1 d2).step w e c = .ok (w', o)) (hi : Single.Inv (approving w).prop) :
    J n0 w' e.one.mod.block (⟨w, e, c, o, w'⟩ :: log) := by
  obtain ⟨hc, hk⟩ := two_kept hs hi
  obtain ⟨hn, ht⟩ := hj
  refine ⟨Nat.le_trans hn hc, ?_⟩
  have known : ∀ {id s}, (∀ pid, (pid, id) ∈ mirrored (⟨w, e, c, o, w'⟩ :: log) → (pid, id) ∈ mirrored log) →
      Known n0 w log id s → Known n0 w' (⟨w, e, c, o, w'⟩ :: log) id s := by
    rintro id s hm ⟨h1, h2⟩
    refine ⟨Submitted.cons h1 _, fun pid hp => ?_⟩
    obtain ⟨h3, y, h4, h5, h6⟩ := h2 pid (hm pid hp)
    obtain ⟨y', h7, h8⟩ := hk pid y h4
    exact ⟨h3, y', h7, h8.content.trans h5, h8.msgs.trans h6⟩
  have same : mirror (⟨w, e, c, o, w'⟩ : Event V1 V2 d1 d2) = none →
      mirrored (⟨w, e, c, o, w'⟩ :: log) = mirrored log := by
    intro h; rw [mirrored_cons, h]
  change PrePropose.tstep _ w e c = _ at hs
  obtain ⟨hbl, hs⟩ := tstep_call hs
  rcases tcall_one hs with ⟨c', o', rfl, _, ha, ho, hmir⟩ | ⟨i, pid, st, v, o', rfl, hq, hv, ha, hf, hmir⟩ |
      ⟨i, rfl, hf, hw, hmir⟩ | ⟨rfl, a1, o1, o2, ha1, ha2, hmir⟩ | ⟨hc', hw⟩
  · have hm := same rfl
    rw [hm, hmir]
    obtain ⟨t1, t2⟩ := ht.step hb ha
    cases hap : o'.approvalId with
    | none =>
      simp only [PrePropose.mirrorsFor, hap, List.append_nil]
      exact t1.weaken (Block.le_refl _) (fun _ h => h) (fun id s _ h => known (fun _ h => hm ▸ h) h)
    | some id =>
      obtain ⟨_, p, rfl⟩ := PrePropose.Approve.new_submission ha hap
      obtain ⟨hfresh, t3⟩ := t2 id p rfl hap
      refine (t3 (Known n0 w' (⟨w, e, .one (.submit p), o, w'⟩ :: log))
        (fun x s _ h => known (fun _ h => hm ▸ h) h) ?_).weaken (Block.le_refl _) ?_ (fun _ _ _ h => h)
      · intro s h1 h2
        refine ⟨⟨_, List.mem_cons_self, ?_, h2.symm, o', ho, hap⟩, fun pid hp => ?_⟩
        · rw [h1]
        · rw [hm] at hp
          exact absurd (List.mem_append_right _ (List.mem_map.2 ⟨_, hp, rfl⟩)) hfresh
      · intro x hx
        simp only [PrePropose.mirrorsFor, hap, List.mem_append, List.mem_singleton] at hx ⊢
        rcases hx with (hx | hx) | hx
        · exact .inl (.inl hx)
        · split at hx
          · exact .inr (List.mem_singleton.1 hx)
          · cases hx
        · exact .inl (.inr hx)
  · have hm := same rfl
    rw [hm, hmir]
    exact (ht.step (e := e.one.as w.here) hb ha).1.weaken (Block.le_refl _) (fun _ h => h)
      (fun id s _ h => known (fun _ h => hm ▸ h) h)
  · have hm := same rfl
    rw [hm, hmir, hw]
    exact ht.weaken hb (fun _ h => h) (fun id s _ h => known (fun _ h => hm ▸ h) h)
  · have hm := same rfl
    rw [hm, hmir]
    exact ((ht.step (e := e.one.as w.here) hb ha1).1.step (e := e.one.as w.here) (Block.le_refl _) ha2).1.weaken
      (Block.le_refl _) (fun _ h => h) (fun id s _ h => known (fun _ h => hm ▸ h) h)
  · rw [hw]
    rcases hc' with ⟨m, rfl⟩ | ⟨i, rfl⟩
    · have hm := same rfl
      rw [hm]
      have hmir : w'.mirrors = w.mirrors := by
        simp only [PrePropose.tcall, PrePropose.tstepTwo, bind_ok, Prod.exists] at hs
        obtain ⟨_, _, _, _, m, mo, _, h⟩ := hs
        injection h with h; injection h with h1 h2; subst h1; rfl
      rw [hmir]
      exact ht.weaken hb (fun _ h => h) (fun id s _ h => known (fun _ h => hm ▸ h) h)
    · rcases tcall_two hs with ⟨m, mo, h1, hm⟩ | ⟨i', id, pl, mo, h1, hid, hpl, hm, hnew⟩ | ⟨i, h1, _⟩ | ⟨_, h2, _⟩
      · cases h1
      · injection h1 with h1; subst h1
        have hmir : w'.mirrors = w.mirrors.eraseIdx i := by
          simp only [PrePropose.tcall, PrePropose.tstepMirror, hid, bind_ok, Prod.exists] at hs
          obtain ⟨_, _, _, _, m, mo, _, h⟩ := hs
          injection h with h; injection h with h1 h2; subst h1; rfl
        have hnid := (lawful.propose_new hm).1
        have hmm : mirrored ((⟨w, e, .mirror i, o, w'⟩ : Event V1 V2 d1 d2) :: log) =
            ((approving w).prop.count + 1, id) :: mirrored log := by
          rw [mirrored_cons]
          simp only [mirror, hid, hnew, hnid]
          rfl
        have hin : id ∈ w.mirrors := List.mem_of_getElem? hid
        obtain ⟨b1, l, r1, r2, r3⟩ := ht
        refine ⟨b1, l, r1, Block.le_trans r2 hb, fun x hx => ?_⟩
        have hx' : x ∈ w.mirrors ++ (mirrored log).map Prod.snd := by
          rw [hmm, hmir] at hx
          simp only [List.map_cons, List.mem_append, List.mem_cons] at hx ⊢
          rcases hx with hx | rfl | hx
          · exact .inl (List.mem_of_mem_eraseIdx hx)
          · exact .inl hin
          · exact .inr hx
        obtain ⟨s, hs1, hkn⟩ := r3 x hx'
        refine ⟨s, hs1, Submitted.cons hkn.1 _, fun pid hp => ?_⟩
        rw [hmm] at hp
        rcases List.mem_cons.1 hp with hp | hp
        · injection hp with hp1 hp2; subst hp1 hp2
          have hpay := payload_known r1 hs1 hpl
          subst hpay
          refine ⟨by omega, ?_⟩
          obtain ⟨m, hm0, hm1⟩ : ∃ o1, _ ∧ _ := by
            rcases whole_cases hm with ⟨m, h1, hm1⟩ | ⟨_, h2⟩
            · exact ⟨m, h1, hm1⟩
            · rw [h2] at hnid; cases hnid
          injection hm0 with hm0; subst hm0
          obtain ⟨o2, hm2, _⟩ := Single.module_step hm1
          obtain ⟨_, q, _, q2, q3, q4, _⟩ := propose_made hi hm2
          exact ⟨q, q2, q4, q3⟩
        · obtain ⟨h3, y, h4, h5, h6⟩ := hkn.2 pid hp
          obtain ⟨y', h7, h8⟩ := hk pid y h4
          exact ⟨h3, y', h7, h8.content.trans h5, h8.msgs.trans h6⟩
      · cases h1
      · exact absurd rfl (h2 i)

/-- A history of both keeps what is needed. -/
theorem run_inv {w0 w : World V1 V2 d1 d2} {b0 b b2 : Block} {log : List (Event V1 V2 d1 d2)}
    {l2 : List (WholeDao.Event S2 E2 C2)} (hinit : (sys V1 V2 d1 d2).init b0 w0)
    (h2 : (WholeDao.sys V2 d2).Reach (approving w0) b2 l2) (hb2 : b2.le b0)
    (h : (sys V1 V2 d1 d2).Run w0 b0 log w b) : J (approving w0).prop.count w b log := by
  induction h with
  | refl => exact j_init hinit
  | step hr hb hs ih => exact j_step ih hb hs ((two (V1 := V1) (V2 := V2) (d1 := d1) (d2 := d2)).inv hr hb2 h2)

theorem Approved.cons {l : List (WholeDao.Event S2 E2 C2)} {log : List (Event V1 V2 d1 d2)} {q q' : Single.Proposal}
    (h : Approved l log q) (hs : Single.SameRules q q') (e : Event V1 V2 d1 d2) : Approved l (e :: log) q' := by
  obtain ⟨id, pid, p, later, x, before, y, f, k1, k2, k3, k4, k5, k6, k7, k8, k9⟩ := h
  refine ⟨id, pid, p, e :: later, x, before, y, f, ?_, hs.content.trans k2, hs.msgs.trans k3, mirrored_mem k4 e, ?_, k6, k7,
    k8.trans hs.content.symm, k9⟩
  · rw [hs.proposer]
    exact Submitted.cons k1 e
  · rw [k5]; rfl

/-- **C113.** Every proposal made to the DAO while the approval contract was its pre-propose module, and the approver
contract the approver, was submitted with the same contents and messages, and the members of the approving DAO decided
for it. -/
theorem C113_proposals (hV2 : Lawful V2) {w0 w : World V1 V2 d1 d2} {b0 b b1 b2 : Block}
    {log : List (Event V1 V2 d1 d2)} {l1 : List (WholeDao.Event S1 E1 C1)} {l2 : List (WholeDao.Event S2 E2 C2)}
    (hinit : (sys V1 V2 d1 d2).init b0 w0)
    (h1 : (WholeDao.sys V1 d1).Reach (dao w0) b1 l1) (hb1 : b1.le b0)
    (h2 : (WholeDao.sys V2 d2).Reach (approving w0) b2 l2) (hb2 : b2.le b0)
    (h : (sys V1 V2 d1 d2).Run w0 b0 log w b) (hst : Steady (twoLog log ++ l2))
    (hatt : ∀ s ∈ log, (dao s.post).prop.count ≠ (dao s.pre).prop.count →
      (dao s.pre).prop.policy = .module s.pre.one.base.here ∧ s.pre.one.app.approver = s.pre.here)
    {id : Nat} {q : Single.Proposal} (hq : (dao w).prop.proposals.get id = some q) (hnew : (dao w0).prop.count < id) :
    Approved l2 log q := by
  induction h generalizing q with
  | refl =>
    have hi := (one (V1 := V1) (V2 := V2) (d1 := d1) (d2 := d2)).inv .refl hb1 h1
    have h1 := ((hi.ids id).1 (by change Option.isSome ((dao w0).prop.proposals.get id) = _; rw [hq]; rfl)).2
    change id ≤ (dao w0).prop.count at h1
    omega
  | @step w1 w2 b1 log e c o hr hb hs ih =>
    have hi1 : Single.Inv (dao w1).prop := (one (V1 := V1) (V2 := V2) (d1 := d1) (d2 := d2)).inv hr hb1 h1
    have hst1 : Steady (twoLog log ++ l2) := fun x hx => hst x (by
      unfold twoLog at hx ⊢
      rw [List.filterMap_cons]
      split
      · exact hx
      · exact List.mem_cons_of_mem _ hx)
    have old : ∀ {q1}, (dao w1).prop.proposals.get id = some q1 → Single.SameRules q1 q →
        Approved l2 (⟨w1, e, c, o, w2⟩ :: log) q :=
      fun hq1 hsame => Approved.cons (ih hst1 (fun s hs => hatt s (List.mem_cons_of_mem _ hs)) hq1) hsame _
    rcases (one (V1 := V1) (V2 := V2) (d1 := d1) (d2 := d2)).law hs with ⟨env', c', o', hcall, _, hd⟩ | ⟨_, h3⟩
    swap
    · change dao w2 = dao w1 at h3
      rw [h3] at hq
      exact old hq (.refl _)
    change oneCall _ = _ at hcall
    change WholeDao.step V1 d1 (dao w1) env' c' = .ok (dao w2, o') at hd
    rcases whole_cases (whole_of_step hd) with ⟨m, rfl, hm⟩ | ⟨hm, _⟩
    swap
    · rw [hm] at hq
      exact old hq (.refl _)
    obtain ⟨o2, hm1, _⟩ := Single.module_step hm
    have hi2 : Single.Inv (dao w2).prop := Single.lawful.step_inv hi1 hm
    cases hq1 : (dao w1).prop.proposals.get id with
    | some q1 =>
      obtain ⟨q', hq', hsame, _⟩ := Single.run_prop (.step .refl (b1 := env'.block) (Block.le_refl _) hm1) hi1 hq1
      rw [hq] at hq'; injection hq' with hq'; subst hq'
      exact old hq1 hsame
    | none =>
      have hle : (dao w1).prop.count < id := by
        by_contra hcon
        have := (hi1.ids id).2 ⟨by omega, by omega⟩
        rw [hq1] at this; cases this
      have hle2 := ((hi2.ids id).1 (by rw [hq]; rfl)).2
      rcases Single.newId_step hi1 hm1 with ⟨hn1, hn2⟩ | ⟨_, hn2⟩
      swap
      · omega
      have hid : id = (dao w1).prop.count + 1 := by omega
      obtain ⟨hpol, happ⟩ := hatt _ (List.mem_cons_self) (by simp only; omega)
      simp only at hpol happ
      have hinvT := PrePropose.Approve.inv_reach (M1 := whole V1 d1) (M2 := whole V2 d2) lawful lawful
        (⟨b0, w0, hinit, hr⟩ : (sys V1 V2 d1 d2).Reach w1 b1 log)
      obtain ⟨_, b3, l, r1, _, r3⟩ := run_inv hinit h2 hb2 hr
      change PrePropose.tstep _ w1 e c = _ at hs
      obtain ⟨_, hs⟩ := tstep_call hs
      rcases tcall_one hs with ⟨c', o3, rfl, hne, ha, ho, _⟩ | ⟨i, pid, st, v, o3, rfl, hqu, hv, ha, hf, _⟩ |
        ⟨i, rfl, hf, hw, _⟩ | ⟨rfl, _⟩ | ⟨hc, hw⟩
      · exfalso
        rcases astep_mod ha with ⟨sid, s, mo, rfl, happr, hs', hm'⟩ | ⟨m', mo, rfl, hne', hm'⟩ | ⟨i, rfl, hf, hm'⟩ |
          ⟨g1, g2, g3, g4⟩
        · rw [happ] at happr
          exact hne happr.symm
        · simp only [oneCall, Option.some.injEq, Prod.mk.injEq] at hcall
          obtain ⟨rfl, rfl⟩ := hcall
          rcases Single.newId_by hm1 with hnn | hper
          · rw [hn1] at hnn; cases hnn
          · rw [hpol] at hper
            exact hne' (of_decide_eq_true hper)
        · simp only [oneCall, ho, hf, if_true, Option.some.injEq, Prod.mk.injEq, WholeDao.Call.prop.injEq] at hcall
          obtain ⟨rfl, rfl⟩ := hcall
          change Single.replyPreProposeFailed _ = _ at hm1
          unfold Single.replyPreProposeFailed at hm1
          split at hm1
          · cases hm1
          · simp only [Except.ok.injEq, Prod.mk.injEq] at hm1
            rw [← hm1.2] at hn1; cases hn1
        · have g5 : dao w2 = dao w1 := g4
          rw [g5] at hn2
          omega
      · obtain ⟨sid, hsid, ⟨rfl, rfl⟩ | ⟨rfl, rfl⟩⟩ := completed_ok hv
        · simp only [oneCall, hqu] at hcall
          cases hcall
        · rw [hinvT.toSub] at hsid
          have hmem := AMap.mem_of_get hsid
          obtain ⟨s, hs1, hsub, hmir⟩ := r3 sid (List.mem_append_right _ (List.mem_map.2 ⟨_, hmem, rfl⟩))
          obtain ⟨hn0, y, hy, hyc, hym⟩ := hmir pid hmem
          rcases astep_mod ha with ⟨sid', s', mo, g1, _, hs', hm'⟩ | ⟨m', mo, g1, _⟩ | ⟨i, g1, _⟩ | ⟨g1, _⟩
          · injection g1 with g1; subst g1
            have hss := (PrePropose.App.was_pending (PrePropose.App.inv_reach lawful r1) hs').2
            rw [hs1] at hss; injection hss with hss; subst hss
            have hts : w1.appr.toSub.get pid = some sid := by rw [hinvT.toSub]; exact hsid
            simp only [oneCall, hqu, hf, hts, proposeCall, hs', Option.some.injEq, Prod.mk.injEq,
              WholeDao.Call.prop.injEq] at hcall
            obtain ⟨rfl, rfl⟩ := hcall
            obtain ⟨proposer, q2, k1, k2, k3, k4, k5⟩ := propose_made hi1 hm1
            rw [← hid, hq] at k2; injection k2 with k2; subst k2
            obtain ⟨st', hst', hrep⟩ := hinvT.done.queued _ (List.mem_of_getElem? hqu)
            have hyst : y.status = .executed ∨ y.status = .executionFailed := by
              change Option.map _ ((approving w1).prop.proposals.get pid) = _ at hst'
              rw [hy] at hst'
              injection hst' with hst'
              change y.status = _ at hst'
              simp only at hrep
              rw [hst']
              cases hrep
              · exact .inl rfl
              · exact .inr rfl
            have hi0 := (two (V1 := V1) (V2 := V2) (d1 := d1) (d2 := d2)).inv .refl hb2 h2
            have hno : (approving w0).prop.proposals.get pid = none := by
              cases hg : (approving w0).prop.proposals.get pid with
              | none => rfl
              | some z =>
                have := ((hi0.ids pid).1 (by
                  change Option.isSome ((approving w0).prop.proposals.get pid) = _; rw [hg]; rfl)).2
                change pid ≤ (approving w0).prop.count at this
                omega
            obtain ⟨later, x, before, env, f, z, x1, x2, x3, x4, x5, x6⟩ :=
              (two (V1 := V1) (V2 := V2) (d1 := d1) (d2 := d2)).executed hV2 hr hb2 h2 hst1 hno hy hyst
            have hx : x.call = .two (.prop (.execute pid f)) ∧ env = x.env.two := by
              change twoCall x = _ at x2
              unfold twoCall at x2
              split at x2
              · rename_i cc hcc
                simp only [Option.some.injEq, Prod.mk.injEq] at x2
                exact ⟨by rw [hcc, x2.2], x2.1.symm⟩
              · split at x2
                · simp at x2
                · cases x2
              · split at x2
                · simp at x2
                · cases x2
              · cases x2
            obtain ⟨hx1, rfl⟩ := hx
            refine ⟨sid, pid, s.payload, _ :: later, x, before, z, f, ?_, k4, k3, mirrored_mem hmem _,
              by rw [x1]; rfl, hx1, x3, ?_, ?_, x5, x6⟩
            · rw [k5]
              rw [hpol] at k1
              rw [← Except.ok.inj k1]
              exact Submitted.cons hsub _
            · rw [k4, ← hyc, x4.content]
            · rw [← x4.msgs]; exact hym
          · cases g1
          · cases g1
          · exact absurd rfl (g1 sid)
      · exfalso
        simp only [oneCall, hf] at hcall
        split at hcall <;> simp_all
      · cases hcall
      · exfalso
        rcases hc with ⟨m, rfl⟩ | ⟨i, rfl⟩ <;> cases hcall

/-- **C113.** What a DAO is made to send while another DAO has to approve its proposals: messages of proposals its
members decided for, and the members of the approving DAO as well, unless the proposal was there before; or what the
core does for others than its proposal module. -/
theorem C113_mandate (hV1 : Lawful V1) (hV2 : Lawful V2) {w0 w : World V1 V2 d1 d2} {b0 b b1 b2 : Block}
    {log : List (Event V1 V2 d1 d2)} {l1 : List (WholeDao.Event S1 E1 C1)} {l2 : List (WholeDao.Event S2 E2 C2)}
    (hinit : (sys V1 V2 d1 d2).init b0 w0)
    (h1 : (WholeDao.sys V1 d1).Reach (dao w0) b1 l1) (hb1 : b1.le b0)
    (h2 : (WholeDao.sys V2 d2).Reach (approving w0) b2 l2) (hb2 : b2.le b0)
    (h : (sys V1 V2 d1 d2).Run w0 b0 log w b) (hst1 : Steady (oneLog log ++ l1)) (hst2 : Steady (twoLog log ++ l2))
    (hatt : ∀ s ∈ log, (dao s.post).prop.count ≠ (dao s.pre).prop.count →
      (dao s.pre).prop.policy = .module s.pre.one.base.here ∧ s.pre.one.app.approver = s.pre.here)
    {ev : Event V1 V2 d1 d2} (hev : ev ∈ log) {dev : WholeDao.Event S1 E1 C1} (hdev : oneEvent ev = some dev)
    {d : DaoCore.Sub} (hd : d ∈ dev.out.core) :
    (∃ m, d = .send m ∧ ByBoth l1 l2 (dao w0).prop.count log ev m) ∨
    ∃ c, coreEvent dev = some c ∧ DaoCore.MaySend c d ∧
      ∀ sender m, c.call = .call sender m → sender ≠ dev.pre.propAddr := by
  rcases (one (V1 := V1) (V2 := V2) (d1 := d1) (d2 := d2)).mandate hV1 h hb1 h1 hst1 hev hdev hd with
    ⟨m, hm, later, before, b3, id, q, n, env, k1, k2, k3, k4, k5, k6, k7, k8⟩ | hother
  swap
  · exact .inr hother
  refine .inl ⟨m, hm, later, before, id, q, n, k1, ?_⟩
  have hx : ev.call = .one (.base (.module (.prop (.execute id false)))) ∧ env = ev.env.one.mod := by
    change oneCall ev = _ at k3
    unfold oneCall at k3
    split at k3
    · unfold proposeCall at k3
      split at k3
      · simp at k3
      · cases k3
    · rename_i cc hcc
      simp only [Option.some.injEq, Prod.mk.injEq] at k3
      exact ⟨by rw [hcc, k3.2], k3.1.symm⟩
    · split at k3
      · split at k3
        · simp at k3
        · cases k3
      · cases k3
    · split at k3
      · split at k3
        · unfold proposeCall at k3
          split at k3
          · simp at k3
          · cases k3
        · cases k3
      · cases k3
    · cases k3
  obtain ⟨hx1, rfl⟩ := hx
  refine ⟨hx1, k4, k5, k6, k7, k8, ?_⟩
  by_cases hid : id ≤ (dao w0).prop.count
  · exact .inl hid
  · right
    subst k1
    refine C113_proposals hV2 hinit h1 hb1 h2 hb2 k2 (fun x hx => hst2 x ?_)
      (fun s hs => hatt s (List.mem_append_right _ (List.mem_cons_of_mem _ hs))) k4 (by omega)
    unfold twoLog at hx ⊢
    rw [List.filterMap_append, List.filterMap_cons]
    rcases List.mem_append.1 hx with hx | hx
    · refine List.mem_append_left _ (List.mem_append_right _ ?_)
      split
      · exact hx
      · exact List.mem_cons_of_mem _ hx
    · exact List.mem_append_right _ hx

end Verif.TwoHouses
