import Verif.Proofs.DepositMulti
import Verif.Props.WholeMulti
import Verif.Props.DepositDao
/-! C116: a multiple choice DAO with a pre-propose module does what was submitted through it and decided. -/

namespace Verif.DepositMulti
open Verif Verif.Voting
open Verif.Spec Verif.Spec.DepositMulti
open Verif.PrePropose (multipleCompleted Deposit)
open Verif.WholeDao (VotingModule)
open Verif.WholeMulti (propEnv)
open Verif.WholeCondorcet (Now)
open Verif.Spec.WholeMulti (Steady coreEvent TotalsOfHeight)
open Verif.Spec.WholeDao (Lawful)
open Verif.Spec.PrePropose (MaySubmit)

variable {S E C O : Type} {V : VotingModule S E C O} {decode : Nat → DaoCore.CosmosMsg} {N : Now S}

theorem dao_me {w w' : WholeMulti.World S} {e : WholeMulti.Env} {c : WholeMulti.Call E C} {o : WholeMulti.Out}
    (h : WholeMulti.step V N.total decode w e c = .ok (w', o)) : w'.core.core.me = w.core.core.me := by
  cases c with
  | core m => exact DaoCore.does_me (DaoCore.step_does (WholeMulti.core_effect h).2.1)
  | vote ve m => rw [(WholeMulti.vote_effect h).2.2.2.1]
  | prop m =>
    obtain ⟨_, _, _, _, h1⟩ := WholeMulti.prop_effect h
    rcases h1 with ⟨h1, _⟩ | ⟨_, _, _, _, _, _, h1⟩
    · rw [h1]
    · exact DaoCore.does_me (DaoCore.step_does h1)

/-- What never changes. -/
theorem fixed {w0 w : World V N decode} {b0 b : Block} {log : List (Event V N decode)}
    (h : (sys V N decode).Run w0 b0 log w b) :
    w.here = w0.here ∧ w.pre.dao = w0.pre.dao ∧ w.pre.module = w0.pre.module ∧
      w.mod.core.core.me = w0.mod.core.core.me := by
  induction h with
  | refl => exact ⟨rfl, rfl, rfl, rfl⟩
  | @step w1 w2 _ log e c o hr hb hs ih =>
    obtain ⟨i1, i2, i3, i4⟩ := ih
    obtain ⟨h1, h2, _⟩ := PrePropose.C53_only_dao (M := whole V N decode) (e := preEnv N w1 e) hs
    refine ⟨?_, h1.trans i2, h2.trans i3, ?_⟩
    · exact (DepositDao.step_here hs).trans i1
    · rcases dao_event hs with ⟨_, _, _, _, _, h3, _⟩ | ⟨_, h3, _⟩
      · exact (dao_me h3).trans i4
      · rw [h3]; exact i4

theorem numbered_offers (os : List (Nat × List Nat)) : ∀ n,
    (Multiple.numbered n os).map (fun c => (c.content, c.msgs)) = os := by
  induction os with
  | nil => intro n; rfl
  | cons o os ih => intro n; simp only [Multiple.numbered, List.map_cons, ih]

theorem offers_checked {options : List (Nat × List Nat)} {choices : List Multiple.Choice}
    (h : Multiple.intoChecked options = .ok choices) :
    choices.map (fun c => (c.content, c.msgs)) = options ++ [(0, [])] := by
  unfold Multiple.intoChecked at h
  split at h
  · cases h
  · injection h with h
    rw [← h, List.map_append, numbered_offers]
    rfl

/-- How a proposal comes about. -/
theorem propose_made {s s' : Multiple.State} {env : Multiple.Env} {g : Option Addr} {c : Nat} {m : List (Nat × List Nat)}
    {v : Option (Nat × Option Nat)} {z : Bool} {out : Multiple.Out} (hi : Multiple.Inv s)
    (h : Multiple.step s env (.propose g c m v z) = .ok (s', out)) :
    ∃ proposer q, Multiple.resolveProposer g s.policy env.sender = .ok proposer ∧
      s'.proposals.get (s.count + 1) = some q ∧ Offers q m ∧ q.content = c ∧ q.proposer = proposer := by
  obtain ⟨proposer, choices, total, st, s1, h1, h2, _, hch, h4, h5, h6, h7, h8, h10, h9⟩ := Multiple.execPropose_inv h
  have hm := Multiple.Micro.create (env := env) (s := s) hch h4 h5 h6 h7
  refine ⟨proposer, ?_⟩
  rcases h9 with ⟨_, rfl, ho⟩ | ⟨v, r, o, hvo, hx', ho⟩
  · subst h8
    exact ⟨_, h2, AMap.get_set_self _ _ _, offers_checked hch, rfl, rfl⟩
  · have hi1 : Multiple.Inv s1 := by rw [h8]; exact Multiple.inv_micro hi hm
    have hg : s1.proposals.get (s.count + 1) = some { Multiple.freshProposal s.config env.block proposer c choices total
        with status := st } := by rw [h8]; exact AMap.get_set_self _ _ _
    obtain ⟨q, hq, hsame, _⟩ := Multiple.run_prop (.step .refl (b1 := env.block) (env := { env with sender := proposer })
      (call := .vote (s.count + 1) v r) (Block.le_refl _) hx') hi1 hg
    refine ⟨q, h2, hq, ?_, hsame.content, hsame.proposer⟩
    unfold Offers
    rw [hsame.choices]
    exact offers_checked hch

/-- A submission leaves the deposit. -/
theorem submit_leaves {w w' : World V N decode} {e : Env} {p : (whole V N decode).Payload} {o : PrePropose.Out}
    (h : step V N decode w e (.propose p) = .ok (w', o)) (hg : PrePropose.GoodDeposit w.pre.config.deposit) :
    e.dao.sender ≠ w.here ∧ MaySubmit w.pre.config.policy (preEnv N w e).power e.dao.sender ∧
      LeavesDeposit (⟨w, e, .propose p, o, w'⟩ : Event V N decode) w.pre.config.deposit := by
  unfold step PrePropose.step at h
  simp only [PrePropose.stepPropose, bind_ok, require_ok, decide_eq_true_eq] at h
  obtain ⟨_, ha, bal, hb, ⟨pre, ts⟩, hp, ⟨m, mo⟩, _, h2⟩ := h
  injection h2 with h2; injection h2 with h2 h3
  refine ⟨ha, (PrePropose.execPropose_ok hp).1, ?_⟩
  have hgets := fun t => (pullCoins_get hb ha t).1
  simp only [PrePropose.execPropose, bind_ok] at hp
  obtain ⟨_, _, hp⟩ := hp
  cases hd : w.pre.config.deposit with
  | none =>
    rw [hd] at hp
    injection hp with hp; injection hp with hp hts
    change w'.takes = w.takes
    rw [← h2, ← hts]
    exact List.append_nil _
  | some d =>
    obtain ⟨t, amount, r⟩ := d
    rw [hd] at hp hg
    simp only [bind_ok] at hp
    obtain ⟨_, hpaid, hp⟩ := hp
    injection hp with hp; injection hp with hp hts
    cases t with
    | native n =>
      simp only [PrePropose.checkPaid, bind_ok, require_ok, decide_eq_true_eq] at hpaid
      obtain ⟨x, hx, rfl⟩ := hpaid
      have hf := (Verif.PayrollFactory.mustPay_ok hx).1
      refine ⟨hf, ?_⟩
      change getD0 w'.bal (.native n, w'.here) = _
      rw [← h2]
      have := hgets (.native n)
      change getD0 bal (.native n, w.here) = getD0 w.bal (.native n, w.here) + x
      rw [this]
      change (preEnv N w e).funds = _ at hf
      rw [hf]
      simp [coinsOf]
    | cw20 c =>
      change w'.takes = w.takes ++ _
      rw [← h2, ← hts]
      simp only [PrePropose.takeMsgs]
      rw [if_neg (show ¬ amount = 0 from hg.1)]
      rfl

/-- **C116.** Every proposal made since the pre-propose module is there, and while it stayed attached, was submitted
through it: by someone the policy let submit, who left the deposit, and with these messages. -/
theorem C116_submitted {w0 w : World V N decode} {b0 b : Block} {l0 : List (WholeMulti.Event S E C)}
    {log : List (Event V N decode)} (h0 : (WholeMulti.sys V N.total decode).Reach w0.mod b0 l0) (hf : Fresh w0)
    (h : (sys V N decode).Run w0 b0 log w b) (hst : Steady (daoLog log))
    (hatt : ∀ s ∈ log, s.out.newId ≠ none → s.pre.mod.prop.policy = .module s.pre.here) {id : Nat}
    {q : Multiple.Proposal} (hq : w.mod.prop.proposals.get id = some q) (hnew : w0.mod.prop.count < id) :
    ∃ s ∈ log, Submits s id q := by
  induction h generalizing q with
  | refl =>
    have hi := PrePropose.reachable_inv lawful (reachable h0)
    have h1 := ((hi.ids id).1 (by rw [hq]; rfl)).2
    omega
  | @step w1 w2 b1 log e c o hr hb hs ih =>
    have hpre : (PrePropose.sys (whole V N decode)).Reach w1 b1 (log.map (preEvent N)) := pre_reach h0 hf hr
    have hinv := PrePropose.inv_reach lawful hpre
    have old : ∀ {q1}, w1.mod.prop.proposals.get id = some q1 → Multiple.SameRules q1 q →
        ∃ s ∈ (⟨w1, e, c, o, w2⟩ : Event V N decode) :: log, Submits s id q := by
      intro q1 hq1 hsame
      obtain ⟨s, hs1, p, k1, k2, k3, k4, k5, k6⟩ := ih (fun e he => hst e (by
          unfold daoLog at he ⊢
          rw [List.filterMap_cons]
          split
          · exact he
          · exact List.mem_cons_of_mem _ he)) (fun s hs => hatt s (List.mem_cons_of_mem _ hs)) hq1
      exact ⟨s, List.mem_cons_of_mem _ hs1, p, k1, k2, (by unfold Offers; rw [hsame.choices]; exact k3), hsame.content.trans k4,
        hsame.proposer.trans k5, k6⟩
    rcases dao_event hs with ⟨env', c', o', hcall, hbl, hd, hev, hnew'⟩ | ⟨_, h3, _⟩
    · have hstd := hst ⟨w1.mod, env', c', o', w2.mod⟩ (by
        unfold daoLog
        rw [List.filterMap_cons, hev]
        exact List.mem_cons_self)
      simp only at hstd
      rcases whole_cases (whole_of_step hd) with ⟨m, rfl, hm⟩ | ⟨hm, _⟩
      · obtain ⟨o2, hm1, ho2⟩ := Multiple.module_step hm
        injection ho2 with ho2 _
        have hi1 : Multiple.Inv w1.mod.prop := hinv.mod
        have hi2 : Multiple.Inv w2.mod.prop := Multiple.lawful.step_inv hi1 hm
        cases hq1 : w1.mod.prop.proposals.get id with
        | some q1 =>
          obtain ⟨q', hq', hsame, _⟩ := Multiple.run_prop (.step .refl (b1 := env'.block) (Block.le_refl _) hm1) hi1 hq1
          rw [hq] at hq'; injection hq' with hq'; subst hq'
          exact old hq1 hsame
        | none =>
          have hle : w1.mod.prop.count < id := by
            by_contra hcon
            have := (hi1.ids id).2 ⟨by omega, by omega⟩
            rw [hq1] at this; cases this
          have hle2 := ((hi2.ids id).1 (by rw [hq]; rfl)).2
          rcases Multiple.newId_step hi1 hm1 with ⟨hn1, hn2⟩ | ⟨_, hn2⟩
          · have hid : id = w1.mod.prop.count + 1 := by omega
            have hno : o.newId = some id := by rw [hnew', ho2, hn1, hid]
            have hpol := hatt _ (List.mem_cons_self) (by rw [hno]; simp)
            simp only at hpol
            refine ⟨_, List.mem_cons_self, ?_⟩
            cases c with
            | propose p =>
              simp only [daoCall, Option.some.injEq, Prod.mk.injEq, WholeMulti.Call.prop.injEq] at hcall
              obtain ⟨rfl, rfl⟩ := hcall
              obtain ⟨proposer, q2, k1, k2, k3, k4, k5⟩ := propose_made hi1 hm1
              rw [← hid, hq] at k2; injection k2 with k2; subst k2
              obtain ⟨k6, k7, k8⟩ := submit_leaves hs hinv.good
              refine ⟨p, rfl, hno, k3, k4, ?_, ?_, k8⟩
              · rw [k5]
                rw [hpol] at k1
                exact (Except.ok.inj k1).symm
              · obtain ⟨f1, f2, f3, f4⟩ := fixed hr
                have hw : WholeMulti.Wired w1.mod w1.pre.dao :=
                  ⟨by rw [f2, f4, hf.asked, hf.dao], hstd.1⟩
                have hpw : (preEnv N w1 e).power = fun a => N.power w1.mod.vote a e.dao.block := by
                  funext a
                  simp only [preEnv]
                  rw [if_pos hw]
                rw [hpw] at k7
                exact k7
            | module c =>
              exfalso
              simp only [daoCall, Option.some.injEq, Prod.mk.injEq] at hcall
              obtain ⟨rfl, rfl⟩ := hcall
              change PrePropose.stepModule _ _ _ = _ at hs
              simp only [PrePropose.stepModule, bind_ok, require_ok, decide_eq_true_eq] at hs
              obtain ⟨_, hne, _⟩ := hs
              rcases Multiple.newId_by hm1 with hnn | hper
              · rw [hn1] at hnn; cases hnn
              · rw [hpol] at hper
                exact hne (of_decide_eq_true hper)
            | deliver i =>
              exfalso
              unfold daoCall at hcall
              simp only at hcall
              split at hcall
              · simp only [Option.some.injEq, Prod.mk.injEq, WholeMulti.Call.prop.injEq] at hcall
                obtain ⟨rfl, rfl⟩ := hcall
                change Multiple.replyPreProposeFailed _ = _ at hm1
                unfold Multiple.replyPreProposeFailed at hm1
                split at hm1
                · cases hm1
                · simp only [Except.ok.injEq, Prod.mk.injEq] at hm1
                  rw [← hm1.2] at hn1; cases hn1
              · cases hcall
            | pre m => cases hcall
            | completed i st => cases hcall
            | take i => cases hcall
            | transfer a b t n => cases hcall
          · omega
      · rw [hm] at hq
        exact old hq (.refl _)
    · rw [h3] at hq
      exact old hq (.refl _)

theorem daoLog_append (a b : List (Event V N decode)) : daoLog (a ++ b) = daoLog a ++ daoLog b :=
  List.filterMap_append

/-- **C116.** What a DAO with a pre-propose module is made to send: messages of proposals the members decided for, and
which were submitted through the pre-propose module since it is there; or what the core does for others than its
proposal module. -/
theorem C116_mandate (hV : Lawful V) {w0 w : World V N decode} {b0 b : Block} {l0 : List (WholeMulti.Event S E C)}
    {log : List (Event V N decode)} (h0 : (WholeMulti.sys V N.total decode).Reach w0.mod b0 l0) (hf : Fresh w0)
    (h : (sys V N decode).Run w0 b0 log w b) (hst : Steady (daoLog log ++ l0))
    (hN : TotalsOfHeight V N.total (daoLog log ++ l0))
    (hatt : ∀ s ∈ log, s.out.newId ≠ none → s.pre.mod.prop.policy = .module s.pre.here)
    {ev : Event V N decode} (hev : ev ∈ log) {dev : WholeMulti.Event S E C} (hdev : daoEvent ev = some dev)
    {d : DaoCore.Sub} (hd : d ∈ dev.out.core) :
    (∃ m, d = .send m ∧ BySubmission V N decode l0 w0.mod.prop.count log ev m) ∨
    ∃ c, coreEvent dev = some c ∧ DaoCore.MaySend c d ∧
      ∀ sender m, c.call = .call sender m → sender ≠ dev.pre.propAddr := by
  obtain ⟨before, later, b1, hl, hr1, hb1, hs, hr2⟩ := h.event ev hev
  subst hl
  obtain ⟨pre, e, c, o, post⟩ := ev
  simp only at hs hr1
  obtain ⟨b2, hb2, hreach⟩ := dao_run hr1 (Block.le_refl _) h0
  rcases dao_event hs with ⟨env', c', o', hcall, hbl, hstep, hev', _⟩ | ⟨hno, _⟩
  swap
  · rw [hno] at hdev; cases hdev
  rw [hev'] at hdev; injection hdev with hdev; subst hdev
  have hst' : Steady ((⟨pre.mod, env', c', o', post.mod⟩ : WholeMulti.Event S E C) :: (daoLog before ++ l0)) := by
    intro x hx
    apply hst x
    rw [daoLog_append]
    unfold daoLog
    rw [List.filterMap_cons, hev']
    simp only [List.append_assoc, List.cons_append, List.mem_append]
    exact .inr hx
  have hN' : TotalsOfHeight V N.total
      ((⟨pre.mod, env', c', o', post.mod⟩ : WholeMulti.Event S E C) :: (daoLog before ++ l0)) := by
    intro x hx
    apply hN x
    rw [daoLog_append]
    unfold daoLog
    rw [List.filterMap_cons, hev']
    simp only [List.append_assoc, List.cons_append, List.mem_append]
    exact .inr hx
  have hre : (WholeMulti.sys V N.total decode).Reach post.mod env'.block
      ((⟨pre.mod, env', c', o', post.mod⟩ : WholeMulti.Event S E C) :: (daoLog before ++ l0)) :=
    Sys.Reach.step (M := WholeMulti.sys V N.total decode) (env := env') (call := c') (out := o') hreach
      (by change Block.le _ env'.block; rw [hbl]; exact Block.le_trans hb2 hb1) hstep
  rcases WholeMulti.C81_mandate hV hre hst' hN' (List.mem_cons_self) hd with ⟨m, hm, hby, _⟩ | hother
  · left
    refine ⟨m, hm, ?_⟩
    obtain ⟨later', before', id, p, i, ch, n, hl', ⟨hc', hp⟩, hch, hn, hmn, hdec, hnear⟩ := hby
    simp only at hc' hp hdec hnear
    subst hc'
    have hlen : later' = [] := by
      cases later' with
      | nil => rfl
      | cons x l =>
        exfalso
        have honce := WholeMulti.C81_once hre id
        rw [List.cons_append] at hl'
        injection hl' with _ h2
        rw [h2, List.filter_cons_of_pos (by simp [Verif.Spec.WholeMulti.executesId]), List.filter_append,
          List.filter_cons_of_pos (by simp [Verif.Spec.WholeMulti.executesId])] at honce
        simp only [List.length_cons, List.length_append] at honce
        omega
    subst hlen
    rw [List.nil_append] at hl'
    injection hl' with _ hl'
    subst hl'
    have hcmod : c = .module (.prop (.execute id false)) ∧ env' = e.dao := by
      cases c with
      | propose p =>
        simp only [daoCall, Option.some.injEq, Prod.mk.injEq, WholeMulti.Call.prop.injEq] at hcall
        cases hcall.2
      | module c =>
        simp only [daoCall, Option.some.injEq, Prod.mk.injEq] at hcall
        exact ⟨by rw [hcall.2], hcall.1.symm⟩
      | deliver i =>
        unfold daoCall at hcall
        simp only at hcall
        split at hcall
        · simp only [Option.some.injEq, Prod.mk.injEq, WholeMulti.Call.prop.injEq] at hcall
          cases hcall.2
        · cases hcall
      | pre m => cases hcall
      | completed i st => cases hcall
      | take i => cases hcall
      | transfer a b t n => cases hcall
    obtain ⟨rfl, rfl⟩ := hcmod
    refine ⟨later, before, id, p, i, ch, n, rfl, rfl, hp, hch, hn, hmn, hdec, hnear, ?_⟩
    by_cases hid : id ≤ w0.mod.prop.count
    · exact .inl hid
    · right
      exact C116_submitted h0 hf hr1 (fun x hx => hst' x (List.mem_cons_of_mem _ (List.mem_append_left _ hx)))
        (fun s hs => hatt s (List.mem_append_right _ (List.mem_cons_of_mem _ hs))) hp (by omega)
  · exact .inr hother

/-- **C116.** Whoever submitted a proposal has their deposit settled when it is over: if the pre-propose module stayed
attached and all hooks have run, exactly the deposit in force when it was submitted was paid, back to them or to the DAO
as the refund policy says. -/
theorem C116_deposit {w0 w : World V N decode} {b0 b : Block} {l0 : List (WholeMulti.Event S E C)}
    {later before : List (Event V N decode)} {s : Event V N decode}
    (h0 : (WholeMulti.sys V N.total decode).Reach w0.mod b0 l0) (hf : Fresh w0)
    (h : (sys V N decode).Run w0 b0 (later ++ s :: before) w b) {id : Nat} {q q' : Multiple.Proposal}
    (hs : Submits s id q) (hatt : ∀ e ∈ later ++ [s], e.post.mod.prop.policy = .module w.here)
    (hqueue : w.queue = []) (hq : w.mod.prop.proposals.get id = some q') (hfin : Final q'.status) :
    ∃ e ∈ later, ∃ st, PrePropose.Reports st q'.status ∧ e.out.failed = false ∧
      e.out.pays = Spec.PrePropose.payment (some (s.pre.pre.config.deposit, s.env.dao.sender)) w.mod.core.core.me st := by
  obtain ⟨p, k1, k2, _⟩ := hs
  have hpre := pre_reach h0 hf h
  obtain ⟨f1, f2, f3, f4⟩ := fixed h
  obtain ⟨e', he', st, g1, g2, g3⟩ := PrePropose.C52_exactly_once whole_lawful hpre
    (l1 := before.map (preEvent N)) (l2 := later.map (preEvent N)) (e := preEvent N s)
    (by rw [List.map_append, List.map_cons]) (id := id) (d := s.pre.pre.config.deposit) (a := s.env.dao.sender)
    (by simp only [Spec.PrePropose.submission, preEvent, k1, k2]; rfl)
    (by
      intro e he
      rw [← List.map_singleton (f := preEvent N), ← List.map_append, List.mem_map] at he
      obtain ⟨e1, he1, rfl⟩ := he
      exact hatt e1 he1) hqueue (st := q'.status)
    (by change (w.mod.prop.proposals.get id).map _ = _; rw [hq]; rfl) hfin
  obtain ⟨e1, he1, rfl⟩ := List.mem_map.1 he'
  refine ⟨e1, he1, st, g2, ?_, ?_⟩
  · unfold Spec.PrePropose.settled at g1
    split at g1
    · cases g1
    · rename_i hfl
      change ¬ e1.out.failed = true at hfl
      simpa using hfl
  · rw [f4, ← hf.dao, ← hf.asked, ← f2]
    exact g3

theorem dao_steps {w w' : World V N decode} {b b' : Block} {log : List (Event V N decode)}
    (h : (sys V N decode).Run w b log w' b') {b0 : Block} (hb0 : b0.le b) :
    ∃ b1, b1.le b' ∧ (WholeMulti.sys V N.total decode).Run w.mod b0 (daoLog log) w'.mod b1 := by
  induction h with
  | refl => exact ⟨b0, hb0, .refl⟩
  | @step w1 w2 _ log e c o hr hb hs ih =>
    obtain ⟨b1, hb1, h1⟩ := ih
    rcases dao_event hs with ⟨env', c', o', _, hbl, h2, h3, _⟩ | ⟨h2, h3, _⟩
    · refine ⟨e.dao.block, Block.le_refl _, ?_⟩
      unfold daoLog
      rw [List.filterMap_cons, h3]
      rw [← hbl]
      exact Sys.Run.step (M := WholeMulti.sys V N.total decode) (env := env') (call := c') (out := o') h1
        (by change Block.le _ env'.block; rw [hbl]; exact Block.le_trans hb1 hb) h2
    · refine ⟨b1, Block.le_trans hb1 hb, ?_⟩
      unfold daoLog
      rw [List.filterMap_cons, h2, h3]
      exact h1

/-- **C116.** With a voting module that answers for the current height, as dao-voting-token-staked, -cw721-staked,
-cw20-staked and -onft-staked do, the assumption on the totals always holds. -/
theorem C116_totals (hA : Verif.Spec.WholeMulti.AnswersNow V N.total) {w0 w : World V N decode} {b0 b : Block}
    {l0 : List (WholeMulti.Event S E C)} {log : List (Event V N decode)}
    (h0 : (WholeMulti.sys V N.total decode).Reach w0.mod b0 l0) (h : (sys V N decode).Run w0 b0 log w b) :
    TotalsOfHeight V N.total (daoLog log ++ l0) := by
  obtain ⟨b1, _, hr⟩ := dao_run h (Block.le_refl _) h0
  exact WholeMulti.totals_now hA hr

/-- **C116.** With one that answers with what is held right now, as dao-voting-cw4 and -cw721-roles do, it holds if
nobody changes the membership in the block of a proposal before it is made. Otherwise C81 fails. -/
theorem C116_totals_partial (hV : Lawful V) (hA : Verif.Spec.WholeMulti.AnswersNewest V N.total) {w0 w : World V N decode}
    {b0 b : Block} {log : List (Event V N decode)} (h0 : WholeMulti.Init V b0 w0.mod)
    (h : (sys V N decode).Run w0 b0 log w b) (hq : Verif.Spec.WholeMulti.Settled b0 (daoLog log)) :
    TotalsOfHeight V N.total (daoLog log) := by
  obtain ⟨b1, hb, hr⟩ := dao_steps h (Block.le_refl _)
  exact WholeMulti.totals_newest hV hA h0 hr hq

end Verif.DepositMulti
