import Verif.Spec.TwoHousesActs
import Verif.Props.TwoHouses
import Verif.Props.DepositDaoMajority
/-! C114: the members of two DAOs of which one has to approve can together always act. -/

namespace Verif.PrePropose
open Verif Verif.Voting

variable {M M1 M2 : PropModule} {f : M1.Payload → M2.Payload}

theorem tone_of {w : Two M1 M2} {e : TEnv M1 M2} {c : ACall M1} {one : AWorld M1} {o : AOut}
    (hb : M2.block e.two = M1.block e.one.mod) (hne : M1.sender e.one.mod ≠ w.here)
    (h : astep w.one e.one c = .ok (one, o)) :
    tstep f w e (.one c) =
      .ok ({ w with one := one, mirrors := w.mirrors ++ mirrorsFor w.here o }, { one := some o }) := by
  simp only [tstep, tcall, tstepOne, bind_ok, require_ok, decide_eq_true_eq]
  exact ⟨(), hb, (), hne, (one, o), h, rfl⟩

theorem ttwo_of {w : Two M1 M2} {e : TEnv M1 M2} {c : M2.Call} {m : M2.St} {o : ModOut}
    (hb : M2.block e.two = M1.block e.one.mod) (hne : M2.sender e.two ≠ w.here) (hout : M2.outside c = true)
    (h : M2.step w.mod e.two c = .ok (m, o)) :
    tstep f w e (.two c) =
      .ok ({ w with mod := m, queue := w.queue ++ hooksFor w.here o.completed }, { newId := o.newId }) := by
  simp only [tstep, tcall, tstepTwo, bind_ok, require_ok, decide_eq_true_eq]
  exact ⟨(), hb, (), hne, (), hout, (m, o), h, rfl⟩

theorem tmirror_of {w : Two M1 M2} {e : TEnv M1 M2} {id : Nat} {pl : M1.Payload} {m : M2.St} {o : ModOut}
    (hb : M2.block e.two = M1.block e.one.mod) (hm : w.mirrors = [id]) (hp : payloadOf w.one id = some pl)
    (ha : w.appr.approval = w.one.base.here)
    (h : M2.step w.mod (M2.calledBy e.two w.here) (M2.propose w.one.base.here (f pl)) = .ok (m, o)) :
    tstep f w e (.mirror 0) =
      .ok ({ w with
        appr := { w.appr with
          toSub := w.appr.toSub.set (M2.count w.mod + 1) id
          toProp := w.appr.toProp.set id (M2.count w.mod + 1) }
        mod := m
        queue := w.queue ++ hooksFor w.here o.completed
        mirrors := [] }, { newId := o.newId }) := by
  simp only [tstep, tcall, tstepMirror, hm, List.getElem?_cons_zero, bind_ok, require_ok, decide_eq_true_eq, orErr_ok,
    Approver.propose]
  exact ⟨(), hb, pl, hp, _, ⟨(), ha.symm, rfl⟩, (m, o), h, rfl⟩

theorem tdeliver_of {w : Two M1 M2} {e : TEnv M1 M2} {pid id : Nat} {one : AWorld M1} {o : AOut}
    (hb : M2.block e.two = M1.block e.one.mod) (hq : w.queue = [(pid, .executed)]) (hs : w.appr.toSub.get pid = some id)
    (h : astep w.one (e.one.as w.here) (.approve id) = .ok (one, o)) :
    tstep f w e (.deliver 0) = .ok ({ w with one := one, queue := [] }, { one := some o }) := by
  have hv : w.appr.completed w.appr.module pid .executed = .ok (.approve id) := by
    simp [Approver.completed, require, hs, orErr, bind, Except.bind]
  have hr : runVerdict w e pid .executed = .ok (one, o) := by
    simp only [runVerdict, hv, ok_bind]
    exact h
  simp only [tstep, tcall, tstepDeliver, hq, List.getElem?_cons_zero, hr, bind_ok, require_ok, decide_eq_true_eq]
  exact ⟨(), hb, rfl⟩

theorem approve_of {w : AWorld M} {e : Env M} {id : Nat} {s : Submission M} {m : M.St} {o : ModOut}
    (hne : M.sender e.mod ≠ w.base.here) (hf : e.funds = []) (happ : w.app.approver = M.sender e.mod)
    (hs : w.app.pending.get id = some s)
    (h : M.step w.base.mod (M.calledBy e.mod w.base.here) (M.propose s.proposer s.payload) = .ok (m, o)) :
    astep w e (.approve id) =
      .ok ({ base := { w.base with
               pre := { w.base.pre with
                 deposits := w.base.pre.deposits.set (M.count w.base.mod + 1) (s.deposit, s.proposer) }
               mod := m
               queue := w.base.queue ++ hooksFor w.base.here o.completed }
             app := { w.app with
               completed := w.app.completed.set id (s, .approved (M.count w.base.mod + 1))
               created := w.app.created.set (M.count w.base.mod + 1) id
               pending := w.app.pending.erase id } }, { newId := o.newId }) := by
  simp only [astep, stepApprove, bind_ok, require_ok, decide_eq_true_eq, orErr_ok]
  exact ⟨(), hne, w.base.bal, by rw [hf]; rfl, (), happ, s, hs, (m, o), h, rfl⟩

theorem abase_of {w : AWorld M} {e : Env M} {c : Call M} {b : World M} {o : Out} (hc : toBase c = true)
    (h : step w.base e c = .ok (b, o)) :
    astep w e (.base c) = .ok ({ w with base := b }, { newId := o.newId, pays := o.pays, failed := o.failed }) := by
  simp only [astep, stepBase, bind_ok, require_ok]
  exact ⟨(), hc, (b, o), h, rfl⟩

theorem submit_of {w : AWorld M} {e : Env M} {p : M.Payload} {bal : Balances} {ts : List (Addr × Token × Nat)}
    (hne : M.sender e.mod ≠ w.base.here) (hb : pullCoins w.base.here (M.sender e.mod) e.funds w.base.bal = .ok bal)
    (hc : checkCanSubmit w.base.pre.config.policy e.power (M.sender e.mod) = .ok ())
    (ht : takeDeposit w.base.pre (M.sender e.mod) e.funds = .ok ts) (hid : w.app.current + 1 < U64) :
    astep w e (.submit p) =
      .ok ({ base := { w.base with bal := bal, takes := w.base.takes ++ ts }
             app := { w.app with
               current := w.app.current + 1
               pending := w.app.pending.set (w.app.current + 1) ⟨p, M.sender e.mod, w.base.pre.config.deposit⟩ } },
           { approvalId := some (w.app.current + 1), notified := Hooks.items w.base.pre.hooks }) := by
  simp only [astep, stepSubmit, bind_ok, require_ok, decide_eq_true_eq, advanceId, add64_ok]
  exact ⟨(), hne, bal, hb, (), hc, ts, ht, w.app.current + 1, ⟨hid, rfl⟩, rfl⟩

end Verif.PrePropose

namespace Verif.TwoHouses
open Verif Verif.Voting
open Verif.Spec Verif.Spec.TwoHouses
open Verif.DepositDao (whole whole_of_step lawful Moved vote_quiet execute_tells settle module_of take_of)
open Verif.PrePropose (AWorld ACall AOut Submission SinglePayload TEnv TCall TOut singleCompleted Deposit tone_of ttwo_of
  tmirror_of tdeliver_of approve_of abase_of submit_of mirrorsFor hooksFor)
open Verif.WholeDao (VotingModule)
open Verif.Spec.WholeDao (Lawful Steady)
open Verif.Spec.DepositDao (fundsFor)
open Verif.Spec.PrePropose (MaySubmit receiver)

variable {S1 E1 C1 O1 S2 E2 C2 O2 : Type} {V1 : VotingModule S1 E1 C1 O1} {V2 : VotingModule S2 E2 C2 O2}
  {d1 d2 : Nat → DaoCore.CosmosMsg}

/-- Votes in the approving DAO. -/
theorem two_votes {m m' : WholeDao.World S2} {b b' : Block} {l : List (WholeDao.Event S2 E2 C2)}
    (h : (WholeDao.sys V2 d2).Run m b l m' b') {w : World V1 V2 d1 d2} (hm : w.mod = m) (pw : Addr → Nat)
    (hv : ∀ ev ∈ l, ev.env.sender ≠ w.here ∧ ∃ id v r, ev.call = .prop (.vote id v r)) :
    ∃ L, (sys V1 V2 d1 d2).Run w b L { w with mod := m' } b' ∧
      L.map (fun ev => (ev.env, ev.call)) = l.map (fun ev => (at' V1 V2 d1 d2 ev.env [] pw, TCall.two ev.call)) ∧
      m'.prop.policy = m.prop.policy := by
  induction h with
  | refl => subst hm; exact ⟨[], .refl, rfl, rfl⟩
  | @step m1 m2 b1 l env call out hr hb hs ih =>
    obtain ⟨L, i1, i2, i3⟩ := ih (fun ev he => hv ev (List.mem_cons_of_mem _ he))
    obtain ⟨hne, id, v, r, hc⟩ := hv _ List.mem_cons_self
    simp only at hne hc
    subst hc
    obtain ⟨q1, q2⟩ := vote_quiet (V := V2) (decode := d2) hs
    have hstep := ttwo_of (M1 := whole V1 d1) (M2 := whole V2 d2) (f := PrePropose.sanitize) (w := { w with mod := m1 })
      (e := at' V1 V2 d1 d2 env [] pw) (c := .prop (.vote id v r)) rfl hne rfl (whole_of_step hs)
    rw [q1] at hstep
    have hnil : w.queue ++ hooksFor w.here [] = w.queue := List.append_nil _
    simp only [hnil] at hstep
    refine ⟨_, Sys.Run.step (M := sys V1 V2 d1 d2) (env := at' V1 V2 d1 d2 env [] pw)
      (call := .two (.prop (.vote id v r))) i1 hb hstep, ?_, q2.trans i3⟩
    simp only [List.map_cons, i2]

/-- Votes in the DAO. -/
theorem one_votes {m m' : WholeDao.World S1} {b b' : Block} {l : List (WholeDao.Event S1 E1 C1)}
    (h : (WholeDao.sys V1 d1).Run m b l m' b') {w : World V1 V2 d1 d2} (hm : w.one.base.mod = m) (pw : Addr → Nat)
    (hv : ∀ ev ∈ l, ev.env.sender ≠ w.here ∧ ev.env.sender ≠ w.one.base.here ∧
      ∃ id v r, ev.call = .prop (.vote id v r)) :
    ∃ L, (sys V1 V2 d1 d2).Run w b L
        { w with one := { w.one with base := { w.one.base with mod := m' } } } b' ∧
      L.map (fun ev => (ev.env, ev.call)) =
        l.map (fun ev => (at' V1 V2 d1 d2 ev.env [] pw, TCall.one (.base (.module ev.call)))) ∧
      m'.prop.policy = m.prop.policy := by
  induction h with
  | refl => subst hm; exact ⟨[], .refl, rfl, rfl⟩
  | @step m1 m2 b1 l env call out hr hb hs ih =>
    obtain ⟨L, i1, i2, i3⟩ := ih (fun ev he => hv ev (List.mem_cons_of_mem _ he))
    obtain ⟨hne, hne', id, v, r, hc⟩ := hv _ List.mem_cons_self
    simp only at hne hc hne'
    subst hc
    obtain ⟨q1, q2⟩ := vote_quiet (V := V1) (decode := d1) hs
    have hs1 := module_of (M := whole V1 d1) (w := { w.one.base with mod := m1 })
      (e := (at' V1 V2 d1 d2 env [] pw).one) (c := .prop (.vote id v r)) hne' rfl (whole_of_step hs)
    rw [q1] at hs1
    have hnil : w.one.base.queue ++ hooksFor w.one.base.here [] = w.one.base.queue := List.append_nil _
    simp only [hnil] at hs1
    have hs2 := abase_of (M := whole V1 d1) (w := { w.one with base := { w.one.base with mod := m1 } }) rfl hs1
    have hstep := tone_of (M1 := whole V1 d1) (M2 := whole V2 d2) (f := PrePropose.sanitize)
      (w := { w with one := { w.one with base := { w.one.base with mod := m1 } } })
      (e := at' V1 V2 d1 d2 env [] pw) rfl hne hs2
    have hnil : w.mirrors ++ mirrorsFor w.here
        { newId := (out.prop.bind (·.newId)), pays := [], failed := false } = w.mirrors := List.append_nil _
    simp only [hnil] at hstep
    refine ⟨_, Sys.Run.step (M := sys V1 V2 d1 d2) (env := at' V1 V2 d1 d2 env [] pw)
      (call := .one (.base (.module (.prop (.vote id v r))))) i1 hb hstep, ?_, q2.trans i3⟩
    simp only [List.map_cons, i2]

/-- Submitting, with the taking of the deposit. -/
theorem submit_run {w : World V1 V2 d1 d2} {b : Block} {e : WholeDao.Env} {p : SinglePayload} (hb : b.le e.block)
    (htakes : w.one.base.takes = []) (hmir : w.mirrors = []) (hne : e.sender ≠ w.here)
    (hne' : e.sender ≠ w.one.base.here) (pw : Addr → Nat)
    (hmay : MaySubmit w.one.base.pre.config.policy pw e.sender)
    (hgood : PrePropose.GoodDeposit w.one.base.pre.config.deposit)
    (hhas : ∀ d, w.one.base.pre.config.deposit = some d → d.amount ≤ getD0 w.one.base.bal (d.token, e.sender))
    (hroom : ∀ d, w.one.base.pre.config.deposit = some d → ∀ p q, p ≠ q →
      getD0 w.one.base.bal (d.token, p) + getD0 w.one.base.bal (d.token, q) < U128)
    (hid : w.one.app.current + 1 < U64) (hhook : w.here ∈ Hooks.items w.one.base.pre.hooks) :
    ∃ L bal, (sys V1 V2 d1 d2).Run w b L { w with
        one := { base := { w.one.base with bal := bal, takes := [] }
                 app := { w.one.app with
                   current := w.one.app.current + 1
                   pending := w.one.app.pending.set (w.one.app.current + 1)
                     ⟨p, e.sender, w.one.base.pre.config.deposit⟩ } }
        mirrors := [w.one.app.current + 1] } e.block ∧
      L.map (fun ev => (ev.env, ev.call)) =
        (takeCalls V1 V2 d1 d2 w.one.base.pre.config.deposit).map (fun c => (at' V1 V2 d1 d2 e [] pw, c)) ++
          [(at' V1 V2 d1 d2 e (fundsFor w.one.base.pre.config.deposit) pw, .one (.submit p))] ∧
      Moved e.sender w.one.base.here w.one.base.bal bal w.one.base.pre.config.deposit := by
  have hcheck : PrePropose.checkCanSubmit w.one.base.pre.config.policy pw e.sender = .ok () :=
    PrePropose.checkCanSubmit_ok.2 hmay
  have hsub : ∀ {bal ts}, pullCoins w.one.base.here e.sender (fundsFor w.one.base.pre.config.deposit) w.one.base.bal =
        .ok bal →
      PrePropose.takeDeposit w.one.base.pre e.sender (fundsFor w.one.base.pre.config.deposit) = .ok ts →
      ∃ o, (sys V1 V2 d1 d2).step w (at' V1 V2 d1 d2 e (fundsFor w.one.base.pre.config.deposit) pw) (.one (.submit p)) =
        .ok ({ w with
          one := { base := { w.one.base with bal := bal, takes := ts }
                   app := { w.one.app with
                     current := w.one.app.current + 1
                     pending := w.one.app.pending.set (w.one.app.current + 1)
                       ⟨p, e.sender, w.one.base.pre.config.deposit⟩ } }
          mirrors := [w.one.app.current + 1] }, o) := by
    intro bal ts h1 h2
    have h3 := submit_of (M := whole V1 d1) (w := w.one)
      (e := (at' V1 V2 d1 d2 e (fundsFor w.one.base.pre.config.deposit) pw).one) (p := p) hne' h1 hcheck h2 hid
    have h4 := tone_of (M1 := whole V1 d1) (M2 := whole V2 d2) (f := PrePropose.sanitize)
      (w := w) (e := at' V1 V2 d1 d2 e (fundsFor w.one.base.pre.config.deposit) pw) rfl hne h3
    have hmm : mirrorsFor w.here
        { approvalId := some (w.one.app.current + 1), notified := Hooks.items w.one.base.pre.hooks } =
          [w.one.app.current + 1] := by
      simp only [mirrorsFor, if_pos hhook]
    simp only [hmm, hmir, htakes, List.nil_append] at h4
    exact ⟨_, h4⟩
  cases hd : w.one.base.pre.config.deposit with
  | none =>
    rw [hd] at hsub
    obtain ⟨o, h2⟩ := hsub (bal := w.one.base.bal) (ts := []) rfl (by simp only [PrePropose.takeDeposit, hd])
    have hr := Sys.Run.step (M := sys V1 V2 d1 d2) (env := at' V1 V2 d1 d2 e [] pw) (call := .one (.submit p)) .refl hb h2
    exact ⟨_, w.one.base.bal, hr, rfl, rfl⟩
  | some d =>
    obtain ⟨t, amount, r⟩ := d
    rw [hd] at hsub hgood
    have hle := hhas _ hd
    have hro := hroom _ hd e.sender w.one.base.here hne'
    simp only at hle hro
    have hkey : (t, e.sender) ≠ (t, w.one.base.here) := by
      intro h; injection h with _ h; exact hne' h
    obtain ⟨bal, hbal⟩ := Ledger.move_live (l := w.one.base.bal) hkey hle (by omega)
    cases t with
    | native n =>
      have h1 : pullCoins w.one.base.here e.sender (fundsFor (some ⟨.native n, amount, r⟩)) w.one.base.bal = .ok bal := by
        simp only [fundsFor, pullCoins, hbal, ok_bind]
      obtain ⟨o, h2⟩ := hsub (bal := bal) (ts := []) h1 (by
        have hpaid : PrePropose.checkPaid ⟨.native n, amount, r⟩ (fundsFor (some ⟨.native n, amount, r⟩)) = .ok () := by
          simp only [PrePropose.checkPaid, fundsFor]
          have : PrePropose.mustPay [(n, amount)] n = .ok amount := by simp [PrePropose.mustPay, hgood.1]
          rw [this, ok_bind]
          simp [require]
        simp only [PrePropose.takeDeposit, hd, ok_bind, hpaid, PrePropose.takeMsgs])
      have hr := Sys.Run.step (M := sys V1 V2 d1 d2)
        (env := at' V1 V2 d1 d2 e (fundsFor (some ⟨.native n, amount, r⟩)) pw) (call := .one (.submit p)) .refl hb h2
      exact ⟨_, bal, hr, rfl, hbal⟩
    | cw20 c =>
      obtain ⟨o, h2⟩ := hsub (bal := w.one.base.bal) (ts := [(e.sender, .cw20 c, amount)]) rfl (by
        simp only [PrePropose.takeDeposit, hd, ok_bind, PrePropose.checkPaid, PrePropose.takeMsgs, if_neg hgood.1])
      have hr := Sys.Run.step (M := sys V1 V2 d1 d2) (env := at' V1 V2 d1 d2 e [] pw) (call := .one (.submit p)) .refl hb h2
      have h3 := take_of (M := whole V1 d1) (w := { w.one.base with takes := [(e.sender, .cw20 c, amount)] })
        (e := (at' V1 V2 d1 d2 e [] pw).one) rfl hbal
      have h4 := abase_of (M := whole V1 d1) (w := { base := { w.one.base with takes := [(e.sender, .cw20 c, amount)] }
                                                     app := { w.one.app with
                     current := w.one.app.current + 1
                     pending := w.one.app.pending.set (w.one.app.current + 1)
                       ⟨p, e.sender, some ⟨.cw20 c, amount, r⟩⟩ } }) rfl h3
      have h5 := tone_of (M1 := whole V1 d1) (M2 := whole V2 d2) (f := PrePropose.sanitize)
        (w := { w with
          one := { base := { w.one.base with takes := [(e.sender, .cw20 c, amount)] }
                   app := { w.one.app with
                     current := w.one.app.current + 1
                     pending := w.one.app.pending.set (w.one.app.current + 1)
                       ⟨p, e.sender, some ⟨.cw20 c, amount, r⟩⟩ } }
          mirrors := [w.one.app.current + 1] }) (e := at' V1 V2 d1 d2 e [] pw) rfl hne h4
      have hr2 := Sys.Run.step (M := sys V1 V2 d1 d2) (env := at' V1 V2 d1 d2 e [] pw) (call := .one (.base (.take 0))) hr
        (Block.le_refl _) h5
      exact ⟨_, bal, hr2, rfl, hbal⟩

/-- What the members of a DAO with a pre-propose module do with a proposal the module makes. -/
theorem dao_acts {S E C O : Type} {V : VotingModule S E C O} {decode : Nat → DaoCore.CosmosMsg} (hV : Lawful V)
    {m : WholeDao.World S} {b : Block} {log : List (WholeDao.Event S E C)} (h : (WholeDao.sys V decode).Reach m b log)
    (hst : Steady log) (hnow : m.core.core.voting = some m.voteAddr ∧ m.prop.config.dao = m.core.core.me) {here : Addr}
    (hatt : m.prop.policy = .module here) (hveto : m.prop.config.veto = none) (hid : m.prop.count + 1 < U64)
    (htot : V.totalWeight m.vote < U128) {e : WholeDao.Env} (hb : b.le e.block) (hlater : b.height < e.block.height)
    (hact : e.active = true) (hopen : (m.prop.config.maxVotingPeriod.after e.block).isExpired e.block = false)
    {ys : List Addr} (hys : ys.Nodup) (hstake : ∀ a ∈ ys, V.weight m.vote a ≠ 0)
    (hwin : ShouldPass m.prop.config.threshold (V.totalWeight m.vote) ⟨(ys.map (V.weight m.vote)).sum, 0, 0⟩ true)
    {f : WholeDao.Env} (hf : e.block.le f.block)
    (hend : (m.prop.config.maxVotingPeriod.after e.block).isExpired f.block = true)
    (hmem : m.prop.config.onlyMembersExecute = true → V.weight m.vote f.sender ≠ 0)
    (hpause : DaoCore.isPaused m.core.core f.block = false) (hen : DaoCore.Enabled m.core.core m.propAddr)
    (a : Addr) (content : Nat) (msgs : List Nat) :
    ∃ m1 o1 m2 l2 m3 o3,
      WholeDao.step V decode m { e with sender := here } (.prop (.propose (some a) content msgs none true)) =
        .ok (m1, o1) ∧ (o1.prop.map (fun o => singleCompleted o.msgs)).getD [] = [] ∧ m1.prop.policy = .module here ∧
      (WholeDao.sys V decode).Run m1 e.block l2 m2 e.block ∧
      l2.map (fun ev => (ev.env, ev.call)) =
        ys.reverse.map (fun a => ({ e with sender := a }, .prop (.vote (m.prop.count + 1) .yes none))) ∧
      WholeDao.step V decode m2 f (.prop (.execute (m.prop.count + 1) false)) = .ok (m3, o3) ∧
      m3.core.stack = msgs.map (fun n => DaoCore.Sub.send (decode n)) ++ m.core.stack := by
  obtain ⟨m1, out1, o1, st, hs1, ho1, hstill1, hget1, hal1⟩ := WholeDao.propose_step (decode := decode)
    (g := some a) (proposer := a) (e := { e with sender := here }) hV h hnow
    (by rw [hatt]; simp [CreationPolicy.isPermitted]) (by rw [hatt]; rfl) hveto hid htot hlater hact content msgs
  obtain ⟨m2, l2, m3, out3, hr2, hl2, hs3, ho3, hstk⟩ := WholeDao.after_proposed
    (e := { e with sender := here }) hV h hst hnow hveto hb hlater hopen hs1 ho1 hstill1 hget1 hal1 hys hstake hwin hf hend
    hmem hpause hen
  have hq1 : (out1.prop.map (fun o => singleCompleted o.msgs)).getD [] = [] ∧ m1.prop.policy = m.prop.policy := by
    obtain ⟨⟨o2, h1, h2⟩, _⟩ := WholeDao.prop_effect hs1
    rw [h1]
    simp only [Single.step] at h2
    obtain ⟨proposer, total, st', s1, _, _, _, _, _, _, _, h8, h10, h9⟩ := Single.execPropose_inv h2
    rcases h9 with ⟨_, h9, h11⟩ | ⟨_, _, _, h9, _⟩
    · refine ⟨?_, by rw [h9, h8]⟩
      change singleCompleted o2.msgs = []
      rw [h11]; exact Single.completed_hooks
    · cases h9
  exact ⟨m1, out1, m2, l2, m3, out3, hs1, hq1.1, hq1.2.trans hatt, hr2, hl2, hs3, hstk⟩

/-- The approving DAO decides for a submission it has been told of. -/
theorem approve_run (hV : Lawful V2) {w : World V1 V2 d1 d2} {b b0 : Block} {l : List (WholeDao.Event S2 E2 C2)}
    (h : (WholeDao.sys V2 d2).Reach w.mod b0 l)
    (hst : Steady l) (hnow : w.mod.core.core.voting = some w.mod.voteAddr ∧ w.mod.prop.config.dao = w.mod.core.core.me)
    (hatt : w.mod.prop.policy = .module w.here) (hveto : w.mod.prop.config.veto = none) (hid : w.mod.prop.count + 1 < U64)
    (htot : V2.totalWeight w.mod.vote < U128) {e : WholeDao.Env} (hb : b0.le e.block) (hlater : b0.height < e.block.height)
    (hact : e.active = true) (hopen : (w.mod.prop.config.maxVotingPeriod.after e.block).isExpired e.block = false)
    {ys : List Addr} (hys : ys.Nodup) (hstake : ∀ a ∈ ys, V2.weight w.mod.vote a ≠ 0) (hyh : ∀ a ∈ ys, a ≠ w.here)
    (hwin : ShouldPass w.mod.prop.config.threshold (V2.totalWeight w.mod.vote)
      ⟨(ys.map (V2.weight w.mod.vote)).sum, 0, 0⟩ true)
    {f : WholeDao.Env} (hf : e.block.le f.block)
    (hend : (w.mod.prop.config.maxVotingPeriod.after e.block).isExpired f.block = true) (hfne : f.sender ≠ w.here)
    (hmem : w.mod.prop.config.onlyMembersExecute = true → V2.weight w.mod.vote f.sender ≠ 0)
    (hpause : DaoCore.isPaused w.mod.core.core f.block = false) (hen : DaoCore.Enabled w.mod.core.core w.mod.propAddr)
    (hbe : b.le e.block) {k content : Nat} {msgs : List Nat} (hmir : w.mirrors = [k]) (hq : w.queue = [])
    (happ : w.appr.approval = w.one.base.here)
    (hpl : PrePropose.payloadOf w.one k = some (⟨content, msgs, none, true⟩ : SinglePayload)) (pw : Addr → Nat) :
    ∃ L m, (sys V1 V2 d1 d2).Run w b L { w with
        appr := { w.appr with
          toSub := w.appr.toSub.set (w.mod.prop.count + 1) k
          toProp := w.appr.toProp.set k (w.mod.prop.count + 1) }
        mod := m
        queue := [(w.mod.prop.count + 1, .executed)]
        mirrors := [] } f.block ∧
      L.map (fun ev => (ev.env, ev.call)) =
        (at' V1 V2 d1 d2 f [] pw, .two (.prop (.execute (w.mod.prop.count + 1) false))) ::
        (ys.reverse.map (fun a => (at' V1 V2 d1 d2 { e with sender := a } [] pw,
          TCall.two (WholeDao.Call.prop (.vote (w.mod.prop.count + 1) .yes none)))) ++
        [(at' V1 V2 d1 d2 e [] pw, .mirror 0)]) ∧
      m.core.stack = w.mod.core.stack ∧ m.prop.policy = .module w.here := by
  obtain ⟨m1, o1, m2, l2, m3, o3, hs1, hq1, hp1, hr2, hl2, hs3, hstk⟩ := dao_acts (decode := d2) hV h hst hnow hatt hveto hid
    htot hb hlater hact hopen hys hstake hwin hf hend hmem hpause hen w.one.base.here content []
  have hA := tmirror_of (M1 := whole V1 d1) (M2 := whole V2 d2) (f := PrePropose.sanitize) (w := w)
    (e := at' V1 V2 d1 d2 e [] pw) rfl hmir hpl happ (whole_of_step hs1)
  rw [hq1] at hA
  have hnil : w.queue ++ hooksFor w.here [] = w.queue := List.append_nil _
  simp only [hnil] at hA
  have hrun1 := Sys.Run.step (M := sys V1 V2 d1 d2) (env := at' V1 V2 d1 d2 e [] pw) (call := .mirror 0) .refl hbe hA
  obtain ⟨L2, hrun2, hL2, hpol2⟩ := two_votes (V1 := V1) (d1 := d1) hr2 (w := { w with
        appr := { w.appr with
          toSub := w.appr.toSub.set (w.mod.prop.count + 1) k
          toProp := w.appr.toProp.set k (w.mod.prop.count + 1) }
        mod := m1
        mirrors := [] }) rfl pw (by
    intro ev hev
    have : (ev.env, ev.call) ∈ l2.map (fun ev => (ev.env, ev.call)) := List.mem_map.2 ⟨ev, hev, rfl⟩
    rw [hl2, List.mem_map] at this
    obtain ⟨a, ha, he⟩ := this
    injection he with he1 he2
    refine ⟨?_, _, _, _, he2.symm⟩
    rw [← he1]
    exact hyh a (List.mem_reverse.1 ha))
  obtain ⟨htell, hpol3⟩ := execute_tells hs3 (hpol2.trans hp1)
  have hB := ttwo_of (M1 := whole V1 d1) (M2 := whole V2 d2) (f := PrePropose.sanitize) (w := { w with
        appr := { w.appr with
          toSub := w.appr.toSub.set (w.mod.prop.count + 1) k
          toProp := w.appr.toProp.set k (w.mod.prop.count + 1) }
        mod := m2
        mirrors := [] }) (e := at' V1 V2 d1 d2 f [] pw) rfl hfne rfl (whole_of_step hs3)
  simp only [htell, hq, List.nil_append] at hB
  have hrun12 := hrun1.append hrun2
  have hrun3 := Sys.Run.step (M := sys V1 V2 d1 d2) (env := at' V1 V2 d1 d2 f [] pw)
    (call := .two (.prop (.execute (w.mod.prop.count + 1) false))) hrun12 hf (by simp only [hq]; exact hB)
  refine ⟨_, m3, hrun3, ?_, hstk, hpol3.trans (hpol2.trans hp1)⟩
  simp only [List.map_cons, List.map_append, hL2, List.map_nil]
  have : l2.map (fun ev => (at' V1 V2 d1 d2 ev.env [] pw,
        (TCall.two ev.call : TCall (whole V1 d1) (whole V2 d2)))) =
      (l2.map (fun ev => (ev.env, ev.call))).map (fun x => (at' V1 V2 d1 d2 x.1 [] pw, TCall.two x.2)) := by
    rw [List.map_map]; rfl
  rw [this, hl2, List.map_map]
  rfl

/-- The DAO acts on a submission the approving DAO has decided for. -/
theorem act_run (hV : Lawful V1) {w : World V1 V2 d1 d2} {b b0 : Block} {l : List (WholeDao.Event S1 E1 C1)}
    (h : (WholeDao.sys V1 d1).Reach w.one.base.mod b0 l) (hst : Steady l)
    (hnow : w.one.base.mod.core.core.voting = some w.one.base.mod.voteAddr ∧
      w.one.base.mod.prop.config.dao = w.one.base.mod.core.core.me)
    (hatt : w.one.base.mod.prop.policy = .module w.one.base.here) (hveto : w.one.base.mod.prop.config.veto = none)
    (hid : w.one.base.mod.prop.count + 1 < U64) (htot : V1.totalWeight w.one.base.mod.vote < U128)
    {e : WholeDao.Env} (hb : b0.le e.block) (hlater : b0.height < e.block.height)
    (hact : e.active = true) (hopen : (w.one.base.mod.prop.config.maxVotingPeriod.after e.block).isExpired e.block = false)
    {ys : List Addr} (hys : ys.Nodup) (hstake : ∀ a ∈ ys, V1.weight w.one.base.mod.vote a ≠ 0)
    (hyh : ∀ a ∈ ys, a ≠ w.here ∧ a ≠ w.one.base.here)
    (hwin : ShouldPass w.one.base.mod.prop.config.threshold (V1.totalWeight w.one.base.mod.vote)
      ⟨(ys.map (V1.weight w.one.base.mod.vote)).sum, 0, 0⟩ true)
    {f : WholeDao.Env} (hf : e.block.le f.block)
    (hend : (w.one.base.mod.prop.config.maxVotingPeriod.after e.block).isExpired f.block = true)
    (hfne : f.sender ≠ w.here ∧ f.sender ≠ w.one.base.here)
    (hmem : w.one.base.mod.prop.config.onlyMembersExecute = true → V1.weight w.one.base.mod.vote f.sender ≠ 0)
    (hpause : DaoCore.isPaused w.one.base.mod.core.core f.block = false)
    (hen : DaoCore.Enabled w.one.base.mod.core.core w.one.base.mod.propAddr)
    (hbe : b.le e.block) {pid k content : Nat} {msgs : List Nat} {a : Addr} {d : Option Deposit} {l0 : Balances}
    (hq : w.queue = [(pid, .executed)]) (hsub : w.appr.toSub.get pid = some k) (hmir : w.mirrors = [])
    (hq1 : w.one.base.queue = []) (happ : w.one.app.approver = w.here) (hne : w.here ≠ w.one.base.here)
    (hpend : w.one.app.pending.get k = some ⟨(⟨content, msgs, none, true⟩ : SinglePayload), a, d⟩)
    (hgood : PrePropose.GoodDeposit d) (ha : a ≠ w.one.base.here) (hdao : w.one.base.pre.dao ≠ w.one.base.here)
    (hm : Moved a w.one.base.here l0 w.one.base.bal d)
    (hroom : ∀ x, d = some x → ∀ p q, p ≠ q → getD0 l0 (x.token, p) + getD0 l0 (x.token, q) < U128)
    (pw : Addr → Nat) :
    ∃ L w', (sys V1 V2 d1 d2).Run w b L w' f.block ∧
      L.map (fun ev => (ev.env, ev.call)) =
        (at' V1 V2 d1 d2 f [] pw, .one (.base (.deliver 0))) ::
        (at' V1 V2 d1 d2 f [] pw, .one (.base (.module (.prop (.execute (w.one.base.mod.prop.count + 1) false))))) ::
        (ys.reverse.map (fun a => (at' V1 V2 d1 d2 { e with sender := a } [] pw,
          TCall.one (.base (.module (WholeDao.Call.prop (.vote (w.one.base.mod.prop.count + 1) .yes none)))))) ++
        [(at' V1 V2 d1 d2 e [] pw, .deliver 0)]) ∧
      (dao w').core.stack = msgs.map (fun n => DaoCore.Sub.send (d1 n)) ++ (dao w).core.stack ∧
      (dao w').prop.policy = .module w.one.base.here ∧ w'.one.app.approver = w.one.app.approver ∧
      w'.one.base.pre.hooks = w.one.base.pre.hooks ∧ approving w' = approving w ∧
      w'.here = w.here ∧ w'.one.base.here = w.one.base.here ∧
      w'.queue = [] ∧ w'.mirrors = [] ∧ w'.one.base.queue = [] ∧ w'.one.base.takes = w.one.base.takes ∧
      ∀ x, d = some x →
        getD0 w'.one.base.bal (x.token, w.one.base.here) = getD0 l0 (x.token, w.one.base.here) ∧
        ∀ q, q ≠ w.one.base.here → getD0 w'.one.base.bal (x.token, q) + (if q = a then x.amount else 0) =
          getD0 l0 (x.token, q) + (if q = receiver x a w.one.base.pre.dao .executed then x.amount else 0) := by
  obtain ⟨m1, o1, m2, l2, m3, o3, hs1, hc1, hp1, hr2, hl2, hs3, hstk⟩ := dao_acts (decode := d1) hV h hst hnow hatt hveto hid
    htot hb hlater hact hopen hys hstake hwin hf hend hmem hpause hen a content msgs
  have hA := approve_of (M := whole V1 d1) (w := w.one) (e := (at' V1 V2 d1 d2 e [] pw).one.as w.here) (id := k)
    hne rfl happ hpend (whole_of_step hs1)
  rw [hc1] at hA
  have hnil : w.one.base.queue ++ hooksFor w.one.base.here [] = w.one.base.queue := List.append_nil _
  simp only [hnil] at hA
  have hA2 := tdeliver_of (M1 := whole V1 d1) (M2 := whole V2 d2) (f := PrePropose.sanitize) (w := w)
    (e := at' V1 V2 d1 d2 e [] pw) rfl hq hsub hA
  have hrun1 := Sys.Run.step (M := sys V1 V2 d1 d2) (env := at' V1 V2 d1 d2 e [] pw) (call := .deliver 0) .refl hbe hA2
  obtain ⟨L2, hrun2, hL2, hpol2⟩ := one_votes (V2 := V2) (d2 := d2) hr2 (w := { w with
        one := { base := { w.one.base with
                   pre := { w.one.base.pre with
                     deposits := w.one.base.pre.deposits.set (w.one.base.mod.prop.count + 1) (d, a) }
                   mod := m1 }
                 app := { w.one.app with
                   completed := w.one.app.completed.set k (⟨(⟨content, msgs, none, true⟩ : SinglePayload), a, d⟩,
                     .approved (w.one.base.mod.prop.count + 1))
                   created := w.one.app.created.set (w.one.base.mod.prop.count + 1) k
                   pending := w.one.app.pending.erase k } }
        queue := [] }) rfl pw (by
    intro ev hev
    have : (ev.env, ev.call) ∈ l2.map (fun ev => (ev.env, ev.call)) := List.mem_map.2 ⟨ev, hev, rfl⟩
    rw [hl2, List.mem_map] at this
    obtain ⟨y, hy, he⟩ := this
    injection he with he1 he2
    have hyy := hyh y (List.mem_reverse.1 hy)
    refine ⟨?_, ?_, _, _, _, he2.symm⟩ <;> rw [← he1]
    · exact hyy.1
    · exact hyy.2)
  obtain ⟨htell, hpol3⟩ := execute_tells hs3 (hpol2.trans hp1)
  have hB := module_of (M := whole V1 d1) (w := { w.one.base with
                   pre := { w.one.base.pre with
                     deposits := w.one.base.pre.deposits.set (w.one.base.mod.prop.count + 1) (d, a) }
                   mod := m2 }) (e := (at' V1 V2 d1 d2 f [] pw).one) hfne.2 rfl (whole_of_step hs3)
  simp only [htell, hq1, List.nil_append] at hB
  have hB1 := abase_of (M := whole V1 d1) (w := { base := { w.one.base with
                   pre := { w.one.base.pre with
                     deposits := w.one.base.pre.deposits.set (w.one.base.mod.prop.count + 1) (d, a) }
                   mod := m2
                   queue := [] }
                                                  app := { w.one.app with
                   completed := w.one.app.completed.set k (⟨(⟨content, msgs, none, true⟩ : SinglePayload), a, d⟩,
                     .approved (w.one.base.mod.prop.count + 1))
                   created := w.one.app.created.set (w.one.base.mod.prop.count + 1) k
                   pending := w.one.app.pending.erase k } })
    (c := .module (.prop (.execute (w.one.base.mod.prop.count + 1) false))) rfl hB
  have hB2 := tone_of (M1 := whole V1 d1) (M2 := whole V2 d2) (f := PrePropose.sanitize) (w := { w with
        one := { base := { w.one.base with
                   pre := { w.one.base.pre with
                     deposits := w.one.base.pre.deposits.set (w.one.base.mod.prop.count + 1) (d, a) }
                   mod := m2
                   queue := [] }
                 app := { w.one.app with
                   completed := w.one.app.completed.set k (⟨(⟨content, msgs, none, true⟩ : SinglePayload), a, d⟩,
                     .approved (w.one.base.mod.prop.count + 1))
                   created := w.one.app.created.set (w.one.base.mod.prop.count + 1) k
                   pending := w.one.app.pending.erase k } }
        queue := [] }) (e := at' V1 V2 d1 d2 f [] pw) rfl hfne.1 hB1
  obtain ⟨bal, ps, hC, hpaid⟩ := settle (N := ⟨fun _ _ _ => 0, fun _ _ => 0⟩) (V := V1) (decode := d1)
    (e := ⟨f, [], pw⟩) (l := l0) (w := { w.one.base with
                   pre := { w.one.base.pre with
                     deposits := w.one.base.pre.deposits.set (w.one.base.mod.prop.count + 1) (d, a) }
                   mod := m3
                   queue := [(w.one.base.mod.prop.count + 1, .executed)] }) rfl (AMap.get_set_self _ _ _) hgood ha hdao hm hroom
  have hC1 := abase_of (M := whole V1 d1) (w := { base := { w.one.base with
                   pre := { w.one.base.pre with
                     deposits := w.one.base.pre.deposits.set (w.one.base.mod.prop.count + 1) (d, a) }
                   mod := m3
                   queue := [(w.one.base.mod.prop.count + 1, .executed)] }
                                                  app := { w.one.app with
                   completed := w.one.app.completed.set k (⟨(⟨content, msgs, none, true⟩ : SinglePayload), a, d⟩,
                     .approved (w.one.base.mod.prop.count + 1))
                   created := w.one.app.created.set (w.one.base.mod.prop.count + 1) k
                   pending := w.one.app.pending.erase k } }) (e := (at' V1 V2 d1 d2 f [] pw).one) (c := .deliver 0) rfl hC
  have hC2 := tone_of (M1 := whole V1 d1) (M2 := whole V2 d2) (f := PrePropose.sanitize) (w := { w with
        one := { base := { w.one.base with
                   pre := { w.one.base.pre with
                     deposits := w.one.base.pre.deposits.set (w.one.base.mod.prop.count + 1) (d, a) }
                   mod := m3
                   queue := [(w.one.base.mod.prop.count + 1, .executed)] }
                 app := { w.one.app with
                   completed := w.one.app.completed.set k (⟨(⟨content, msgs, none, true⟩ : SinglePayload), a, d⟩,
                     .approved (w.one.base.mod.prop.count + 1))
                   created := w.one.app.created.set (w.one.base.mod.prop.count + 1) k
                   pending := w.one.app.pending.erase k } }
        queue := [] }) (e := at' V1 V2 d1 d2 f [] pw) rfl hfne.1 hC1
  have hmm : ∀ n ps, w.mirrors ++ mirrorsFor w.here { newId := n, pays := ps, failed := false } = w.mirrors :=
    fun _ _ => List.append_nil _
  simp only [hmm] at hB2 hC2
  have hrun3 := Sys.Run.step (M := sys V1 V2 d1 d2) (env := at' V1 V2 d1 d2 f [] pw)
    (call := .one (.base (.module (.prop (.execute (w.one.base.mod.prop.count + 1) false))))) (hrun1.append hrun2) hf
    (by simp only [hq1]; exact hB2)
  have hrun4 := Sys.Run.step (M := sys V1 V2 d1 d2) (env := at' V1 V2 d1 d2 f [] pw)
    (call := .one (.base (.deliver 0))) hrun3 (Block.le_refl _) hC2
  refine ⟨_, _, hrun4, ?_, hstk, hpol3.trans (hpol2.trans hp1), rfl, rfl, rfl, rfl, rfl, rfl, hmir, rfl, rfl, ?_⟩
  · simp only [List.map_cons, List.map_append, hL2, List.map_nil]
    have : l2.map (fun ev => (at' V1 V2 d1 d2 ev.env [] pw,
          (TCall.one (.base (.module ev.call)) : TCall (whole V1 d1) (whole V2 d2)))) =
        (l2.map (fun ev => (ev.env, ev.call))).map
          (fun x => (at' V1 V2 d1 d2 x.1 [] pw, TCall.one (.base (.module x.2)))) := by
      rw [List.map_map]; rfl
    rw [this, hl2, List.map_map]
    rfl
  · intro x hx
    obtain ⟨_, h1, h2⟩ := hpaid x hx
    exact ⟨h1, h2⟩

/-- **C114.** The members of the two DAOs can together always act. -/
theorem C114_members_act (hV1 : Lawful V1) (hV2 : Lawful V2) {w0 w : World V1 V2 d1 d2} {b0 b b1 b2 : Block}
    {log : List (Event V1 V2 d1 d2)} {l1 : List (WholeDao.Event S1 E1 C1)} {l2 : List (WholeDao.Event S2 E2 C2)}
    (hinit : (sys V1 V2 d1 d2).init b0 w0)
    (h1 : (WholeDao.sys V1 d1).Reach (dao w0) b1 l1) (hb1 : b1.le b0)
    (h2 : (WholeDao.sys V2 d2).Reach (approving w0) b2 l2) (hb2 : b2.le b0)
    (h : (sys V1 V2 d1 d2).Run w0 b0 log w b) (hst1 : Steady (oneLog log ++ l1)) (hst2 : Steady (twoLog log ++ l2))
    -- both DAOs are set up, and their modules connected
    (hnow1 : (dao w).core.core.voting = some (dao w).voteAddr ∧ (dao w).prop.config.dao = (dao w).core.core.me)
    (hnow2 : (approving w).core.core.voting = some (approving w).voteAddr ∧
      (approving w).prop.config.dao = (approving w).core.core.me)
    (hatt1 : (dao w).prop.policy = .module w.one.base.here) (hatt2 : (approving w).prop.policy = .module w.here)
    (happ : w.one.app.approver = w.here) (hhook : w.here ∈ Hooks.items w.one.base.pre.hooks)
    (hidle : w.queue = [] ∧ w.mirrors = [] ∧ w.one.base.queue = [] ∧ w.one.base.takes = [])
    (hveto1 : (dao w).prop.config.veto = none) (hveto2 : (approving w).prop.config.veto = none)
    (hid1 : (dao w).prop.count + 1 < U64) (hid2 : (approving w).prop.count + 1 < U64)
    (hid : w.one.app.current + 1 < U64)
    (htot1 : V1.totalWeight (dao w).vote < U128) (htot2 : V2.totalWeight (approving w).vote < U128)
    -- the block of the submission and of the votes of the approving DAO
    {e : WholeDao.Env} (hb : b.le e.block) (hlater : b.height < e.block.height) (hact : e.active = true)
    (hopen2 : ((approving w).prop.config.maxVotingPeriod.after e.block).isExpired e.block = false)
    -- who submits
    (hne : e.sender ≠ w.here ∧ e.sender ≠ w.one.base.here) (pw : Addr → Nat)
    (hmay : MaySubmit w.one.base.pre.config.policy pw e.sender)
    (hhas : ∀ d, w.one.base.pre.config.deposit = some d → d.amount ≤ getD0 w.one.base.bal (d.token, e.sender))
    (hroom : ∀ d, w.one.base.pre.config.deposit = some d → ∀ p q, p ≠ q →
      getD0 w.one.base.bal (d.token, p) + getD0 w.one.base.bal (d.token, q) < U128)
    -- the members of the approving DAO
    {zs : List Addr} (hzs : zs.Nodup) (hstake2 : ∀ a ∈ zs, V2.weight (approving w).vote a ≠ 0)
    (hzh : ∀ a ∈ zs, a ≠ w.here)
    (hwin2 : ShouldPass (approving w).prop.config.threshold (V2.totalWeight (approving w).vote)
      ⟨(zs.map (V2.weight (approving w).vote)).sum, 0, 0⟩ true)
    -- the block of the approval and of the votes of the DAO
    {f : WholeDao.Env} (hf : e.block.le f.block) (hactf : f.active = true)
    (hend2 : ((approving w).prop.config.maxVotingPeriod.after e.block).isExpired f.block = true)
    (hopen1 : ((dao w).prop.config.maxVotingPeriod.after f.block).isExpired f.block = false)
    (hfne : f.sender ≠ w.here)
    (hmem2 : (approving w).prop.config.onlyMembersExecute = true → V2.weight (approving w).vote f.sender ≠ 0)
    (hpause2 : DaoCore.isPaused (approving w).core.core f.block = false)
    (hen2 : DaoCore.Enabled (approving w).core.core (approving w).propAddr)
    -- the members of the DAO
    {ys : List Addr} (hys : ys.Nodup) (hstake1 : ∀ a ∈ ys, V1.weight (dao w).vote a ≠ 0)
    (hyh : ∀ a ∈ ys, a ≠ w.here ∧ a ≠ w.one.base.here)
    (hwin1 : ShouldPass (dao w).prop.config.threshold (V1.totalWeight (dao w).vote)
      ⟨(ys.map (V1.weight (dao w).vote)).sum, 0, 0⟩ true)
    -- the block of the execution
    {g : WholeDao.Env} (hg : f.block.le g.block)
    (hend1 : ((dao w).prop.config.maxVotingPeriod.after f.block).isExpired g.block = true)
    (hgne : g.sender ≠ w.here ∧ g.sender ≠ w.one.base.here)
    (hmem1 : (dao w).prop.config.onlyMembersExecute = true → V1.weight (dao w).vote g.sender ≠ 0)
    (hpause1 : DaoCore.isPaused (dao w).core.core g.block = false)
    (hen1 : DaoCore.Enabled (dao w).core.core (dao w).propAddr)
    (content : Nat) (msgs : List Nat) :
    ∃ w' log', (sys V1 V2 d1 d2).Run w b log' w' g.block ∧
      -- the calls, the latest first
      log'.map (fun ev => (ev.env, ev.call)) =
        actCalls V1 V2 d1 d2 f g pw ((dao w).prop.count + 1) ys ++
        (approveCalls V1 V2 d1 d2 e f pw ((approving w).prop.count + 1) zs ++
        submitCalls V1 V2 d1 d2 e pw w.one.base.pre.config.deposit ⟨content, msgs, none, true⟩) ∧
      (dao w').core.stack = msgs.map (fun n => DaoCore.Sub.send (d1 n)) ++ (dao w).core.stack ∧
      (approving w').core.stack = (approving w).core.stack ∧
      -- the modules are connected as before, and nothing waits
      (dao w').prop.policy = .module w'.one.base.here ∧ (approving w').prop.policy = .module w'.here ∧
      w'.one.app.approver = w'.here ∧ w'.here ∈ Hooks.items w'.one.base.pre.hooks ∧
      w'.queue = [] ∧ w'.mirrors = [] ∧ w'.one.base.queue = [] ∧ w'.one.base.takes = [] ∧
      -- the deposit went to the DAO if it is never refunded, and is back with the proposer otherwise
      ∀ d, w.one.base.pre.config.deposit = some d →
        getD0 w'.one.base.bal (d.token, w.one.base.here) = getD0 w.one.base.bal (d.token, w.one.base.here) ∧
        ∀ q, q ≠ w.one.base.here → getD0 w'.one.base.bal (d.token, q) + (if q = e.sender then d.amount else 0) =
          getD0 w.one.base.bal (d.token, q) +
            (if q = (if d.refund = .never then w.one.base.pre.dao else e.sender) then d.amount else 0) := by
  obtain ⟨c1, hc1, hreach1⟩ := (one (V1 := V1) (V2 := V2) (d1 := d1) (d2 := d2)).run h hb1 h1
  obtain ⟨c2, hc2, hreach2⟩ := (two (V1 := V1) (V2 := V2) (d1 := d1) (d2 := d2)).run h hb2 h2
  have hi := PrePropose.Approve.inv_reach (lawful (V := V1) (decode := d1)) (lawful (V := V2) (decode := d2))
    (⟨b0, w0, hinit, h⟩ : (sys V1 V2 d1 d2).Reach w b log)
  obtain ⟨l, hi1⟩ := hi.one.inv lawful
  obtain ⟨LA, bal, hrunA, hLA, hmoved⟩ := submit_run (w := w) (e := e) (p := (⟨content, msgs, none, true⟩ : SinglePayload)) hb
    hidle.2.2.2 hidle.2.1 hne.1 hne.2 pw hmay hi1.good hhas hroom hid hhook
  obtain ⟨LB, m, hrunB, hLB, hstkB, hpolB⟩ := approve_run hV2 hreach2 hst2 hnow2 hatt2 hveto2 hid2 htot2
    (Block.le_trans hc2 hb) (Nat.lt_of_le_of_lt hc2.1 hlater) hact hopen2 hzs hstake2 hzh hwin2 hf hend2 hfne hmem2 hpause2 hen2
    (w := { w with
        one := { base := { w.one.base with bal := bal, takes := [] }
                 app := { w.one.app with
                   current := w.one.app.current + 1
                   pending := w.one.app.pending.set (w.one.app.current + 1)
                     ⟨(⟨content, msgs, none, true⟩ : SinglePayload), e.sender, w.one.base.pre.config.deposit⟩ } }
        mirrors := [w.one.app.current + 1] }) (b := e.block) (Block.le_refl _) (k := w.one.app.current + 1)
    (content := content) (msgs := msgs) rfl hidle.1 hi.approval (by
      simp only [PrePropose.payloadOf, AMap.get_set_self]) pw
  obtain ⟨LC, w', hrunC, hLC, k1, k2, k3, k4, k5, k6, k7, k8, k9, k10, k11, k12⟩ := act_run hV1 hreach1 hst1 hnow1 hatt1 hveto1 hid1
    htot1 (Block.le_trans hc1 (Block.le_trans hb hf)) (Nat.lt_of_le_of_lt hc1.1 (Nat.lt_of_lt_of_le hlater hf.1)) hactf hopen1
    hys hstake1 hyh hwin1 hg hend1 hgne hmem1 hpause1 hen1
    (w := { w with
        one := { base := { w.one.base with bal := bal, takes := [] }
                 app := { w.one.app with
                   current := w.one.app.current + 1
                   pending := w.one.app.pending.set (w.one.app.current + 1)
                     ⟨(⟨content, msgs, none, true⟩ : SinglePayload), e.sender, w.one.base.pre.config.deposit⟩ } }
        appr := { w.appr with
          toSub := w.appr.toSub.set (w.mod.prop.count + 1) (w.one.app.current + 1)
          toProp := w.appr.toProp.set (w.one.app.current + 1) (w.mod.prop.count + 1) }
        mod := m
        queue := [(w.mod.prop.count + 1, .executed)]
        mirrors := [] }) (b := f.block) (Block.le_refl _) (pid := w.mod.prop.count + 1) (k := w.one.app.current + 1)
    (content := content) (msgs := msgs) (a := e.sender) (d := w.one.base.pre.config.deposit) (l0 := w.one.base.bal)
    rfl (AMap.get_set_self _ _ _) rfl hidle.2.2.1 happ hi.ne (AMap.get_set_self _ _ _) hi1.good hne.2 hi1.daoNe hmoved hroom pw
  refine ⟨w', _, (hrunA.append hrunB).append hrunC, ?_, k1, ?_, ?_, ?_, ?_, ?_, k8, k9, k10, k11, ?_⟩
  · rw [List.map_append, List.map_append, hLA, hLB, hLC]
    rfl
  · rw [k5]; exact hstkB
  · rw [k2, k7]
  · rw [k5, k6]; exact hpolB
  · rw [k3, k6]; exact happ
  · rw [k4, k6]; exact hhook
  · intro d hd
    obtain ⟨q1, q2⟩ := k12 d hd
    refine ⟨q1, ?_⟩
    intro q hq
    rw [q2 q hq]
    cases hr : d.refund <;> simp [receiver, hr]

end Verif.TwoHouses
