import Verif.Props.DepositDao
import Verif.Props.WholeDaoMajority
/-! C112: the members of a DAO with a pre-propose module can always act, and the deposit comes back. -/

namespace Verif.DepositDao
open Verif Verif.Voting
open Verif.Spec Verif.Spec.DepositDao
open Verif.PrePropose (singleCompleted Deposit)
open Verif.WholeDao (VotingModule propEnv)
open Verif.WholeCondorcet (Now)
open Verif.Spec.WholeDao (Lawful Steady Decisive powerOf)
open Verif.Spec.PrePropose (MaySubmit receiver)

variable {S E C O : Type} {V : VotingModule S E C O} {decode : Nat → DaoCore.CosmosMsg} {N : Now S}

section Generic
open Verif.PrePropose (PropModule ModOut stepModule stepPropose stepTake hooksFor execPropose)
variable {M : PropModule}

theorem module_of {w : PrePropose.World M} {e : PrePropose.Env M} {c : M.Call} {m : M.St} {o : ModOut}
    (hne : M.sender e.mod ≠ w.here) (hout : M.outside c = true) (h : M.step w.mod e.mod c = .ok (m, o)) :
    PrePropose.step w e (.module c) =
      .ok ({ w with mod := m, queue := w.queue ++ hooksFor w.here o.completed }, { newId := o.newId }) := by
  change stepModule w e c = _
  simp only [stepModule, bind_ok, require_ok, decide_eq_true_eq]
  exact ⟨(), hne, (), hout, (m, o), h, rfl⟩

theorem propose_of {w : PrePropose.World M} {e : PrePropose.Env M} {p : M.Payload} {m : M.St} {o : ModOut}
    {bal : Balances} {pre : PrePropose.Pre} {ts : List (Addr × Token × Nat)} (hne : M.sender e.mod ≠ w.here)
    (hb : pullCoins w.here (M.sender e.mod) e.funds w.bal = .ok bal)
    (hp : execPropose w.pre e.power (M.sender e.mod) e.funds (M.count w.mod + 1) = .ok (pre, ts))
    (h : M.step w.mod (M.calledBy e.mod w.here) (M.propose (M.sender e.mod) p) = .ok (m, o)) :
    PrePropose.step w e (.propose p) =
      .ok ({ w with
        pre := pre
        mod := m
        bal := bal
        queue := w.queue ++ hooksFor w.here o.completed
        takes := w.takes ++ ts }, { newId := o.newId }) := by
  change stepPropose w e p = _
  simp only [stepPropose, bind_ok, require_ok, decide_eq_true_eq]
  exact ⟨(), hne, bal, hb, (pre, ts), hp, (m, o), h, rfl⟩

theorem take_of {w : PrePropose.World M} {e : PrePropose.Env M} {a : Addr} {t : Token} {n : Nat} {bal : Balances}
    (hw : w.takes = [(a, t, n)]) (h : w.bal.move (t, a) (t, w.here) n = .ok bal) :
    PrePropose.step w e (.take 0) = .ok ({ w with bal := bal, takes := [] }, {}) := by
  change stepTake w 0 = _
  simp only [stepTake, hw, List.getElem?_cons_zero, bind_ok]
  exact ⟨bal, h, rfl⟩

theorem deliver_of {w : PrePropose.World M} {e : PrePropose.Env M} {id : Nat} {st : Status} {ps : List Pay}
    {bal : Balances} (hw : w.queue = [(id, st)]) (hp : PrePropose.execCompleted w.pre w.pre.module id st = .ok ps)
    (h : payAll w.here ps w.bal = .ok bal) :
    PrePropose.step w e (.deliver 0) = .ok ({ w with bal := bal, queue := [] }, { pays := ps }) := by
  change PrePropose.stepDeliver w 0 = _
  have hr : PrePropose.runHook w id st = .ok (ps, bal) := by
    simp only [PrePropose.runHook, hp, ok_bind, h]
  simp only [PrePropose.stepDeliver, hw, List.getElem?_cons_zero, hr]
  rfl

end Generic

/-- A call of the DAO by somebody else than the pre-propose module. -/
theorem lift_step {w : World V decode} {e : Env} {c : WholeDao.Call E C} {m : WholeDao.World S} {o : WholeDao.Out}
    (h : WholeDao.step V decode w.mod e.dao c = .ok (m, o)) (hne : e.dao.sender ≠ w.here)
    (hout : (whole V decode).outside c = true) :
    step V N decode w e (.module c) = .ok ({ w with
      mod := m
      queue := w.queue ++ PrePropose.hooksFor w.here ((o.prop.map (fun o => singleCompleted o.msgs)).getD []) },
      { newId := o.prop.bind (·.newId) }) := by
  exact module_of (M := whole V decode) (e := preEnv N w e) hne hout (whole_of_step h)

/-- A vote completes nothing and leaves the creation policy alone. -/
theorem vote_quiet {m m' : WholeDao.World S} {e : WholeDao.Env} {id : Nat} {v : Vote} {r : Option Nat} {o : WholeDao.Out}
    (h : WholeDao.step V decode m e (.prop (.vote id v r)) = .ok (m', o)) :
    (o.prop.map (fun o => singleCompleted o.msgs)).getD [] = [] ∧ m'.prop.policy = m.prop.policy := by
  obtain ⟨⟨o1, h1, h2⟩, _⟩ := WholeDao.prop_effect h
  rw [h1]
  refine ⟨Single.completed_execVote h2, ?_⟩
  obtain ⟨p, power, w, votes, st, _, _, _, _, _, _, _, _, h3, _⟩ := Single.execVote_inv h2
  rw [h3]

/-- Votes, one after the other. -/
theorem lift_votes {m m' : WholeDao.World S} {b b' : Block} {l : List (WholeDao.Event S E C)}
    (h : (WholeDao.sys V decode).Run m b l m' b') {w : World V decode} (hm : w.mod = m) (pw : Addr → Nat)
    (hv : ∀ ev ∈ l, ev.env.sender ≠ w.here ∧ ∃ id v r, ev.call = .prop (.vote id v r)) :
    ∃ L, (sys V N decode).Run w b L { w with mod := m' } b' ∧
      L.map (fun ev => (ev.env, ev.call)) = l.map (fun ev => ((⟨ev.env, [], pw⟩ : Env), PrePropose.Call.module ev.call)) ∧
      m'.prop.policy = m.prop.policy := by
  induction h with
  | refl => subst hm; exact ⟨[], .refl, rfl, rfl⟩
  | @step m1 m2 b1 l env call out hr hb hs ih =>
    obtain ⟨L, i1, i2, i3⟩ := ih (fun ev he => hv ev (List.mem_cons_of_mem _ he))
    obtain ⟨hne, id, v, r, hc⟩ := hv _ List.mem_cons_self
    simp only at hne hc
    subst hc
    obtain ⟨q1, q2⟩ := vote_quiet (V := V) (decode := decode) hs
    have hstep := lift_step (N := N) (w := { w with mod := m1 }) (e := ⟨env, [], pw⟩) (c := .prop (.vote id v r)) hs hne
      (by rfl)
    rw [q1] at hstep
    have hnil : w.queue ++ PrePropose.hooksFor w.here [] = w.queue := List.append_nil _
    simp only [hnil] at hstep
    refine ⟨_, Sys.Run.step (M := sys V N decode) (env := ⟨env, [], pw⟩) (call := .module (.prop (.vote id v r))) i1 hb hstep,
      ?_, q2.trans i3⟩
    simp only [List.map_cons, i2]

/-- Executing a proposal tells the pre-propose module of it. -/
theorem execute_tells {m m' : WholeDao.World S} {e : WholeDao.Env} {id : Nat} {f : Bool} {o : WholeDao.Out} {here : Addr}
    (h : WholeDao.step V decode m e (.prop (.execute id f)) = .ok (m', o)) (hp : m.prop.policy = .module here) :
    PrePropose.hooksFor here ((o.prop.map (fun o => singleCompleted o.msgs)).getD []) = [(id, .executed)] ∧
      m'.prop.policy = m.prop.policy := by
  obtain ⟨⟨o1, h1, h2⟩, _⟩ := WholeDao.prop_effect h
  rw [h1]
  obtain ⟨p, st, st', hp', hst, hm, hst', _, h3, hms, _⟩ := Single.execExecute_inv h2
  refine ⟨?_, by rw [h3]⟩
  have key : singleCompleted o1.msgs = [(here, id, .executed)] := by
    have hh : PrePropose.hookOf m.prop.policy id .executed = [(here, id, .executed)] := by rw [hp]; rfl
    rcases hms with ⟨_, _, hms⟩ | ⟨_, _, _, rid, hms⟩
    · rw [hms, Single.completed_append, Single.completed_status, Single.completed_completed, hh]; rfl
    · rw [hms]
      have : ∀ (x : Single.Msg) (y : Option Nat) (l : List Single.SubMsg), singleCompleted (⟨x, y⟩ :: l) =
          singleCompleted [⟨x, y⟩] ++ singleCompleted l := fun x y l => Single.completed_append [_] l
      rw [this, Single.completed_append, Single.completed_status, Single.completed_completed, hh]; rfl
  change PrePropose.hooksFor here (singleCompleted o1.msgs) = _
  rw [key]
  simp [PrePropose.hooksFor]

/-- The deposit moves to the pre-propose module. -/
def Moved (a here : Addr) (l l' : Balances) : Option Deposit → Prop
  | none => l' = l
  | some d => Ledger.move l (d.token, a) (d.token, here) d.amount = .ok l'

/-- Submitting, with the taking of the deposit. -/
theorem submit_run {w : World V decode} {b : Block} {e : WholeDao.Env} {p : PrePropose.SinglePayload}
    {m : WholeDao.World S} {o : WholeDao.Out} (hb : b.le e.block) (htakes : w.takes = [])
    (hne : e.sender ≠ w.here) (pw : Addr → Nat)
    (hmay : MaySubmit w.pre.config.policy (preEnv N w ⟨e, fundsFor w.pre.config.deposit, pw⟩).power e.sender)
    (hgood : PrePropose.GoodDeposit w.pre.config.deposit)
    (hhas : ∀ d, w.pre.config.deposit = some d → d.amount ≤ getD0 w.bal (d.token, e.sender))
    (hroom : ∀ d, w.pre.config.deposit = some d → ∀ p q, p ≠ q →
      getD0 w.bal (d.token, p) + getD0 w.bal (d.token, q) < U128)
    (hm : WholeDao.step V decode w.mod { e with sender := w.here }
      (.prop (.propose (some e.sender) p.content p.msgs p.vote p.sizeOk)) = .ok (m, o))
    (hq : (o.prop.map (fun o => singleCompleted o.msgs)).getD [] = []) :
    ∃ L bal, (sys V N decode).Run w b L { w with
        pre := { w.pre with deposits := w.pre.deposits.set (w.mod.prop.count + 1) (w.pre.config.deposit, e.sender) }
        mod := m
        bal := bal
        takes := [] } e.block ∧
      L.map (fun ev => (ev.env, ev.call)) =
        (takeCalls V decode w.pre.config.deposit).map (fun c => ((⟨e, [], pw⟩ : Env), c)) ++
          [((⟨e, fundsFor w.pre.config.deposit, pw⟩ : Env), .propose p)] ∧
      Moved e.sender w.here w.bal bal w.pre.config.deposit := by
  have hmod := whole_of_step hm
  rw [hq] at hmod
  have hcheck : PrePropose.checkCanSubmit w.pre.config.policy (preEnv N w ⟨e, fundsFor w.pre.config.deposit, pw⟩).power
      e.sender = .ok () := PrePropose.checkCanSubmit_ok.2 hmay
  -- the step of the submission
  have hsub : ∀ {bal ts}, pullCoins w.here e.sender (fundsFor w.pre.config.deposit) w.bal = .ok bal →
      PrePropose.execPropose w.pre (preEnv N w ⟨e, fundsFor w.pre.config.deposit, pw⟩).power e.sender
        (fundsFor w.pre.config.deposit) (w.mod.prop.count + 1) =
        .ok ({ w.pre with deposits := w.pre.deposits.set (w.mod.prop.count + 1) (w.pre.config.deposit, e.sender) }, ts) →
      step V N decode w ⟨e, fundsFor w.pre.config.deposit, pw⟩ (.propose p) = .ok ({ w with
        pre := { w.pre with deposits := w.pre.deposits.set (w.mod.prop.count + 1) (w.pre.config.deposit, e.sender) }
        mod := m
        bal := bal
        queue := w.queue
        takes := ts }, { newId := o.prop.bind (·.newId) }) := by
    intro bal ts h1 h2
    have h3 := propose_of (M := whole V decode) (w := w) (e := preEnv N w ⟨e, fundsFor w.pre.config.deposit, pw⟩) (p := p)
      hne h1 h2 hmod
    have hnil : w.queue ++ PrePropose.hooksFor w.here [] = w.queue := List.append_nil _
    simp only [hnil, htakes, List.nil_append] at h3
    exact h3
  cases hd : w.pre.config.deposit with
  | none =>
    rw [hd] at hsub hcheck
    have h2 := hsub (bal := w.bal) (ts := []) rfl (by
      simp only [PrePropose.execPropose, hd, hcheck, ok_bind])
    have hr := Sys.Run.step (M := sys V N decode) (env := ⟨e, [], pw⟩) (call := .propose p) .refl hb h2
    exact ⟨_, w.bal, hr, rfl, rfl⟩
  | some d =>
    obtain ⟨t, amount, r⟩ := d
    rw [hd] at hsub hcheck hgood
    have hle := hhas _ hd
    have hro := hroom _ hd e.sender w.here hne
    simp only at hle hro
    have hkey : (t, e.sender) ≠ (t, w.here) := by
      intro h; injection h with _ h; exact hne h
    obtain ⟨bal, hbal⟩ := Ledger.move_live (l := w.bal) hkey hle (by omega)
    cases t with
    | native n =>
      have h1 : pullCoins w.here e.sender (fundsFor (some ⟨.native n, amount, r⟩)) w.bal = .ok bal := by
        simp only [fundsFor, pullCoins, hbal, ok_bind]
      have h2 := hsub (bal := bal) (ts := []) h1 (by
        have hpaid : PrePropose.checkPaid ⟨.native n, amount, r⟩ (fundsFor (some ⟨.native n, amount, r⟩)) = .ok () := by
          simp only [PrePropose.checkPaid, fundsFor]
          have : PrePropose.mustPay [(n, amount)] n = .ok amount := by simp [PrePropose.mustPay, hgood.1]
          rw [this, ok_bind]
          simp [require]
        simp only [PrePropose.execPropose, hd, hcheck, ok_bind, hpaid, PrePropose.takeMsgs])
      have hr := Sys.Run.step (M := sys V N decode) (env := ⟨e, fundsFor (some ⟨.native n, amount, r⟩), pw⟩)
        (call := .propose p) .refl hb h2
      exact ⟨_, bal, hr, rfl, hbal⟩
    | cw20 c =>
      have h2 := hsub (bal := w.bal) (ts := [(e.sender, .cw20 c, amount)]) rfl (by
        simp only [PrePropose.execPropose, hd, hcheck, ok_bind, PrePropose.checkPaid, PrePropose.takeMsgs,
          if_neg hgood.1])
      have hr := Sys.Run.step (M := sys V N decode) (env := ⟨e, [], pw⟩)
        (call := .propose p) .refl hb h2
      have h3 : step V N decode { w with
          pre := { w.pre with deposits := w.pre.deposits.set (w.mod.prop.count + 1) (some ⟨.cw20 c, amount, r⟩, e.sender) }
          mod := m
          takes := [(e.sender, .cw20 c, amount)] } ⟨e, [], pw⟩ (.take 0) = .ok ({ w with
          pre := { w.pre with deposits := w.pre.deposits.set (w.mod.prop.count + 1) (some ⟨.cw20 c, amount, r⟩, e.sender) }
          mod := m
          bal := bal
          takes := [] }, {}) :=
        take_of (M := whole V decode) rfl hbal
      have hr2 := Sys.Run.step (M := sys V N decode) (env := ⟨e, [], pw⟩) (call := .take 0) hr (Block.le_refl _) h3
      exact ⟨_, bal, hr2, rfl, hbal⟩

/-- The completion hook pays the deposit out. -/
theorem settle {w : World V decode} {e : Env} {id : Nat} {d : Option Deposit} {a : Addr} {l : Balances}
    (hqueue : w.queue = [(id, .executed)]) (hdep : w.pre.deposits.get id = some (d, a)) (hgood : PrePropose.GoodDeposit d)
    (hne : a ≠ w.here) (hdao : w.pre.dao ≠ w.here) (hm : Moved a w.here l w.bal d)
    (hroom : ∀ x, d = some x → ∀ p q, p ≠ q → getD0 l (x.token, p) + getD0 l (x.token, q) < U128) :
    ∃ bal ps, step V N decode w e (.deliver 0) = .ok ({ w with bal := bal, queue := [] }, { pays := ps }) ∧
      ∀ x, d = some x → ps = [⟨receiver x a w.pre.dao .executed, x.token, x.amount⟩] ∧
        getD0 bal (x.token, w.here) = getD0 l (x.token, w.here) ∧
        (∀ q, q ≠ w.here → getD0 bal (x.token, q) + (if q = a then x.amount else 0) =
          getD0 l (x.token, q) + (if q = receiver x a w.pre.dao .executed then x.amount else 0)) := by
  cases d with
  | none =>
    refine ⟨w.bal, [], deliver_of (M := whole V decode) (e := preEnv N w e) hqueue ?_ rfl, fun x hx => by cases hx⟩
    simp [PrePropose.execCompleted, hdep, require]
  | some x =>
    obtain ⟨hx0, hx1⟩ := hgood
    have hkey : ((x.token, a) : Token × Addr) ≠ (x.token, w.here) := by
      intro h; injection h with _ h; exact hne h
    have hget := fun q => Ledger.move_get hm hkey q
    have hrec : receiver x a w.pre.dao .executed ≠ w.here := by
      unfold receiver; split
      · exact hne
      · exact hdao
    have hrec' : (if PrePropose.refundToProposer .executed x.refund then a else w.pre.dao) =
        receiver x a w.pre.dao .executed := by
      unfold receiver
      cases hr : x.refund <;> simp [PrePropose.refundToProposer]
    have hro := hroom x rfl
    have hh := (hget (x.token, w.here)).2
    rw [if_neg (Ne.symm hkey), if_pos rfl] at hh
    have hle := (hget (x.token, w.here)).1
    have ha := (hget (x.token, a)).2
    rw [if_pos rfl] at ha
    have hother : ∀ q, q ≠ a → q ≠ w.here → getD0 w.bal (x.token, q) = getD0 l (x.token, q) := by
      intro q h1 h2
      have := (hget (x.token, q)).2
      rw [if_neg (by intro h; injection h with _ h; exact h1 h), if_neg (by intro h; injection h with _ h; exact h2 h)] at this
      exact this
    have hkey2 : ((x.token, w.here) : Token × Addr) ≠ (x.token, receiver x a w.pre.dao .executed) := by
      intro h; injection h with _ h; exact hrec h.symm
    have hfit : getD0 w.bal (x.token, receiver x a w.pre.dao .executed) + x.amount < U128 := by
      by_cases hra : receiver x a w.pre.dao .executed = a
      · rw [hra, ha]
        have := hro a w.here hne
        omega
      · rw [hother _ hra hrec]
        have := hro _ a hra
        omega
    obtain ⟨bal, hbal⟩ := Ledger.move_live (l := w.bal) hkey2 (by rw [hh]; omega) hfit
    have hpay : payAll w.here [⟨receiver x a w.pre.dao .executed, x.token, x.amount⟩] w.bal = .ok bal := by
      simp only [payAll, hbal, ok_bind]
    refine ⟨bal, _, deliver_of (M := whole V decode) (e := preEnv N w e) hqueue ?_ hpay, ?_⟩
    · simp [PrePropose.execCompleted, require, hdep, hrec', PrePropose.returnMsgs, hx0]
    · intro y hy
      injection hy with hy; subst hy
      have hget2 := fun q => Ledger.move_get hbal hkey2 q
      refine ⟨rfl, ?_, ?_⟩
      · have := (hget2 (x.token, w.here)).2
        rw [if_pos rfl] at this
        rw [this, hh]; omega
      · intro q hq
        have := (hget2 (x.token, q)).2
        rw [if_neg (by intro h; injection h with _ h; exact hq h)] at this
        by_cases hqr : q = receiver x a w.pre.dao .executed
        · rw [if_pos (by rw [hqr])] at this
          rw [if_pos hqr, this, ← hqr]
          by_cases hqa : q = a
          · rw [if_pos hqa, hqa, ha]; omega
          · rw [if_neg hqa, hother q hqa hq]
            rfl
        · rw [if_neg (by intro h; injection h with _ h; exact hqr h)] at this
          rw [if_neg hqr, this]
          by_cases hqa : q = a
          · rw [if_pos hqa, hqa, ha]; omega
          · rw [if_neg hqa, hother q hqa hq]

/-- **C112.** The members of a DAO with a pre-propose module can always act. From any reachable state in which the
module is attached, without a veto: take members whose stakes suffice for the threshold of the DAO, and somebody the
policy lets submit, who has the deposit. In any later block they can submit a proposal with messages of their choice,
the deposit is taken, the members vote yes, and once the voting period is over anybody can execute it: all these calls
succeed, and the DAO then has to send exactly these messages, before anything else. The completion hook succeeds too:
the module stays attached, and the deposit is returned, or goes to the DAO if it is never refunded. -/
theorem C112_members_act (hV : Lawful V) {w0 w : World V decode} {b0 b : Block} {l0 : List (WholeDao.Event S E C)}
    {log : List (Event V decode)} (h0 : (WholeDao.sys V decode).Reach w0.mod b0 l0) (hfresh : Fresh w0)
    (h : (sys V N decode).Run w0 b0 log w b) (hst : Steady (daoLog log ++ l0))
    (hnow : w.mod.core.core.voting = some w.mod.voteAddr ∧ w.mod.prop.config.dao = w.mod.core.core.me)
    (hatt : w.mod.prop.policy = .module w.here) (hidle : w.queue = [] ∧ w.takes = [])
    (hveto : w.mod.prop.config.veto = none) (hid : w.mod.prop.count + 1 < U64) (htot : V.totalWeight w.mod.vote < U128)
    -- the block of the proposal and the votes, in which the voting period is not over already
    {e : WholeDao.Env} (hb : b.le e.block) (hlater : b.height < e.block.height) (hact : e.active = true)
    (hopen : (w.mod.prop.config.maxVotingPeriod.after e.block).isExpired e.block = false)
    -- who submits
    (hne : e.sender ≠ w.here)
    (hmay : MaySubmit w.pre.config.policy (fun a => N.power w.mod.vote a e.block) e.sender)
    (hhas : ∀ d, w.pre.config.deposit = some d → d.amount ≤ getD0 w.bal (d.token, e.sender))
    (hroom : ∀ d, w.pre.config.deposit = some d → ∀ p q, p ≠ q →
      getD0 w.bal (d.token, p) + getD0 w.bal (d.token, q) < U128)
    -- the members
    {ys : List Addr} (hys : ys.Nodup) (hstake : ∀ a ∈ ys, V.weight w.mod.vote a ≠ 0) (hyh : ∀ a ∈ ys, a ≠ w.here)
    (hwin : ShouldPass w.mod.prop.config.threshold (V.totalWeight w.mod.vote)
      ⟨(ys.map (V.weight w.mod.vote)).sum, 0, 0⟩ true)
    -- the block of the execution
    {f : WholeDao.Env} (hf : e.block.le f.block)
    (hend : (w.mod.prop.config.maxVotingPeriod.after e.block).isExpired f.block = true) (hfne : f.sender ≠ w.here)
    (hmem : w.mod.prop.config.onlyMembersExecute = true → V.weight w.mod.vote f.sender ≠ 0)
    (hpause : DaoCore.isPaused w.mod.core.core f.block = false)
    (hen : DaoCore.Enabled w.mod.core.core w.mod.propAddr)
    (content : Nat) (msgs : List Nat) (pw : Addr → Nat) :
    ∃ w' log', (sys V N decode).Run w b log' w' f.block ∧
      log'.map (fun ev => (ev.env, ev.call)) =
        (⟨f, [], pw⟩, .deliver 0) :: (⟨f, [], pw⟩, .module (.prop (.execute (w.mod.prop.count + 1) false))) ::
        (ys.reverse.map (fun a => ((⟨{ e with sender := a }, [], pw⟩ : Env),
            PrePropose.Call.module (WholeDao.Call.prop (.vote (w.mod.prop.count + 1) .yes none)))) ++
        ((takeCalls V decode w.pre.config.deposit).map (fun c => ((⟨e, [], pw⟩ : Env), c)) ++
        [(⟨e, fundsFor w.pre.config.deposit, pw⟩, .propose ⟨content, msgs, none, true⟩)])) ∧
      w'.mod.core.stack = msgs.map (fun n => DaoCore.Sub.send (decode n)) ++ w.mod.core.stack ∧
      w'.mod.prop.policy = .module w.here ∧ w'.queue = [] ∧ w'.takes = [] ∧
      (∀ d, w.pre.config.deposit = some d → w'.holds d.token = w.holds d.token ∧
        ∀ q, q ≠ w.here → getD0 w'.bal (d.token, q) + (if q = e.sender then d.amount else 0) =
          getD0 w.bal (d.token, q) +
            (if q = (if d.refund = .never then w.mod.core.core.me else e.sender) then d.amount else 0)) := by
  obtain ⟨b1, hb1, hreach⟩ := dao_run h (Block.le_refl _) h0
  obtain ⟨f1, f2, f3, f4⟩ := fixed h
  have hinv := PrePropose.inv_reach lawful (pre_reach h0 hfresh h)
  have hdaome : w.pre.dao = w.mod.core.core.me := by rw [f2, f4, hfresh.asked, hfresh.dao]
  -- the proposal
  obtain ⟨m1, out1, o1, st, hs1, ho1, hstill1, hget1, hal1⟩ := WholeDao.propose_step (decode := decode)
    (g := some e.sender) (proposer := e.sender) (e := { e with sender := w.here }) hV hreach hnow
    (by rw [hatt]; simp [CreationPolicy.isPermitted]) (by rw [hatt]; rfl) hveto hid htot
    (Nat.lt_of_le_of_lt hb1.1 hlater) hact content msgs
  obtain ⟨m2, l2, m3, out3, hr2, hl2, hs3, ho3, hstk⟩ := WholeDao.after_proposed
    (e := { e with sender := w.here }) hV hreach hst hnow hveto (Block.le_trans hb1 hb) (Nat.lt_of_le_of_lt hb1.1 hlater) hopen hs1 ho1 hstill1 hget1 hal1 hys hstake hwin hf hend hmem
    hpause hen
  have hq1 : (out1.prop.map (fun o => singleCompleted o.msgs)).getD [] = [] ∧ m1.prop.policy = w.mod.prop.policy := by
    obtain ⟨⟨o2, h1, h2⟩, _⟩ := WholeDao.prop_effect hs1
    rw [h1]
    simp only [Single.step] at h2
    obtain ⟨proposer, total, st', s1, _, _, _, _, _, _, _, h8, h10, h9⟩ := Single.execPropose_inv h2
    rcases h9 with ⟨_, h9, h11⟩ | ⟨_, _, _, h9, _⟩
    · refine ⟨?_, by rw [h9, h8]⟩
      change singleCompleted o2.msgs = []
      rw [h11]; exact Single.completed_hooks
    · cases h9
  -- the run
  obtain ⟨L1, bal1, hrun1, hL1, hmoved⟩ := submit_run (N := N) (w := w) (p := ⟨content, msgs, none, true⟩) hb hidle.2 hne pw
    (by
      have hw : WholeDao.Wired w.mod w.pre.dao := ⟨hdaome, hnow.1⟩
      have hpw : (preEnv N w ⟨e, fundsFor w.pre.config.deposit, pw⟩).power = fun a => N.power w.mod.vote a e.block := by
        funext a
        simp only [preEnv]
        rw [if_pos hw]
      rw [hpw]; exact hmay) hinv.good hhas hroom hs1 hq1.1
  obtain ⟨L2, hrun2, hL2, hpol2⟩ := lift_votes (N := N) hr2 (w := { w with
      pre := { w.pre with deposits := w.pre.deposits.set (w.mod.prop.count + 1) (w.pre.config.deposit, e.sender) }
      mod := m1
      bal := bal1
      takes := [] }) rfl pw (by
    intro ev hev
    have : (ev.env, ev.call) ∈ l2.map (fun ev => (ev.env, ev.call)) := List.mem_map.2 ⟨ev, hev, rfl⟩
    rw [hl2, List.mem_map] at this
    obtain ⟨a, ha, he⟩ := this
    injection he with he1 he2
    refine ⟨?_, _, _, _, he2.symm⟩
    rw [← he1]
    exact hyh a (List.mem_reverse.1 ha))
  have hpol : m2.prop.policy = .module w.here := by rw [hpol2, hq1.2, hatt]
  obtain ⟨htell, hpol3⟩ := execute_tells hs3 hpol
  have hs3' := lift_step (N := N) (w := { w with
      pre := { w.pre with deposits := w.pre.deposits.set (w.mod.prop.count + 1) (w.pre.config.deposit, e.sender) }
      mod := m2
      bal := bal1
      takes := [] }) (e := ⟨f, [], pw⟩) hs3 hfne rfl
  have hrun3 := Sys.Run.step (M := sys V N decode) (env := ⟨f, [], pw⟩)
    (call := .module (.prop (.execute (w.mod.prop.count + 1) false))) (hrun1.append hrun2) hf hs3'
  obtain ⟨bal, ps, hs4, hpaid⟩ := settle (N := N) (V := V) (decode := decode) (e := ⟨f, [], pw⟩) (l := w.bal) (w := { w with
      pre := { w.pre with deposits := w.pre.deposits.set (w.mod.prop.count + 1) (w.pre.config.deposit, e.sender) }
      mod := m3
      bal := bal1
      queue := w.queue ++ PrePropose.hooksFor w.here ((out3.prop.map (fun o => singleCompleted o.msgs)).getD [])
      takes := [] }) (id := w.mod.prop.count + 1) (d := w.pre.config.deposit) (a := e.sender)
    (by rw [htell, hidle.1]; rfl) (AMap.get_set_self _ _ _) hinv.good hne (by exact hinv.daoNe) hmoved hroom
  have hrun4 := Sys.Run.step (M := sys V N decode) (env := ⟨f, [], pw⟩) (call := .deliver 0) hrun3 (Block.le_refl _) hs4
  refine ⟨_, _, hrun4, ?_, hstk, hpol3.trans hpol, rfl, rfl, ?_⟩
  · simp only [List.map_cons, List.map_append, hL1, hL2]
    have : l2.map (fun ev => ((⟨ev.env, [], pw⟩ : Env), (PrePropose.Call.module ev.call : Call V decode))) =
        (l2.map (fun ev => (ev.env, ev.call))).map (fun x => (⟨x.1, [], pw⟩, PrePropose.Call.module x.2)) := by
      rw [List.map_map]; rfl
    rw [this, hl2, List.map_map]
    rfl
  · intro d hd
    obtain ⟨_, h1, h2⟩ := hpaid d hd
    refine ⟨h1, ?_⟩
    intro q hq
    have h3 := h2 q hq
    have hre : receiver d e.sender w.pre.dao .executed = if d.refund = .never then w.mod.core.core.me else e.sender := by
      unfold receiver
      rw [hdaome]
      cases d.refund <;> simp
    simp only [hre] at h3
    exact h3

/-- **C112.** Nothing others do stops it. If members whose power decides have voted yes on a proposal, then however
often anyone submits, votes, moves tokens or calls any of the contracts, once the voting period is over anybody can
execute it, unless it already was. -/
theorem C112_unstoppable (hV : Lawful V) {w0 w : World V decode} {b0 b : Block} {l0 : List (WholeDao.Event S E C)}
    {log : List (Event V decode)} (h0 : (WholeDao.sys V decode).Reach w0.mod b0 l0)
    (h : (sys V N decode).Run w0 b0 log w b) (hst : Steady (daoLog log ++ l0))
    (hnow : w.mod.core.core.voting = some w.mod.voteAddr ∧ w.mod.prop.config.dao = w.mod.core.core.me)
    {id : Nat} {p : Single.Proposal} (hp : w.mod.prop.proposals.get id = some p) (hveto : p.veto = none)
    {ys : List Addr} (hys : ys.Nodup)
    (hyes : ∀ a ∈ ys, lastVote a id (Spec.WholeDao.propLog V (daoLog log ++ l0)) = some .yes)
    (hwin : Decisive p.threshold (V.total w.mod.vote p.startHeight) (powerOf V w.mod.vote p.startHeight ys)) {e : Env}
    (hb : b.le e.dao.block) (hend : p.expiration.isExpired e.dao.block = true) (hne : e.dao.sender ≠ w.here)
    (hmem : w.mod.prop.config.onlyMembersExecute = true → V.power w.mod.vote e.dao.sender p.startHeight ≠ 0)
    (hpause : DaoCore.isPaused w.mod.core.core e.dao.block = false)
    (hen : DaoCore.Enabled w.mod.core.core w.mod.propAddr) :
    (p.status = .executed ∨ p.status = .executionFailed) ∨
    ∃ w' out, (sys V N decode).step w e (.module (.prop (.execute id false))) = .ok (w', out) ∧
      w'.mod.core.stack = p.msgs.map (fun n => DaoCore.Sub.send (decode n)) ++ w.mod.core.stack := by
  obtain ⟨b1, hb1, hreach⟩ := dao_run h (Block.le_refl _) h0
  rcases WholeDao.C87_unstoppable hV hreach hst hnow hp hveto hys hyes hwin (Block.le_trans hb1 hb) hend hmem hpause hen with
    h1 | ⟨m, out, h1, h2, h3⟩
  · exact .inl h1
  · right
    refine ⟨_, _, lift_step (N := N) h1 hne rfl, ?_⟩
    rw [← h2]; exact h3

end Verif.DepositDao
