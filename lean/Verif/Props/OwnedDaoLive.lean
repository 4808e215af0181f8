import Verif.Props.OwnedDaoContracts
import Verif.Props.VetoDaoLive
/-! C123: the members of a DAO can always use what belongs to it. -/

namespace Verif.OwnedDao
open Verif Verif.Spec Verif.Spec.OwnedDao
open Verif.WholeDao (VotingModule Env)
open Verif.Spec.WholeDao (Lawful Steady powerOf propLog)

variable {T A F D P G K R : Type} {U : VotingModule T F D P} {decode : Nat → DaoCore.CosmosMsg} {X : Contract A G K R}
  {toCall : Nat → Option K}

/-- **C123.** When the next thing the DAO sends is a call that the contract accepts from the DAO in this block, the call is
carried out as if the DAO had called the contract by itself. -/
theorem C123_carried_out {w : World T A} {e : Env} {j : Nat} {k : K} {g : G} {rest : List DaoCore.Sub} {x : A} {r : R}
    (hst : w.dao.core.stack = .send (.other j) :: rest) (hj : toCall j = some k) (hg : X.sys.block g = e.block)
    (hc : X.caller g k = some w.dao.core.core.me) (hx : X.sys.step w.it g k = .ok (x, r)) :
    ∃ w' out, (sys U decode X toCall).step w e (.pass g) = .ok (w', out) ∧ w'.it = x ∧ out.it = some r ∧
      w'.dao.core.stack = rest := by
  have h3 : WholeDao.step U decode w.dao e (.core (.deliver ⟨0, []⟩)) =
      .ok ({ w.dao with core := ⟨w.dao.core.core, rest⟩ }, ⟨none, []⟩) := by
    simp only [WholeDao.step, WholeDao.notBy, require, if_true, ok_bind, DaoCore.step, hst]
  have h4 : next toCall w.dao.core.stack = some k := by rw [hst]; exact hj
  refine ⟨⟨{ w.dao with core := ⟨w.dao.core.core, rest⟩ }, x⟩, ⟨⟨none, []⟩, some r⟩, ?_, rfl, rfl, rfl⟩
  simp only [sys, step, h4, orErr, ok_bind, hg, hc, decide_true, Bool.and_self, require, if_true, h3, hx]

/-- A history of the proposal module of the DAO, with the contract standing by. -/
theorem lift {w : World T A} {x : WholeDao.World T} {b b' : Block} {l : List (WholeDao.Event T F D)}
    (h : (WholeDao.sys U decode).Run w.dao b l x b') (hl : ∀ ev ∈ l, ∃ c, ev.call = .prop c) :
    ∃ l', (sys U decode X toCall).Run w b l' { w with dao := x } b' ∧
      l'.map (fun ev => (ev.env, ev.call)) = l.map (fun ev => (ev.env, Call.dao ev.call)) := by
  induction h with
  | refl => exact ⟨[], .refl, rfl⟩
  | @step s1 s2 b3 log env call out hr hb3 hs ih =>
    obtain ⟨l', h1, h2⟩ := ih (fun ev hev => hl ev (List.mem_cons_of_mem _ hev))
    obtain ⟨c, hc⟩ := hl _ List.mem_cons_self
    simp only at hc
    subst hc
    have h3 : WholeDao.step U decode s1 env (.prop c) = .ok (s2, out) := hs
    refine ⟨_, .step (M := sys U decode X toCall) (s2 := { w with dao := s2 }) (env := env)
      (call := .dao (.prop c)) (out := ⟨out, none⟩) h1 hb3 ?_, ?_⟩
    · simp only [sys, step, daoAlone, require, if_true, ok_bind, h3]
    · simp only [List.map_cons, h2]

/-- **C123.** The members can always use what belongs to their DAO: in any state the DAO and the contract can reach, members
with sufficient stakes can propose any call of the contract, vote for it, and have it executed when the voting period is over;
if the contract accepts the call from the DAO in that block, it is then carried out. All these transactions succeed. -/
theorem C123_members_use (hU : Lawful U) {w0 w : World T A} {b0 b : Block} {log : List (Event T A F D G K R)}
    {l : List (Ev A G K R)} {d : List (WholeDao.Event T F D)} (hp : Past U decode X w0 b0 l d)
    (h : (sys U decode X toCall).Run w0 b0 log w b) (hst : Steady (daoLog log ++ d)) {ys : List Addr} {e f : Env}
    (hm : Majority U w.dao b ys e f) {n j : Nat} {k : K} (hn : decode n = .other j) (hj : toCall j = some k)
    {g : G} (hg : X.sys.block g = f.block) (hc : X.caller g k = some w.dao.core.core.me) {x : A} {r : R}
    (hx : X.sys.step w.it g k = .ok (x, r)) (content : Nat) :
    ∃ w' log', (sys U decode X toCall).Run w b log' w' f.block ∧
      log'.map (fun ev => (ev.env, ev.call)) = script w.dao.prop.count ys e f n content g ∧
      log'.head?.bind (fun ev => ev.out.it) = some r ∧ w'.it = x ∧ w'.dao.core.stack = w.dao.core.stack := by
  obtain ⟨u, bu, b1, hi, _, hr, hb1⟩ := whole_dao hp h
  have hreach : (WholeDao.sys U decode).Reach w.dao b1 (daoLog log ++ d) := ⟨bu, u, hi, hr⟩
  obtain ⟨y, lx, hrun, hcalls, _, hstack⟩ := WholeDao.C87_majority_acts (decode := decode) hU hreach hst hm.now hm.policy
    hm.veto hm.count hm.total (Block.le_trans hb1 hm.le) (Nat.lt_of_le_of_lt hb1.1 hm.later) hm.active hm.opens hm.nodup
    hm.stake hm.win hm.block hm.ends hm.member hm.pause hm.enabled content [n]
  have henv : ∀ ev ∈ lx, b.le ev.env.block ∧ ∃ c, ev.call = .prop c := by
    intro ev hev
    have : (ev.env, ev.call) ∈ lx.map (fun ev => (ev.env, ev.call)) := List.mem_map.2 ⟨ev, hev, rfl⟩
    rw [hcalls] at this
    simp only [List.mem_cons, List.mem_append, List.mem_map, List.not_mem_nil, or_false, Prod.mk.injEq] at this
    rcases this with ⟨h1, h2⟩ | ⟨a, _, h1, h2⟩ | ⟨h1, h2⟩
    · rw [h1, h2]; exact ⟨Block.le_trans hm.le hm.block, _, rfl⟩
    · rw [← h1, ← h2]; exact ⟨hm.le, _, rfl⟩
    · rw [h1, h2]; exact ⟨hm.le, _, rfl⟩
  have hne : lx ≠ [] := by
    rintro rfl
    simp at hcalls
  obtain ⟨l', h1, h2⟩ := lift (X := X) (toCall := toCall) (VetoDao.later hrun (fun ev hev => (henv ev hev).1) hne)
    (fun ev hev => (henv ev hev).2)
  have hmx : y.core.core.me = w.dao.core.core.me := WholeDao.me_run hrun
  obtain ⟨w', out, h3, h4, h5, h6⟩ := C123_carried_out (U := U) (decode := decode) (X := X) (toCall := toCall)
    (w := { w with dao := y }) (e := f) (rest := w.dao.core.stack)
    (by simp only [hstack, List.map_cons, List.map_nil, hn, List.cons_append, List.nil_append]) hj hg
    (by rw [hc]; exact congrArg some hmx.symm) hx
  refine ⟨w', _, .step (M := sys U decode X toCall) (env := f) (call := .pass g) h1 (Block.le_refl _) h3, ?_, h5, h4, h6⟩
  have h7 : lx.map (fun ev => (ev.env, Call.dao (G := G) (K := K) ev.call)) =
      (lx.map (fun ev => (ev.env, ev.call))).map (fun q => (q.1, Call.dao q.2)) := by
    rw [List.map_map]; rfl
  rw [List.map_cons, h2, h7, hcalls]
  simp only [script, List.map_cons, List.map_append, List.map_map, List.map_nil, Function.comp_def]

/-- **C123.** Nobody can stop them: if members with a decisive share of the power stand by their yes to a call of the contract,
then once the voting period is over, whatever happened meanwhile, the decision has been executed already, or it can be executed
now, and if the contract accepts the call from the DAO, it is carried out next. -/
theorem C123_unstoppable (hU : Lawful U) {w0 w : World T A} {b0 b : Block} {log : List (Event T A F D G K R)}
    {l : List (Ev A G K R)} {d : List (WholeDao.Event T F D)} (hp : Past U decode X w0 b0 l d)
    (h : (sys U decode X toCall).Run w0 b0 log w b) (hst : Steady (daoLog log ++ d))
    (hnow : w.dao.core.core.voting = some w.dao.voteAddr ∧ w.dao.prop.config.dao = w.dao.core.core.me)
    -- the decision
    {pid : Nat} {q : Single.Proposal} (hq : w.dao.prop.proposals.get pid = some q) (hqv : q.veto = none)
    {ys : List Addr} (hys : ys.Nodup) (hyes : ∀ a ∈ ys, lastVote a pid (propLog U (daoLog log ++ d)) = some .yes)
    (hwin : Spec.WholeDao.Decisive q.threshold (U.total w.dao.vote q.startHeight) (powerOf U w.dao.vote q.startHeight ys))
    {n j : Nat} {k : K} (hmsgs : q.msgs = [n]) (hn : decode n = .other j) (hj : toCall j = some k)
    -- the block
    {e : Env} (hb : b.le e.block) (hend : q.expiration.isExpired e.block = true)
    (hmem : w.dao.prop.config.onlyMembersExecute = true → U.power w.dao.vote e.sender q.startHeight ≠ 0)
    (hpause : DaoCore.isPaused w.dao.core.core e.block = false)
    (hen : Spec.DaoCore.Enabled w.dao.core.core w.dao.propAddr) :
    (q.status = .executed ∨ q.status = .executionFailed) ∨
    ∃ w1 out1, (sys U decode X toCall).step w e (.dao (.prop (.execute pid false))) = .ok (w1, out1) ∧ w1.it = w.it ∧
      ∀ (g : G) (x : A) (r : R), X.sys.block g = e.block → X.caller g k = some w.dao.core.core.me →
        X.sys.step w.it g k = .ok (x, r) →
        ∃ w2 out2, (sys U decode X toCall).step w1 e (.pass g) = .ok (w2, out2) ∧ w2.it = x ∧ out2.it = some r := by
  obtain ⟨u, bu, b1, hi, _, hr, hb1⟩ := whole_dao hp h
  rcases WholeDao.C87_unstoppable (decode := decode) hU ⟨bu, u, hi, hr⟩ hst hnow hq hqv hys hyes hwin
    (Block.le_trans hb1 hb) hend hmem hpause hen with hd | ⟨y, out, hs, ho, hstk⟩
  · exact Or.inl hd
  · refine Or.inr ⟨{ w with dao := y }, ⟨out, none⟩, ?_, rfl, fun g x r hg hc hx => ?_⟩
    · have hs' : WholeDao.step U decode w.dao e (.prop (.execute pid false)) = .ok (y, out) := hs
      simp only [sys, step, daoAlone, require, if_true, ok_bind, hs']
    · have hs' : WholeDao.step U decode w.dao e (.prop (.execute pid false)) = .ok (y, out) := hs
      have hmx : y.core.core.me = w.dao.core.core.me := (WholeDao.stack_step hs').1
      obtain ⟨w2, out2, h3, h4, h5, _⟩ := C123_carried_out (U := U) (decode := decode) (X := X) (toCall := toCall)
        (w := { w with dao := y }) (e := e) (rest := w.dao.core.stack)
        (by simp only [hstk, ho, hmsgs, List.map_cons, List.map_nil, hn, List.cons_append, List.nil_append]) hj hg
        (by rw [hc]; exact congrArg some hmx.symm) hx
      exact ⟨w2, out2, h3, h4, h5⟩

/-! ## For example -/

/-- **C123**, cw-vesting. The members can always end a payroll of their DAO: when the vest is funded, tokens were never donated
nor slashed while unbonding (see C41), and what has vested can be computed (see C65), they can cancel it, and it is split exactly:
the recipient gets what has vested, and the DAO everything else. -/
theorem C123_cancel (hU : Lawful U) {toCall : Nat → Option Vesting.Call} {w0 w : World T Vesting.World} {b0 b : Block}
    {log : List (Event T Vesting.World F D Vesting.Env Vesting.Call (List Vesting.Pay))} {l : Spec.Vesting.Log}
    {d : List (WholeDao.Event T F D)} (hp : Past U decode vesting w0 b0 l d) {m : Vesting.InstMsg} {wi : Vesting.World}
    {bi bj : Block} (hi : Spec.Vesting.Started m bi wi) (hl : Vesting.sys.Run wi bi l w0.it bj) (hbj : bj.le b0)
    (h : (sys U decode vesting toCall).Run w0 b0 log w b) (hst : Steady (daoLog log ++ d)) {ys : List Addr} {e f : Env}
    (hmaj : Majority U w.dao b ys e f) {n j : Nat} (hn : decode n = .other j) (hj : toCall j = some (.msg .cancel))
    (hown : w.it.c.owner.owner = some w.dao.core.core.me) (hfund : w.it.c.vest.status = .funded)
    (hplain : Spec.Vesting.Plain (itLog toCall log ++ l)) {y : Nat}
    (hy : w.it.c.vest.vested (StakeTracker.secs f.block) = .ok y) (content : Nat) :
    ∃ w' log' o, (sys U decode vesting toCall).Run w b log' w' f.block ∧
      log'.map (fun ev => (ev.env, ev.call)) =
        script w.dao.prop.count ys e f n content { block := f.block, sender := w.dao.core.core.me } ∧
      log'.head?.bind (fun ev => ev.out.it) = some o ∧
      ∃ ow, w'.it.c.vest.status = .canceled ow ∧
        let all : Spec.Vesting.Log :=
          ⟨w.it, { block := f.block, sender := w.dao.core.core.me }, .msg .cancel, o, w'.it⟩ :: (itLog toCall log ++ l)
        Spec.Vesting.paidRecipient all + Spec.Vesting.due w'.it.c.vest y =
          max (Spec.Vesting.paidRecipient (itLog toCall log ++ l)) (y - w.it.c.vest.slashed) ∧
        Spec.Vesting.paidRecipient all + Spec.Vesting.due w'.it.c.vest y +
          (Spec.Vesting.paidOwner all + ow) + w.it.c.vest.slashed = m.total := by
  obtain ⟨b2, h2, hb2⟩ := C122_contract h
  obtain ⟨b1, h3, hb3⟩ := Sys.Run.earlier (M := Vesting.sys) h2 hbj
  have hr := hl.append h3
  have hb1 : b1.le b := Block.le_trans hb3 hb2
  have hb : b1.le f.block := Block.le_trans hb1 (Block.le_trans hmaj.le hmaj.block)
  obtain ⟨x, o, hx⟩ := Vesting.C41_cancel_partial hi hr hplain (e := { block := f.block, sender := w.dao.core.core.me }) hb
    hfund hown hy
  obtain ⟨w', log', h1, h2, h3, h4, _⟩ := C123_members_use (X := vesting) hU hp h hst hmaj hn hj
    (g := { block := f.block, sender := w.dao.core.core.me }) rfl rfl hx content
  obtain ⟨y', ow, hy', h5, _, h6, h7⟩ := Vesting.C40_split hi hr hfund hx
  rw [hy] at hy'; injection hy' with hy'; subst hy'
  refine ⟨w', log', o, h1, h2, h3, ow, by rw [h4]; exact h5, ?_, ?_⟩
  · rw [h4]; exact h6
  · rw [h4]; exact h7

/-- **C123**, cw-tokenfactory-issuer. The members can always let somebody mint the token their DAO issues, up to any amount. -/
theorem C123_minter (hU : Lawful U) {toCall : Nat → Option Issuer.Call} {w0 w : World T Issuer.World} {b0 b : Block}
    {log : List (Event T Issuer.World F D Issuer.Env Issuer.Call Unit)}
    {l : List (Ev Issuer.World Issuer.Env Issuer.Call Unit)} {d : List (WholeDao.Event T F D)}
    (hp : Past U decode issuer w0 b0 l d) (h : (sys U decode issuer toCall).Run w0 b0 log w b)
    (hst : Steady (daoLog log ++ d)) {ys : List Addr} {e f : Env} (hm : Majority U w.dao b ys e f) {n j a amount : Nat}
    (hn : decode n = .other j) (hj : toCall j = some (.exec (.setMinter a amount)))
    (hown : w.it.st.owner.owner = some w.dao.core.core.me) (content : Nat) :
    ∃ w' log', (sys U decode issuer toCall).Run w b log' w' f.block ∧
      log'.map (fun ev => (ev.env, ev.call)) =
        script w.dao.prop.count ys e f n content { block := f.block, sender := w.dao.core.core.me } ∧
      getD0 w'.it.st.minters a = amount := by
  have hx : Issuer.sys.step w.it { block := f.block, sender := w.dao.core.core.me } (.exec (.setMinter a amount)) =
      .ok ({ w.it with st := { w.it.st with minters := Issuer.setAllowance w.it.st.minters a amount } }, ()) := by
    simp only [Issuer.sys, Issuer.step, Issuer.exec, Ownership.assertOwner, hown, decide_true, require, if_true, ok_bind,
      Issuer.Chain.runAll]
  obtain ⟨w', log', h1, h2, _, h4, _⟩ := C123_members_use (X := issuer) hU hp h hst hm hn hj
    (g := { block := f.block, sender := w.dao.core.core.me }) rfl rfl hx content
  refine ⟨w', log', h1, h2, ?_⟩
  rw [h4]
  simp only [Issuer.getD0_setAllowance, if_true]

end Verif.OwnedDao
