import Verif.Props.VetoMulti
import Verif.Props.VetoDaoLive
import Verif.Props.MultipleLive
/-! C121: the members of the DAO that may veto can always veto in time, when the other one has a multiple choice module. -/

namespace Verif.VetoMulti
open Verif Verif.Voting Verif.Spec Verif.Spec.VetoMulti
open Verif.WholeDao (VotingModule)
open Verif.Spec.WholeDao (Lawful Steady Sole Authorised powerOf propLog)

variable {S T E C O F D P : Type} {V : VotingModule S E C O} {N : WholeMulti.TotalNow S} {U : VotingModule T F D P}
  {decode decodeWatcher : Nat → DaoCore.CosmosMsg} {toOrder : ToOrder}

theorem timelock_open {p : Multiple.Proposal} {b : Block} {t : Expiration} (h : p.currentStatus b = .ok (.vetoTimelock t)) :
    t.isExpired b = false := by
  unfold Multiple.Proposal.currentStatus at h
  split at h
  · simp only [bind_ok] at h
    obtain ⟨passed, _, h⟩ := h
    split at h
    · split at h
      · simp only [bind_ok] at h
        obtain ⟨t', _, h⟩ := h
        split at h
        · cases h
        · injection h with h; injection h with h; subst h
          rename_i h1
          simpa using h1
      · cases h
    · split at h
      · cases h
      · simp only [bind_ok] at h
        obtain ⟨r, _, h⟩ := h
        split at h <;> cases h
  · split at h
    · cases h
    · injection h with h; injection h with h; subst h
      rename_i h1
      simpa using h1
  · injection h with h
    rename_i h1
    exact absurd h (h1 t)

/-- A veto in time succeeds. -/
theorem veto_step {x : WholeMulti.World S} {e : WholeMulti.Env} {id : Nat} {p : Multiple.Proposal} {v : VetoConfig}
    (hp : x.prop.proposals.get id = some p) (hv : p.veto = some v) (hs : e.sender = v.vetoer)
    (hx : Vetoable p v e.block) :
    ∃ x' out, WholeMulti.step V N decode x e (.prop (.veto id)) = .ok (x', out) ∧ x'.core = x.core ∧ out.core = [] ∧
      x'.prop.proposals.get id = some { p with status := .vetoed } := by
  have key : ∃ st, p.currentStatus e.block = .ok st ∧ Multiple.vetoCheck st v e.block = .ok () := by
    rcases hx with ⟨hc, hb⟩ | ⟨t, hc⟩
    · exact ⟨_, hc, by simp [Multiple.vetoCheck, hb, require]⟩
    · exact ⟨_, hc, by simp [Multiple.vetoCheck, timelock_open hc, require]⟩
  obtain ⟨st, hc, hck⟩ := key
  have hstep : Multiple.step x.prop (WholeMulti.propEnv V N x e) (.veto id) =
      .ok ({ x.prop with proposals := x.prop.proposals.set id { p with status := .vetoed } },
        { msgs := Multiple.statusChangedHooks x.prop.proposalHooks id st .vetoed
                    ++ Multiple.completedHooks x.prop.policy id .vetoed }) := by
    have h1 : p.currentStatus (WholeMulti.propEnv V N x e).block = .ok st := hc
    have h2 : (WholeMulti.propEnv V N x e).sender = v.vetoer := hs
    have h3 : Multiple.vetoCheck st v (WholeMulti.propEnv V N x e).block = .ok () := hck
    simp only [Multiple.step, Multiple.execVeto, hp, orErr, ok_bind, Multiple.Proposal.updateStatus, h1, hv, h2, decide_true,
      require, if_true, h3]
  have hno : ∀ m ∈ Multiple.statusChangedHooks x.prop.proposalHooks id st .vetoed
      ++ Multiple.completedHooks x.prop.policy id .vetoed, Spec.Multi.isExecuteOnDao m.msg = false := by
    intro m hm
    rcases List.mem_append.1 hm with hm | hm
    · exact Multiple.status_not_exec m hm
    · exact Multiple.completed_not_exec m hm
  generalize ho : ({ msgs := Multiple.statusChangedHooks x.prop.proposalHooks id st .vetoed
                    ++ Multiple.completedHooks x.prop.policy id .vetoed } : Multiple.Out) = o at hstep
  replace hno : ∀ m ∈ o.msgs, Spec.Multi.isExecuteOnDao m.msg = false := by rw [← ho]; exact hno
  refine ⟨{ x with prop := { x.prop with proposals := x.prop.proposals.set id { p with status := .vetoed } } }, ⟨some o, []⟩,
    ?_, rfl, rfl, ?_⟩
  · simp only [WholeMulti.step, hstep, ok_bind, WholeMulti.passOn, WholeMulti.daoFails, Bool.false_eq_true, if_false,
      WholeMulti.handOn_none hno]
  · simp only [AMap.get_set_self]

/-- When the next thing the watcher sends is a veto, it is carried out. -/
theorem pass_veto {w : World S T} {e : Env} {j id : Nat} {rest : List DaoCore.Sub} {p : Multiple.Proposal} {v : VetoConfig}
    (hst : w.watcher.core.stack = .send (.other j) :: rest) (hj : toOrder j = some (.veto id))
    (hp : w.watched.prop.proposals.get id = some p) (hv : p.veto = some v) (hme : v.vetoer = w.watcher.core.core.me)
    (hx : Vetoable p v e.block) (fails : Bool) :
    ∃ w' out, step V N U decode decodeWatcher toOrder w e (.pass fails) = .ok (w', out) ∧
      w'.watched.prop.proposals.get id = some { p with status := .vetoed } ∧ w'.watcher.core.stack = rest := by
  obtain ⟨x', o, h1, _, _, h2⟩ := veto_step (V := V) (N := N) (decode := decode) (e := ({ e with sender := w.watcher.core.core.me } : Env).multi)
    hp hv hme.symm hx
  have h3 : WholeDao.step U decodeWatcher w.watcher e.toEnv (.core (.deliver ⟨0, []⟩)) =
      .ok ({ w.watcher with core := ⟨w.watcher.core.core, rest⟩ }, ⟨none, []⟩) := by
    simp only [WholeDao.step, WholeDao.notBy, require, if_true, ok_bind, DaoCore.step, hst]
  have h4 : next toOrder w.watcher.core.stack = some (.veto id) := by rw [hst]; exact hj
  refine ⟨⟨x', { w.watcher with core := ⟨w.watcher.core.core, rest⟩ }⟩, ⟨o, ⟨none, []⟩⟩, ?_, h2, rfl⟩
  simp only [step, h4, orErr, ok_bind, h3, Order.call, h1]

/-- **C121.** What the members of the watcher have decided is carried out: when the next thing the watcher sends is a veto of
a proposal that may be vetoed in this block, the veto is carried out, and the proposal is vetoed. -/
theorem C121_carried_out {w : World S T} {e : Env} {j id : Nat} {rest : List DaoCore.Sub} {p : Multiple.Proposal}
    {v : VetoConfig} (hst : w.watcher.core.stack = .send (.other j) :: rest) (hj : toOrder j = some (.veto id))
    (hp : w.watched.prop.proposals.get id = some p) (hv : p.veto = some v) (hme : v.vetoer = w.watcher.core.core.me)
    (hx : Vetoable p v e.block) (fails : Bool) :
    ∃ w' out p', (sys V N U decode decodeWatcher toOrder).step w e (.pass fails) = .ok (w', out) ∧
      w'.watched.prop.proposals.get id = some p' ∧ p'.status = .vetoed ∧ w'.watcher.core.stack = rest := by
  obtain ⟨w', out, h1, h2, h3⟩ := pass_veto (V := V) (N := N) (U := U) (decode := decode) (decodeWatcher := decodeWatcher)
    (toOrder := toOrder) hst hj hp hv hme hx fails
  exact ⟨w', out, _, h1, h2, rfl, h3⟩

/-- A history of the proposal module of the watcher, with the other DAO standing by. -/
theorem lift (t : Addr → Nat) {w : World S T} {x : WholeDao.World T} {b b' : Block} {l : List (WholeDao.Event T F D)}
    (h : (WholeDao.sys U decodeWatcher).Run w.watcher b l x b') (hl : ∀ ev ∈ l, ∃ c, ev.call = .prop c) :
    ∃ l', (sys V N U decode decodeWatcher toOrder).Run w b l' { w with watcher := x } b' ∧
      l'.map (fun ev => (ev.env, ev.call)) = l.map (fun ev => ((⟨ev.env, t⟩ : Env), Call.watcher ev.call)) := by
  induction h with
  | refl => exact ⟨[], .refl, rfl⟩
  | @step s1 s2 b3 log env call out hr hb3 hs ih =>
    obtain ⟨l', h1, h2⟩ := ih (fun ev hev => hl ev (List.mem_cons_of_mem _ hev))
    obtain ⟨c, hc⟩ := hl _ List.mem_cons_self
    simp only at hc
    subst hc
    have h3 : WholeDao.step U decodeWatcher s1 env (.prop c) = .ok (s2, out) := hs
    refine ⟨_, .step (M := sys V N U decode decodeWatcher toOrder) (s2 := { w with watcher := s2 }) (env := ⟨env, t⟩)
      (call := .watcher (.prop c)) (out := ⟨still, out⟩) h1 hb3 ?_, ?_⟩
    · simp only [sys, step, watcherAlone, require, if_true, ok_bind, h3]
    · simp only [List.map_cons, h2]

/-- **C121.** The members of the watcher can always veto: in any state the two DAOs can reach, members of the watcher whose
stakes suffice for its threshold can in any later block propose to veto a proposal of the watched DAO, vote yes, and once the
voting period of the watcher is over anybody can execute this; then the veto is carried out, if the proposal may still be
vetoed in that block. All these calls succeed. -/
theorem C121_members_veto (hU : Lawful U) {w0 w : World S T} {b0 b : Block} {log : List (Event S T E C F D)}
    {l : List (WholeMulti.Event S E C)} {k : List (WholeDao.Event T F D)} (hp : Past V N U decode decodeWatcher w0 b0 l k)
    (h : (sys V N U decode decodeWatcher toOrder).Run w0 b0 log w b) (hst : Steady (watcherLog log ++ k))
    (hnow : w.watcher.core.core.voting = some w.watcher.voteAddr ∧ w.watcher.prop.config.dao = w.watcher.core.core.me)
    (hpol : w.watcher.prop.policy = .anyone) (hveto : w.watcher.prop.config.veto = none)
    (hid : w.watcher.prop.count + 1 < U64) (htot : U.totalWeight w.watcher.vote < U128)
    -- the block of the proposal of the watcher and the votes
    {e : WholeDao.Env} (hb : b.le e.block) (hlater : b.height < e.block.height) (hact : e.active = true)
    (hopen : (w.watcher.prop.config.maxVotingPeriod.after e.block).isExpired e.block = false)
    -- the members of the watcher
    {ys : List Addr} (hys : ys.Nodup) (hstake : ∀ a ∈ ys, U.weight w.watcher.vote a ≠ 0)
    (hwin : ShouldPass w.watcher.prop.config.threshold (U.totalWeight w.watcher.vote)
      ⟨(ys.map (U.weight w.watcher.vote)).sum, 0, 0⟩ true)
    -- the block of the execution
    {f : WholeDao.Env} (hf : e.block.le f.block)
    (hend : (w.watcher.prop.config.maxVotingPeriod.after e.block).isExpired f.block = true)
    (hmem : w.watcher.prop.config.onlyMembersExecute = true → U.weight w.watcher.vote f.sender ≠ 0)
    (hpause : DaoCore.isPaused w.watcher.core.core f.block = false)
    (hen : Spec.DaoCore.Enabled w.watcher.core.core w.watcher.propAddr)
    -- the proposal to veto
    {id : Nat} {p : Multiple.Proposal} {v : VetoConfig} (hget : w.watched.prop.proposals.get id = some p)
    (hv : p.veto = some v) (hme : v.vetoer = w.watcher.core.core.me) (hx : Vetoable p v f.block)
    {n j : Nat} (hn : decodeWatcher n = .other j) (hj : toOrder j = some (.veto id)) (content : Nat)
    (t : Addr → Nat) :
    ∃ w' log' p', (sys V N U decode decodeWatcher toOrder).Run w b log' w' f.block ∧
      log'.map (fun ev => (ev.env, ev.call)) =
        (⟨f, t⟩, .pass false) :: (⟨f, t⟩, .watcher (.prop (.execute (w.watcher.prop.count + 1) false))) ::
        (ys.reverse.map (fun a => (⟨{ e with sender := a }, t⟩,
          Call.watcher (WholeDao.Call.prop (.vote (w.watcher.prop.count + 1) .yes none)))) ++
        [(⟨e, t⟩, .watcher (.prop (.propose none content [n] none true)))]) ∧
      w'.watched.prop.proposals.get id = some p' ∧ p'.status = .vetoed ∧
      w'.watcher.core.stack = w.watcher.core.stack := by
  obtain ⟨u, bu, b1, hi, _, hr, hb1⟩ := whole_watcher hp h
  have hreach : (WholeDao.sys U decodeWatcher).Reach w.watcher b1 (watcherLog log ++ k) := ⟨bu, u, hi, hr⟩
  obtain ⟨x, lx, hrun, hcalls, _, hstack⟩ := WholeDao.C87_majority_acts (decode := decodeWatcher) hU hreach hst hnow hpol
    hveto hid htot (Block.le_trans hb1 hb) (Nat.lt_of_le_of_lt hb1.1 hlater) hact hopen hys hstake hwin hf hend hmem hpause
    hen content [n]
  have henv : ∀ ev ∈ lx, b.le ev.env.block ∧ ∃ c, ev.call = .prop c := by
    intro ev hev
    have : (ev.env, ev.call) ∈ lx.map (fun ev => (ev.env, ev.call)) := List.mem_map.2 ⟨ev, hev, rfl⟩
    rw [hcalls] at this
    simp only [List.mem_cons, List.mem_append, List.mem_map, List.not_mem_nil, or_false, Prod.mk.injEq] at this
    rcases this with ⟨h1, h2⟩ | ⟨a, _, h1, h2⟩ | ⟨h1, h2⟩
    · rw [h1, h2]; exact ⟨Block.le_trans hb hf, _, rfl⟩
    · rw [← h1, ← h2]; exact ⟨hb, _, rfl⟩
    · rw [h1, h2]; exact ⟨hb, _, rfl⟩
  have hne : lx ≠ [] := by
    rintro rfl
    simp at hcalls
  obtain ⟨l', h1, h2⟩ := lift (V := V) (N := N) (decode := decode) (toOrder := toOrder) t (VetoDao.later hrun (fun ev hev => (henv ev hev).1) hne)
    (fun ev hev => (henv ev hev).2)
  have hmx : x.core.core.me = w.watcher.core.core.me := WholeDao.me_run hrun
  obtain ⟨w', out, h3, h4, h5⟩ := pass_veto (V := V) (N := N) (U := U) (decode := decode) (decodeWatcher := decodeWatcher)
    (toOrder := toOrder) (w := { w with watcher := x }) (e := ⟨f, t⟩) (rest := w.watcher.core.stack)
    (by simp only [hstack, List.map_cons, List.map_nil, hn, List.cons_append, List.nil_append]) hj hget hv
    (by rw [hme]; exact hmx.symm) hx false
  refine ⟨w', _, _, .step (M := sys V N U decode decodeWatcher toOrder) (env := ⟨f, t⟩) (call := .pass false) h1 (Block.le_refl _) h3,
    ?_, h4, rfl, h5⟩
  have h6 : lx.map (fun ev => ((⟨ev.env, t⟩ : Env), Call.watcher (E := E) (C := C) ev.call)) =
      (lx.map (fun ev => (ev.env, ev.call))).map (fun q => ((⟨q.1, t⟩ : Env), Call.watcher q.2)) := by
    rw [List.map_map]; rfl
  rw [List.map_cons, h2, h6, hcalls]
  simp only [List.map_cons, List.map_append, List.map_map, List.map_nil, Function.comp_def]

theorem reported_final {p : Multiple.Proposal} {b : Block} {st : Status} (h : p.currentStatus b = .ok st)
    (hst : st = .closed ∨ st = .vetoed ∨ st = .executed ∨ st = .executionFailed) : p.status = st := by
  unfold Multiple.Proposal.currentStatus at h
  split at h
  · exfalso
    simp only [bind_ok] at h
    obtain ⟨passed, _, h⟩ := h
    split at h
    · split at h
      · simp only [bind_ok] at h
        obtain ⟨e, _, h⟩ := h
        split at h <;> injection h with h <;> subst h <;> simp at hst
      · injection h with h; subst h; simp at hst
    · split at h
      · injection h with h; subst h; simp at hst
      · simp only [bind_ok] at h
        obtain ⟨r, _, h⟩ := h
        split at h <;> injection h with h <;> subst h <;> simp at hst
  · exfalso
    split at h <;> injection h with h <;> subst h <;> simp at hst
  · injection h

/-- **C121.** The timelock protects: while it is not over, and with the voting period over or a veto before passing enabled, a
proposal may be vetoed, or it is lost, or it has been vetoed or executed already. -/
theorem C121_open_to_veto (hV : Lawful V) {w0 w : World S T} {b0 b : Block} {log : List (Event S T E C F D)}
    {l : List (WholeMulti.Event S E C)} {k : List (WholeDao.Event T F D)} (hp : Past V N U decode decodeWatcher w0 b0 l k)
    (h : (sys V N U decode decodeWatcher toOrder).Run w0 b0 log w b) (hst : Spec.WholeMulti.Steady (watchedLog toOrder log ++ l))
    (hN : Spec.WholeMulti.TotalsOfHeight V N (watchedLog toOrder log ++ l))
    {id : Nat} {p : Multiple.Proposal} {v : VetoConfig} (hget : w.watched.prop.proposals.get id = some p)
    (hv : p.veto = some v) {b' : Block} (hb : b.le b') (htime : ¬ TimelockOver p v b')
    (hvote : p.expiration.isExpired b' = true ∨ v.vetoBeforePassed = true) :
    Vetoable p v b' ∨ (p.currentStatus b' = .ok .rejected ∨ p.status = .closed) ∨ p.status = .vetoed ∨
      p.status = .executed ∨ p.status = .executionFailed := by
  obtain ⟨b1, h1, hb1⟩ := whole_watched hp h
  obtain ⟨b2, l2, hb2, hrl, _, hpl⟩ := WholeMulti.prop_stable hV h1 hst hN
  obtain ⟨st, hcur⟩ := Multiple.C61_status_total hrl hpl hget b'
  have hle : b2.le b' := Block.le_trans hb2 (Block.le_trans hb1 hb)
  have hto := Multiple.timeOk_current (Multiple.timeOk_mono (Multiple.timeInv_reach hrl id p hget) hle) hcur
  cases st with
  | opened =>
    left; left
    refine ⟨hcur, ?_⟩
    rcases hvote with hx | hx
    · exact absurd hcur (not_open hx)
    · exact hx
  | vetoTimelock t => exact Or.inl (Or.inr ⟨t, hcur⟩)
  | rejected => exact Or.inr (Or.inl (Or.inl hcur))
  | passed =>
    obtain ⟨t, ht, hx⟩ := hto.2 rfl v hv
    exact absurd ⟨t, ht, hx⟩ htime
  | closed => exact Or.inr (Or.inl (Or.inr (reported_final hcur (Or.inl rfl))))
  | vetoed => exact Or.inr (Or.inr (Or.inl (reported_final hcur (Or.inr (Or.inl rfl)))))
  | executed => exact Or.inr (Or.inr (Or.inr (Or.inl (reported_final hcur (Or.inr (Or.inr (Or.inl rfl)))))))
  | executionFailed => exact Or.inr (Or.inr (Or.inr (Or.inr (reported_final hcur (Or.inr (Or.inr (Or.inr rfl)))))))

/-- **C121.** While the timelock of a proposal whose vetoer is the watcher is not over, nobody but the watcher can have
executed it: if it was executed since the beginning of the history, then on an order that goes back to a decision of the
members of the watcher. -/
theorem C121_waits (hU : Lawful U) {w0 w : World S T} {b0 b : Block} {log : List (Event S T E C F D)}
    {l : List (WholeMulti.Event S E C)} {k : List (WholeDao.Event T F D)} (hp : Past V N U decode decodeWatcher w0 b0 l k)
    (h : (sys V N U decode decodeWatcher toOrder).Run w0 b0 log w b) (hst : Steady (watcherLog log ++ k))
    (hso : Sole (watcherLog log ++ k)) {id : Nat} {p : Multiple.Proposal} {v : VetoConfig}
    (hget : w.watched.prop.proposals.get id = some p) (hv : p.veto = some v) (hme : v.vetoer = w.watcher.core.core.me)
    (htime : ¬ TimelockOver p v b) {ev : WholeMulti.Event S E C} (hev : ev ∈ watchedLog toOrder log) {f : Bool}
    (hc : ev.call = .prop (.execute id f)) :
    v.earlyExecute = true ∧ Ordered U decodeWatcher toOrder (watcherLog log ++ k) (.execute id) := by
  obtain ⟨b1, ⟨bb, ww, hi, hrun⟩, hb1⟩ := whole_watched hp h
  obtain ⟨o, ho⟩ := mem_propLog hrun (List.mem_append_left l hev) hc
  obtain ⟨b2, hb2, hrl⟩ := WholeMulti.prop_history (V := V) (N := N) (decode := decode) ⟨bb, ww, hi, hrun⟩
  obtain ⟨q, hq, hx⟩ := Multiple.C11_execute_after_timelock hrl ho (id := id) (f := f) rfl
  obtain ⟨l1, l2, b3, hl, h1, hb3, h3, h4⟩ := Multiple.reach_split hrl ho
  obtain ⟨q1, hq1, hr1, _⟩ := Multiple.run_prop (.step (b := b3) .refl hb3 h3) (Multiple.inv_reach h1) hq
  have hinv : Multiple.Inv ev.post.prop := by
    rcases Multiple.step_micro h3 with hm | ⟨s1, _, hm1, hm2⟩
    · exact Multiple.inv_micro (Multiple.inv_reach h1) hm
    · exact Multiple.inv_micro (Multiple.inv_micro (Multiple.inv_reach h1) hm1) hm2
  obtain ⟨q2, hq2, hr2, _⟩ := Multiple.run_prop h4 hinv hq1
  rw [hget] at hq2; injection hq2 with hq2; subst hq2
  have hrr := hr1.trans hr2
  obtain ⟨t, ht, hx⟩ := hx v (by rw [← hrr.veto]; exact hv)
  rcases hx with hx | ⟨hs, hx⟩
  · exfalso
    refine htime ⟨t, by rw [hrr.expiration]; exact ht, Expiration.isExpired_mono ?_ hx⟩
    exact Block.le_trans (Multiple.run_block_le h4) (Block.le_trans hb2 hb1)
  · refine ⟨hx, ?_⟩
    obtain ⟨e, he, hm⟩ := ordered_event h hev (m := .execute id) (f := f) (by rw [← hme]; exact hs) hc
    exact told_ordered hU hp h hst hso he hm

/-- **C121.** Nobody can stop the members of the watcher: if members with a decisive share of the power of the watcher stand by
their yes to a veto, then once the voting period of the watcher is over, in every block in which the timelock of the vetoed
proposal is not over, this holds whatever happened in the two DAOs: the decision to veto has been executed already, or it can
be executed now and is carried out next, or there is nothing to veto: the proposal is lost, vetoed, or was executed. -/
theorem C121_in_time (hV : Lawful V) (hU : Lawful U) {w0 w : World S T} {b0 b : Block} {log : List (Event S T E C F D)}
    {l : List (WholeMulti.Event S E C)} {k : List (WholeDao.Event T F D)} (hp : Past V N U decode decodeWatcher w0 b0 l k)
    (h : (sys V N U decode decodeWatcher toOrder).Run w0 b0 log w b) (hst : Spec.WholeMulti.Steady (watchedLog toOrder log ++ l))
    (hN : Spec.WholeMulti.TotalsOfHeight V N (watchedLog toOrder log ++ l))
    (hst' : Steady (watcherLog log ++ k))
    (hnow : w.watcher.core.core.voting = some w.watcher.voteAddr ∧ w.watcher.prop.config.dao = w.watcher.core.core.me)
    -- the decision of the watcher to veto
    {pid : Nat} {q : Single.Proposal} (hq : w.watcher.prop.proposals.get pid = some q) (hqv : q.veto = none)
    {ys : List Addr} (hys : ys.Nodup) (hyes : ∀ a ∈ ys, lastVote a pid (propLog U (watcherLog log ++ k)) = some .yes)
    (hwin : Spec.WholeDao.Decisive q.threshold (U.total w.watcher.vote q.startHeight) (powerOf U w.watcher.vote q.startHeight ys))
    {n j id : Nat} (hmsgs : q.msgs = [n]) (hn : decodeWatcher n = .other j) (hj : toOrder j = some (.veto id))
    -- the block
    {e : Env} (hb : b.le e.block) (hend : q.expiration.isExpired e.block = true)
    (hmem : w.watcher.prop.config.onlyMembersExecute = true → U.power w.watcher.vote e.sender q.startHeight ≠ 0)
    (hpause : DaoCore.isPaused w.watcher.core.core e.block = false)
    (hen : Spec.DaoCore.Enabled w.watcher.core.core w.watcher.propAddr)
    -- the proposal to veto
    {p : Multiple.Proposal} {v : VetoConfig} (hget : w.watched.prop.proposals.get id = some p)
    (hv : p.veto = some v) (hme : v.vetoer = w.watcher.core.core.me) (htime : ¬ TimelockOver p v e.block)
    (hvote : p.expiration.isExpired e.block = true ∨ v.vetoBeforePassed = true) :
    (q.status = .executed ∨ q.status = .executionFailed) ∨
    ((p.currentStatus e.block = .ok .rejected ∨ p.status = .closed) ∨ p.status = .vetoed ∨
      p.status = .executed ∨ p.status = .executionFailed) ∨
    ∃ w1 out1 w2 out2 p', (sys V N U decode decodeWatcher toOrder).step w e (.watcher (.prop (.execute pid false))) = .ok (w1, out1) ∧
      (sys V N U decode decodeWatcher toOrder).step w1 e (.pass false) = .ok (w2, out2) ∧
      w2.watched.prop.proposals.get id = some p' ∧ p'.status = .vetoed := by
  rcases C121_open_to_veto hV hp h hst hN hget hv hb htime hvote with hx | hx
  · obtain ⟨u, bu, b1, hi, _, hr, hb1⟩ := whole_watcher hp h
    rcases WholeDao.C87_unstoppable (decode := decodeWatcher) hU ⟨bu, u, hi, hr⟩ hst' hnow hq hqv hys hyes hwin
      (Block.le_trans hb1 hb) hend hmem hpause hen with hd | ⟨x, out, hs, ho, hstk⟩
    · exact Or.inl hd
    · refine Or.inr (Or.inr ?_)
      have hs' : WholeDao.step U decodeWatcher w.watcher e.toEnv (.prop (.execute pid false)) = .ok (x, out) := hs
      have hmx : x.core.core.me = w.watcher.core.core.me := (WholeDao.stack_step hs').1
      obtain ⟨w', out', h3, h4, h5⟩ := pass_veto (V := V) (N := N) (U := U) (decode := decode) (decodeWatcher := decodeWatcher)
        (toOrder := toOrder) (w := { w with watcher := x }) (e := e) (rest := w.watcher.core.stack)
        (by simp only [hstk, ho, hmsgs, List.map_cons, List.map_nil, hn, List.cons_append, List.nil_append]) hj hget hv
        (by rw [hme]; exact hmx.symm) hx false
      refine ⟨{ w with watcher := x }, ⟨still, out⟩, w', out', _, ?_, h3, h4, rfl⟩
      simp only [sys, step, watcherAlone, require, if_true, ok_bind, hs']
  · exact Or.inr (Or.inl hx)

end Verif.VetoMulti
