import Verif.Proofs.VetoMulti
/-! C120: a DAO with a multiple choice module whose proposals another DAO may veto. -/

namespace Verif.VetoMulti
open Verif Verif.Voting Verif.Spec Verif.Spec.VetoMulti
open Verif.WholeDao (VotingModule)
open Verif.Spec.WholeDao (Lawful Steady Sole Authorised)
open Verif.Spec.WholeMulti (NearlyDecided TotalsOfHeight)

variable {S T E C O F D P : Type} {V : VotingModule S E C O} {N : WholeMulti.TotalNow S} {U : VotingModule T F D P}
  {decode decodeWatcher : Nat → DaoCore.CosmosMsg} {toOrder : ToOrder}

/-- **C120.** Seen from the watched DAO, a history of the two DAOs is a history of a DAO as in C81. -/
theorem C120_watched {w0 w : World S T} {b0 b : Block} {log : List (Event S T E C F D)}
    (h : (sys V N U decode decodeWatcher toOrder).Run w0 b0 log w b) :
    ∃ b1, (WholeMulti.sys V N decode).Run w0.watched b0 (watchedLog toOrder log) w.watched b1 ∧ b1.le b := by
  induction h with
  | refl => exact ⟨_, .refl, Block.le_refl _⟩
  | @step s1 s2 b3 log env call out hr hb3 hs ih =>
    obtain ⟨b1, h1, h2⟩ := ih
    have h3 : b1.le env.block := Block.le_trans h2 hb3
    cases call with
    | watched c =>
      obtain ⟨_, h4, _⟩ := watched_effect (V := V) (N := N) (U := U) (decode := decode) (decodeWatcher := decodeWatcher) (toOrder := toOrder) hs
      exact ⟨_, .step h1 h3 h4, Block.le_refl _⟩
    | watcher c =>
      obtain ⟨_, _, h4, _⟩ := watcher_effect (V := V) (N := N) (U := U) (decode := decode) (decodeWatcher := decodeWatcher) (toOrder := toOrder) hs
      exact ⟨b1, by rw [h4]; exact h1, h3⟩
    | pass fails =>
      obtain ⟨m, hm, _, h4⟩ := pass_effect (V := V) (N := N) (U := U) (decode := decode) (decodeWatcher := decodeWatcher) (toOrder := toOrder) hs
      refine ⟨env.block, ?_, Block.le_refl _⟩
      have : watchedLog toOrder ((⟨s1, env, .pass fails, out, s2⟩ : Event S T E C F D) :: log) =
          ⟨s1.watched, ({ env with sender := s1.watcher.core.core.me } : Env).multi, .prop (m.call fails), out.watched, s2.watched⟩ ::
            watchedLog toOrder log := by
        simp only [watchedLog]
        rw [List.filterMap_cons_some]
        simp only [watchedEvent, told, hm, Option.map_some]
      rw [this]
      exact .step (M := WholeMulti.sys V N decode) (env := { env with sender := s1.watcher.core.core.me }) h1 h3 h4

/-- **C120.** Seen from the watcher as well. -/
theorem C120_watcher {w0 w : World S T} {b0 b : Block} {log : List (Event S T E C F D)}
    (h : (sys V N U decode decodeWatcher toOrder).Run w0 b0 log w b) :
    ∃ b1, (WholeDao.sys U decodeWatcher).Run w0.watcher b0 (watcherLog log) w.watcher b1 ∧ b1.le b := by
  induction h with
  | refl => exact ⟨_, .refl, Block.le_refl _⟩
  | @step s1 s2 b3 log env call out hr hb3 hs ih =>
    obtain ⟨b1, h1, h2⟩ := ih
    have h3 : b1.le env.block := Block.le_trans h2 hb3
    cases call with
    | watched c =>
      obtain ⟨_, _, h4, _⟩ := watched_effect (V := V) (N := N) (U := U) (decode := decode) (decodeWatcher := decodeWatcher) (toOrder := toOrder) hs
      exact ⟨b1, by rw [h4]; exact h1, h3⟩
    | watcher c =>
      obtain ⟨_, h4, _⟩ := watcher_effect (V := V) (N := N) (U := U) (decode := decode) (decodeWatcher := decodeWatcher) (toOrder := toOrder) hs
      exact ⟨_, .step h1 h3 h4, Block.le_refl _⟩
    | pass fails =>
      obtain ⟨m, _, h4, _⟩ := pass_effect (V := V) (N := N) (U := U) (decode := decode) (decodeWatcher := decodeWatcher) (toOrder := toOrder) hs
      exact ⟨_, .step h1 h3 h4, Block.le_refl _⟩

theorem whole_watched {w0 w : World S T} {b0 b : Block} {log : List (Event S T E C F D)} {l : List (WholeMulti.Event S E C)}
    {k : List (WholeDao.Event T F D)} (hp : Past V N U decode decodeWatcher w0 b0 l k)
    (h : (sys V N U decode decodeWatcher toOrder).Run w0 b0 log w b) :
    ∃ b1, (WholeMulti.sys V N decode).Reach w.watched b1 (watchedLog toOrder log ++ l) ∧ b1.le b := by
  obtain ⟨⟨b1, h1, hb1⟩, _⟩ := hp
  obtain ⟨b2, h2, hb2⟩ := C120_watched h
  obtain ⟨b3, h3, hb3⟩ := h2.earlier hb1
  exact ⟨b3, h1.run h3, Block.le_trans hb3 hb2⟩

theorem whole_watcher {w0 w : World S T} {b0 b : Block} {log : List (Event S T E C F D)} {l : List (WholeMulti.Event S E C)}
    {k : List (WholeDao.Event T F D)} (hp : Past V N U decode decodeWatcher w0 b0 l k)
    (h : (sys V N U decode decodeWatcher toOrder).Run w0 b0 log w b) :
    ∃ u bu b1, WholeDao.Init U bu u ∧ u.core.stack = [] ∧
      (WholeDao.sys U decodeWatcher).Run u bu (watcherLog log ++ k) w.watcher b1 ∧ b1.le b := by
  obtain ⟨_, u, bu, b1, hi, hs, h1, hb1⟩ := hp
  obtain ⟨b2, h2, hb2⟩ := C120_watcher h
  obtain ⟨b3, h3, hb3⟩ := h2.earlier hb1
  exact ⟨u, bu, b3, hi, hs, h1.append h3, Block.le_trans hb3 hb2⟩

/-- **C120.** Voting modules that answer a question for the total without a height with the total of the block, as all staking
modules do, always meet the condition on totals in what follows. -/
theorem C120_totals (hN : Spec.WholeMulti.AnswersNow V N) {w0 w : World S T} {b0 b : Block}
    {log : List (Event S T E C F D)} {l : List (WholeMulti.Event S E C)} {k : List (WholeDao.Event T F D)}
    (hp : Past V N U decode decodeWatcher w0 b0 l k) (h : (sys V N U decode decodeWatcher toOrder).Run w0 b0 log w b) :
    TotalsOfHeight V N (watchedLog toOrder log ++ l) := by
  obtain ⟨_, h1, _⟩ := whole_watched hp h
  exact WholeMulti.totals_now hN h1

/-- Every order the watcher gives goes back to its members. -/
theorem told_ordered (hU : Lawful U) {w0 w : World S T} {b0 b : Block} {log : List (Event S T E C F D)}
    {l : List (WholeMulti.Event S E C)} {k : List (WholeDao.Event T F D)} (hp : Past V N U decode decodeWatcher w0 b0 l k)
    (h : (sys V N U decode decodeWatcher toOrder).Run w0 b0 log w b) (hst : Steady (watcherLog log ++ k))
    (hso : Sole (watcherLog log ++ k)) {e : Event S T E C F D} (he : e ∈ log) {m : Order} (hm : told toOrder e = some m) :
    Ordered U decodeWatcher toOrder (watcherLog log ++ k) m := by
  obtain ⟨before, later, b1, hl, h1, _, _, _⟩ := h.event e he
  unfold told at hm
  split at hm
  · obtain ⟨n, rest, h3, h4⟩ := next_mem hm
    refine ⟨n, h4, ?_⟩
    obtain ⟨u, bu, b2, hi, hs, h5, _⟩ := whole_watcher hp h1
    obtain ⟨u', bu', b2', hi', hs', h5', _⟩ := whole_watcher hp h
    rcases WholeDao.waiting h5 (.send (.other n)) (by rw [h3]; exact List.mem_cons_self) with h6 | ⟨e', he', h6⟩
    · rw [hs] at h6; cases h6
    · refine WholeDao.C80_sole hU hi' hs' h5' hst hso e' ?_ _ h6
      subst hl
      simp only [watcherLog, List.filterMap_append, List.mem_append, List.filterMap_cons] at he' ⊢
      rcases he' with he' | he'
      · left; right
        split
        · exact he'
        · exact List.mem_cons_of_mem _ he'
      · exact Or.inr he'
  · cases hm

/-- The address of the watcher never changes. -/
theorem watcher_me {w0 w : World S T} {b0 b : Block} {log : List (Event S T E C F D)}
    (h : (sys V N U decode decodeWatcher toOrder).Run w0 b0 log w b) :
    ∀ e ∈ log, e.pre.watcher.core.core.me = w.watcher.core.core.me := by
  intro e he
  obtain ⟨l1, l2, b1, _, h1, _, _, _⟩ := h.event e he
  obtain ⟨_, h2, _⟩ := C120_watcher h1
  obtain ⟨_, h3, _⟩ := C120_watcher h
  rw [WholeDao.me_run h2, WholeDao.me_run h3]

/-- What only the vetoer may do, done with the address of the watcher, is an order of the watcher. -/
theorem ordered_event {w0 w : World S T} {b0 b : Block} {log : List (Event S T E C F D)}
    (h : (sys V N U decode decodeWatcher toOrder).Run w0 b0 log w b) {ev : WholeMulti.Event S E C}
    (hev : ev ∈ watchedLog toOrder log) (hs : ev.env.sender = w.watcher.core.core.me) {m : Order} {f : Bool}
    (hc : ev.call = .prop (m.call f)) : ∃ e ∈ log, told toOrder e = some m := by
  obtain ⟨e, he, hx⟩ := List.mem_filterMap.1 hev
  refine ⟨e, he, ?_⟩
  have hme := watcher_me h e he
  obtain ⟨_, _, _, _, _, _, hstep, _⟩ := h.event e he
  obtain ⟨pre, env, call, out, post⟩ := e
  cases call with
  | watched c =>
    exfalso
    obtain ⟨h1, _⟩ := watched_effect (V := V) (N := N) (U := U) (decode := decode) (decodeWatcher := decodeWatcher) (toOrder := toOrder) hstep
    simp only [watchedEvent, Option.some.injEq] at hx
    subst hx
    simp only at hc hs hme
    subst hc
    have hs' : env.sender = w.watcher.core.core.me := hs
    cases m <;> simp [Order.call, watchedAlone, hs', hme] at h1
  | watcher c => simp [watchedEvent] at hx
  | pass fails =>
    simp only [watchedEvent, Option.map_eq_some_iff] at hx
    obtain ⟨m', hm', rfl⟩ := hx
    rw [hm']
    simp only [WholeMulti.Call.prop.injEq] at hc
    cases m <;> cases m' <;> simp [Order.call] at hc
    · rw [hc]
    · rw [hc.1]

theorem not_open {p : Multiple.Proposal} {b : Block} (h : p.expiration.isExpired b = true) : p.currentStatus b ≠ .ok .opened := by
  intro hc
  unfold Multiple.Proposal.currentStatus at hc
  split at hc
  · simp only [bind_ok] at hc
    obtain ⟨passed, _, hc⟩ := hc
    split at hc
    · split at hc
      · simp only [bind_ok] at hc
        obtain ⟨t, _, hc⟩ := hc
        split at hc <;> cases hc
      · cases hc
    · cases hc
  · split at hc <;> cases hc
  · injection hc with hc
    rename_i h1 _
    exact h1 hc

/-- **C120.** A veto by the watcher goes back to a decision of the members of the watcher. Whoever is the vetoer of the
proposal, nobody else can veto it; it is open for a veto before it passed only if that is enabled, and otherwise in its
timelock. -/
theorem C120_veto (hU : Lawful U) {w0 w : World S T} {b0 b : Block} {log : List (Event S T E C F D)}
    {l : List (WholeMulti.Event S E C)} {k : List (WholeDao.Event T F D)} (hp : Past V N U decode decodeWatcher w0 b0 l k)
    (h : (sys V N U decode decodeWatcher toOrder).Run w0 b0 log w b) (hst : Steady (watcherLog log ++ k))
    (hso : Sole (watcherLog log ++ k)) {ev : WholeMulti.Event S E C} (hev : ev ∈ watchedLog toOrder log) {id : Nat}
    (hc : ev.call = .prop (.veto id)) :
    ∃ p v, ev.pre.prop.proposals.get id = some p ∧ p.veto = some v ∧ ev.env.sender = v.vetoer ∧
      (p.expiration.isExpired ev.env.block = false ∧ v.vetoBeforePassed = true ∨ ¬ TimelockOver p v ev.env.block) ∧
      (v.vetoer = w.watcher.core.core.me → Ordered U decodeWatcher toOrder (watcherLog log ++ k) (.veto id)) := by
  obtain ⟨b1, h1, _⟩ := whole_watched hp h
  obtain ⟨bb, ww, _, hrun⟩ := h1
  obtain ⟨o, ho⟩ := mem_propLog hrun (List.mem_append_left l hev) hc
  obtain ⟨_, _, hrl⟩ := WholeMulti.prop_history (V := V) (N := N) (decode := decode) ⟨bb, ww, ‹_›, hrun⟩
  obtain ⟨p, v, p', hg, hv, hs, _, _, hx⟩ := Multiple.C11_veto_conditions hrl ho (id := id) rfl
  simp only at hg hv hs hx
  refine ⟨p, v, hg, hv, hs, ?_, ?_⟩
  · rcases hx with ⟨hx, hb⟩ | ⟨t, ht, hx, _⟩
    · by_cases hex : p.expiration.isExpired ev.env.block = true
      · exact absurd hx (not_open hex)
      · exact Or.inl ⟨by simpa using hex, hb⟩
    · right
      rintro ⟨t', ht', hx'⟩
      rw [ht] at ht'; injection ht' with ht'; subst ht'
      have : (WholeMulti.propEnv V N ev.pre ev.env).block = ev.env.block := rfl
      rw [this, hx'] at hx
      cases hx
  · intro hme
    obtain ⟨e, he, hm⟩ := ordered_event h hev (m := .veto id) (f := false) (by rw [← hme]; exact hs) hc
    exact told_ordered hU hp h hst hso he hm

/-- **C120.** A proposal of the watched DAO whose vetoer is the watcher is executed only after its timelock, or, where that is
enabled, earlier on the order of the watcher, which goes back to a decision of the members of the watcher. The members of the
watched DAO have decided for the option that is carried out. -/
theorem C120_executed (hV : Lawful V) (hU : Lawful U) {w0 w : World S T} {b0 b : Block} {log : List (Event S T E C F D)}
    {l : List (WholeMulti.Event S E C)} {k : List (WholeDao.Event T F D)} (hp : Past V N U decode decodeWatcher w0 b0 l k)
    (h : (sys V N U decode decodeWatcher toOrder).Run w0 b0 log w b) (hst : Steady (watcherLog log ++ k))
    (hso : Sole (watcherLog log ++ k)) (hst' : Spec.WholeMulti.Steady (watchedLog toOrder log ++ l))
    (hN : TotalsOfHeight V N (watchedLog toOrder log ++ l))
    {later before : List (WholeMulti.Event S E C)} {ev : WholeMulti.Event S E C}
    (hl : watchedLog toOrder log = later ++ ev :: before) {id : Nat} {f : Bool} (hc : ev.call = .prop (.execute id f)) :
    ∃ p i c, ev.pre.prop.proposals.get id = some p ∧ p.choices[i]? = some c ∧ Multiple.winningMsgs p = .ok c.msgs ∧
      NearlyDecided V N (before ++ l) ev.pre.vote ev.env.block id p i ∧
      ∀ v, p.veto = some v → v.vetoer = w.watcher.core.core.me → TimelockOver p v ev.env.block ∨
        v.earlyExecute = true ∧ Ordered U decodeWatcher toOrder (watcherLog log ++ k) (.execute id) := by
  have hev : ev ∈ watchedLog toOrder log := by rw [hl]; simp
  obtain ⟨b1, h1, _⟩ := whole_watched hp h
  obtain ⟨p, i, c, hg, hch, hwin, hdec⟩ := WholeMulti.C81_nearly_decided hV h1 hst' hN (later := later) (before := before ++ l) (ev := ev)
    (by rw [hl]; simp) hc
  obtain ⟨bb, ww, _, hrun⟩ := h1
  obtain ⟨o, ho⟩ := mem_propLog hrun (List.mem_append_left l hev) hc
  obtain ⟨_, _, hrl⟩ := WholeMulti.prop_history (V := V) (N := N) (decode := decode) ⟨bb, ww, ‹_›, hrun⟩
  obtain ⟨p', hg', hx⟩ := Multiple.C11_execute_after_timelock hrl ho (id := id) (f := f) rfl
  simp only at hg' hx
  rw [hg] at hg'; injection hg' with hg'; subst hg'
  refine ⟨p, i, c, hg, hch, hwin, hdec, fun v hv hme => ?_⟩
  obtain ⟨t, ht, hx | ⟨hs, hx⟩⟩ := hx v hv
  · exact Or.inl ⟨t, ht, hx⟩
  · refine Or.inr ⟨hx, ?_⟩
    obtain ⟨e, he, hm⟩ := ordered_event h hev (m := .execute id) (f := f) (by rw [← hme]; exact hs) hc
    exact told_ordered hU hp h hst hso he hm

/-- **C120.** What was vetoed is never executed, whatever happens afterwards. -/
theorem C120_final {w0 w : World S T} {b0 b : Block} {log : List (Event S T E C F D)}
    {l : List (WholeMulti.Event S E C)} {k : List (WholeDao.Event T F D)} (hp : Past V N U decode decodeWatcher w0 b0 l k)
    (h : (sys V N U decode decodeWatcher toOrder).Run w0 b0 log w b) {ev ev' : WholeMulti.Event S E C}
    (hev : ev ∈ watchedLog toOrder log ++ l) (hev' : ev' ∈ watchedLog toOrder log ++ l) {id : Nat}
    (hc : ev.call = .prop (.veto id)) (f : Bool) : ev'.call ≠ .prop (.execute id f) := by
  intro hc'
  obtain ⟨b1, ⟨bb, ww, hi, hrun⟩, _⟩ := whole_watched hp h
  obtain ⟨o, ho⟩ := mem_propLog hrun hev hc
  obtain ⟨o', ho'⟩ := mem_propLog hrun hev' hc'
  obtain ⟨_, _, hrl⟩ := WholeMulti.prop_history (V := V) (N := N) (decode := decode) ⟨bb, ww, hi, hrun⟩
  have := Multiple.C11_vetoed_never_executed hrl ho ho' (id := id) (by simp [Spec.Multi.isVetoOf])
  simp [Spec.Multi.isExecuteOf] at this

end Verif.VetoMulti
