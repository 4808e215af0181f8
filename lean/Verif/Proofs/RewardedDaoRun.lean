import Verif.Proofs.RewardedDao
/-!
# A rewards distributor with a real voting module: histories
-/

namespace Verif.RewardedDao
open Verif Verif.WholeDao Verif.Spec.WholeDao Verif.Spec.RewardedDao
open Verif.Spec.DaoRewards (Announced SameVotes fundedTotal claimedTotal clawedTotal fundedIn claimedIn clawedIn AtOnce)

variable {S E C O : Type} {V : Telling S E C O}

/-- The first message, if there is one, comes with the change; without one the change is in no list. -/
theorem change_first (L : Lawful V.toVotingModule) (T : Tells V) {s s' : S} {b : Block} {l : List (Ev S E C O)} {e : E} {m : C} {o : O}
    (hr' : V.sys.Reach s' b l) (hs : V.sys.step s e m = .ok (s', o)) (hne : ¬ ∀ a, V.weight s' a = V.weight s a)
    {cur : AMap Addr Nat} (hcur : ∀ a, getD0 cur a = V.weight s a) {v : Addr → DaoRewards.Answer} {me caller : Addr}
    {c c' : DaoRewards.State} (hd : deliverMine b v caller (mine me (V.told o)) c = .ok c') :
    ∃ D via c1 rest, D ≠ [] ∧ (∀ a, a ∉ D → V.weight s' a = V.weight s a) ∧ DaoRewards.announce b v D via c = .ok c1 ∧
      deliverMine b v caller rest c1 = .ok c' ∧ (me ∈ V.listeners s → via = [caller]) := by
  cases hm : mine me (V.told o) with
  | nil =>
    rw [hm] at hd
    have hall := mine_nil hm
    obtain ⟨m', h1, h2, _⟩ := power_map L hr' (b.height + 1)
    have hl := later_weight L hr' (Nat.lt_succ_self b.height)
    have hne' : ∃ a, V.weight s' a ≠ V.weight s a := Classical.not_forall.1 hne
    obtain ⟨a0, _⟩ := hne'
    refine ⟨a0 :: (cur.map Prod.fst ++ m'.map Prod.fst), [], c, [], by simp, ?_, rfl, hd, ?_⟩
    · intro a ha
      simp only [List.mem_cons, List.mem_append, not_or] at ha
      have e1 : cur.get a = none := by
        cases hg : cur.get a with
        | none => rfl
        | some x => exact absurd (List.mem_map.2 ⟨(a, x), AMap.mem_of_get hg, rfl⟩) ha.2.1
      have e2 : m'.get a = none := by
        cases hg : m'.get a with
        | none => rfl
        | some x => exact absurd (List.mem_map.2 ⟨(a, x), AMap.mem_of_get hg, rfl⟩) ha.2.2
      rw [← hcur a, ← hl.1 a, ← h2 a]
      simp [getD0, e1, e2]
    · intro hlis
      exact absurd (T.reaches hs me hlis hall) hne
  | cons m1 rest =>
    rw [hm] at hd
    simp only [deliverMine, bind_ok] at hd
    obtain ⟨c1, h1, h2⟩ := hd
    have hn := T.names hs (me, m1) (mine_mem (by rw [hm]; exact List.mem_cons_self))
    refine ⟨m1, [caller], c1, rest, hn.1, hn.2, ?_, h2, fun _ => rfl⟩
    simp only [DaoRewards.announce, bind_ok]
    exact ⟨c1, h1, rfl⟩

theorem now_trans {ab b b1 : Block} (h : ab.le b ∧ (ab.height < b.height ∨ ab = b)) (hb : b.le b1)
    (hn : b.height < b1.height ∨ b = b1) : ab.le b1 ∧ (ab.height < b1.height ∨ ab = b1) := by
  refine ⟨Block.le_trans h.1 hb, ?_⟩
  rcases h.2 with h | rfl
  · exact .inl (Nat.lt_of_lt_of_le h hb.1)
  · exact hn

theorem sim_vote (L : Lawful V.toVotingModule) (T : Tells V) {b0 b b1 ab : Block} {log : List (Event S E C)} {w : World S}
    {aw : DaoRewards.World} (h : Sim V b0 log w b aw ab) (hb : b.le b1) (hn : b.height < b1.height ∨ b = b1)
    (hu : b1.height < U64) {e : E} {m : C} {s' : S} {o : O} (he : V.sys.block e = b1)
    (hs : V.sys.step w.vote e m = .ok (s', o)) {c' : DaoRewards.State}
    (hd : deliver b1 (answers V { w with vote := s', rew := { w.rew with now := b1 } } b1) w.rew.me w.caller (V.told o) w.rew.c = .ok c') :
    ∃ alog aw' ab', DaoRewards.sys.Run aw ab alog aw' ab' ∧ (∀ ev ∈ alog, Silent ev) ∧
      (∀ ev : Event S E C, isVote ev.call = true → ev.env = b1 →
        Sim V b0 (ev :: log) { w with vote := s', rew := { w.rew with now := b1, c := c' } } b1 aw' ab') ∧
      ∀ id, (∀ d, w.rew.c.dists.get id = some d → d.vp = w.vp → d.hookCaller = w.caller ∧ w.rew.me ∈ V.listeners w.vote) →
        Announced id alog := by
  obtain ⟨br, l, hr, hbr⟩ := h.reach
  obtain ⟨⟨l', hr'⟩, hp, hpT⟩ := vote_facts L hr (Block.le_trans hbr hb) he hs
  have hat := h.at L (b' := b1) hb.1
  have hnow := now_trans h.blk hb hn
  rw [deliver_eq] at hd
  have hanow := h.anow
  subst hanow
  have hmeC : w.caller ≠ aw.me := by rw [h.me]; exact h.caller
  by_cases hw : ∀ a, V.weight s' a = V.weight w.vote a
  · have hans : aw.answers b1 = answers V { w with vote := s', rew := { w.rew with now := b1 } } b1 :=
      ans_eq (w := { w with vote := s', rew := { w.rew with now := b1 } }) h.others
        (fun a => by rw [hat.1 a]; exact (hp a).symm) (by rw [hat.2]; exact hpT.symm)
    rw [← hans, ← h.c] at hd
    obtain ⟨alog, ab', hrun, hab, hall⟩ := hooks_run _ hmeC hnow.1 hnow.2 hu hd
    refine ⟨alog, _, ab', hrun, fun ev hev => .inl (hall ev hev), ?_, ?_⟩
    · intro ev hev henv
      refine ⟨rfl, h.me, h.bal, h.others, rfl, rfl, ?_, ⟨b1, l', hr', Block.le_refl _⟩, h.caller, h.wfc, h.wfs,
        Nat.le_trans h.since hb.1, ?_, ?_, ?_, ?_, ?_⟩
      · rcases hab with rfl | rfl
        · exact hnow
        · exact ⟨Block.le_refl _, .inr rfl⟩
      · intro a; rw [show V.weight _ a = V.weight s' a from rfl, hw a]; exact h.cur a
      · exact weight_total L hr' h.wfc (fun a => by rw [hw a]; exact h.cur a)
      · intro a; exact (hat.1 a).trans (hp a).symm
      · exact hat.2.trans hpT.symm
      · rcases h.bound with hb0 | ⟨e', he', hv, hle⟩
        · exact .inl hb0
        · exact .inr ⟨e', List.mem_cons_of_mem _ he', hv, hle⟩
    · intro id _ ev hev vp diffs via hc
      obtain ⟨a, ms, hh⟩ := hall ev hev
      rw [hh] at hc; cases hc
  · obtain ⟨D, via, c1, rest, hD, hDw, hann, hrest, hvia⟩ := change_first L T hr' hs hw h.cur hd
    generalize hdf : D.map (fun a => (a, V.weight s' a)) = diffs
    have hdm : diffs.map Prod.fst = D := by
      rw [← hdf, List.map_map]
      have : (Prod.fst ∘ fun a => (a, V.weight s' a)) = (id : Addr → Addr) := rfl
      rw [this, List.map_id]
    have hdne : diffs ≠ [] := by rw [← hdf]; simpa using hD
    have hvs : ∀ (c2 : DaoRewards.State) (n : Block) (a : Addr),
        ({ aw with votes := aw.votes.set w.vp ((aw.vote w.vp).change b1.height diffs), now := n, c := c2 } : DaoRewards.World).vote a =
        if w.vp = a then (aw.vote w.vp).change b1.height diffs else aw.vote a := fun c2 n a => vote_set' aw w.vp _ n c2 a
    have hoth : ∀ (c2 : DaoRewards.State) (n : Block) (a : Addr), a ≠ w.vp →
        ({ aw with votes := aw.votes.set w.vp ((aw.vote w.vp).change b1.height diffs), now := n, c := c2 } : DaoRewards.World).vote a =
        w.rew.vote a := by
      intro c2 n a ha
      rw [hvs, if_neg (fun hh => ha hh.symm)]; exact h.others a ha
    have hme : ∀ (c2 : DaoRewards.State) (n : Block),
        ({ aw with votes := aw.votes.set w.vp ((aw.vote w.vp).change b1.height diffs), now := n, c := c2 } : DaoRewards.World).vote w.vp =
        (aw.vote w.vp).change b1.height diffs := by
      intro c2 n; rw [hvs, if_pos rfl]
    have hst : ∀ a, getD0 (((aw.vote w.vp).change b1.height diffs).atHeight b1.height) a = V.power s' a b1.height := by
      intro a; rw [DaoRewards.change_atHeight, hat.1 a]; exact (hp a).symm
    have hstT : total (((aw.vote w.vp).change b1.height diffs).atHeight b1.height) = V.total s' b1.height := by
      rw [DaoRewards.change_atHeight, hat.2]; exact hpT.symm
    have hans : ∀ c2 : DaoRewards.State, ({ aw with votes := aw.votes.set w.vp ((aw.vote w.vp).change b1.height diffs), now := b1, c := c2 } : DaoRewards.World).answers b1 =
        answers V { w with vote := s', rew := { w.rew with now := b1 } } b1 := by
      intro c2
      exact ans_eq (w := { w with vote := s', rew := { w.rew with now := b1 } })
        (aw := { aw with votes := aw.votes.set w.vp ((aw.vote w.vp).change b1.height diffs), now := b1, c := c2 }) (hoth c2 b1)
        (fun a => by rw [hme c2 b1]; exact hst a) (by rw [hme c2 b1]; exact hstT)
    have hrun1 := change_run (aw := aw) (vp := w.vp) (diffs := diffs) (via := via) (c1 := c1) hdne hnow.1 hnow.2 hu (by
      rw [hdm]
      have := hans aw.c
      rw [h.c] at this ⊢
      rw [show ({ aw with votes := aw.votes.set w.vp ((aw.vote w.vp).change b1.height diffs), now := b1, c := w.rew.c } : DaoRewards.World).answers b1 = _ from this]
      exact hann)
    rw [← hans c1] at hrest
    obtain ⟨alog, ab', hrun2, hab, hall⟩ := hooks_run rest (b := b1) (caller := w.caller)
      (aw := { aw with votes := aw.votes.set w.vp ((aw.vote w.vp).change b1.height diffs), now := b1, c := c1 })
      hmeC (Block.le_refl _) (.inr rfl) hu hrest
    have hab' : ab' = b1 := by rcases hab with h | h <;> exact h
    subst hab'
    refine ⟨_, _, _, hrun1.append hrun2, ?_, ?_, ?_⟩
    · intro ev hev
      rcases List.mem_append.1 hev with hev | hev
      · exact .inl (hall ev hev)
      · rw [List.mem_singleton] at hev; subst hev; exact .inr ⟨_, _, _, rfl⟩
    · intro ev hev henv
      have hcur : ∀ a, getD0 ((aw.vote w.vp).change ab'.height diffs).cur a = V.weight s' a := by
        intro a
        show getD0 (diffs.foldl _ _) a = _
        by_cases ha : a ∈ D
        · rw [← hdf]; exact foldl_map_get _ _ _ ha
        · rw [DaoRewards.foldl_get _ _ _ (by rw [hdm]; exact ha), h.cur a]; exact (hDw a ha).symm
      have hwfc : AMap.WF ((aw.vote w.vp).change ab'.height diffs).cur := DaoRewards.foldl_wf _ h.wfc
      have hwfs : AMap.WF ((aw.vote w.vp).change ab'.height diffs).start := by
        show AMap.WF ((aw.vote w.vp).atHeight _)
        unfold DaoRewards.Votes.atHeight
        split
        · exact h.wfc
        · exact h.wfs
      have hv := hme c' ab'
      refine ⟨rfl, h.me, h.bal, hoth c' ab', rfl, rfl, ⟨Block.le_refl _, .inr rfl⟩, ⟨ab', l', hr', Block.le_refl _⟩, h.caller,
        ?_, ?_, ?_, ?_, ?_, ?_, ?_, ?_⟩
      · show AMap.WF (DaoRewards.World.vote _ w.vp).cur
        rw [hv]; exact hwfc
      · show AMap.WF (DaoRewards.World.vote _ w.vp).start
        rw [hv]; exact hwfs
      · show (DaoRewards.World.vote _ w.vp).since ≤ _
        rw [hv]; exact Nat.le_refl _
      · show ∀ a, getD0 (DaoRewards.World.vote _ w.vp).cur a = _
        rw [hv]; exact hcur
      · show total (DaoRewards.World.vote _ w.vp).cur = _
        rw [hv]; exact weight_total L hr' hwfc hcur
      · show ∀ a, getD0 ((DaoRewards.World.vote _ w.vp).atHeight _) a = _
        rw [hv]; exact hst
      · show total ((DaoRewards.World.vote _ w.vp).atHeight _) = _
        rw [hv]; exact hstT
      · refine .inr ⟨ev, List.mem_cons_self, hev, ?_⟩
        show (DaoRewards.World.vote _ w.vp).since ≤ _
        rw [hv, henv]; exact Nat.le_refl _
    · intro id hid ev hev vp diffs' via' hc d hget hvp
      rcases List.mem_append.1 hev with hev | hev
      · obtain ⟨a, ms, hh⟩ := hall ev hev
        rw [hh] at hc; cases hc
      · rw [List.mem_singleton] at hev; subst hev
        simp only [DaoRewards.Call.change.injEq] at hc
        obtain ⟨rfl, rfl, rfl⟩ := hc
        rw [show aw.c = w.rew.c from h.c] at hget
        obtain ⟨h1, h2⟩ := hid d hget hvp
        rw [hvia h2, h1]; exact List.mem_singleton_self _

/-! ### Histories -/

theorem silent_zero {id : Nat} {e : Spec.DaoRewards.Event} (h : Silent e) :
    fundedIn id e = 0 ∧ claimedIn id e = 0 ∧ clawedIn id e = 0 := by
  unfold fundedIn claimedIn clawedIn
  rcases h with ⟨a, ms, h⟩ | ⟨vp, d, via, h⟩ <;> rw [h] <;> exact ⟨rfl, rfl, rfl⟩

theorem silent_sums {id : Nat} {l l' : List Spec.DaoRewards.Event} (h : ∀ e ∈ l, Silent e) :
    fundedTotal id (l ++ l') = fundedTotal id l' ∧ claimedTotal id (l ++ l') = claimedTotal id l' ∧
      clawedTotal id (l ++ l') = clawedTotal id l' := by
  induction l with
  | nil => exact ⟨rfl, rfl, rfl⟩
  | cons e l ih =>
    have hz := silent_zero (id := id) (h e List.mem_cons_self)
    have hi := ih (fun x hx => h x (List.mem_cons_of_mem _ hx))
    unfold fundedTotal claimedTotal clawedTotal at *
    simp only [List.cons_append, List.map_cons, List.sum_cons, hz.1, hz.2.1, hz.2.2, Nat.zero_add]
    exact hi

theorem silent_same {id : Nat} {l : List Spec.DaoRewards.Event} (h : ∀ e ∈ l, Silent e) : SameVotes id l := by
  intro e he a coins rate vp hook o dest hc
  rcases h e he with ⟨_, _, h⟩ | ⟨_, _, _, h⟩ <;> rw [h] at hc <;> cases hc

theorem silent_calm {id : Nat} {l : List Spec.DaoRewards.Event} (h : ∀ e ∈ l, Silent e) : Spec.DaoRewards.Calm id l := by
  intro e he
  refine ⟨?_, ?_⟩
  · intro d _ hat
    unfold AtOnce at hat
    rcases h e he with ⟨_, _, h⟩ | ⟨_, _, _, h⟩ <;> rw [h] at hat <;> exact hat.elim
  · intro a coins token vp hook o dest hc
    rcases h e he with ⟨_, _, h⟩ | ⟨_, _, _, h⟩ <;> rw [h] at hc <;> cases hc

/-- A history of the abstract distributor that goes with one of the whole. -/
structure Match (V : Telling S E C O) (b0 : Block) (log : List (Event S E C)) (alog : List Spec.DaoRewards.Event) : Prop where
  funded : ∀ id, fundedTotal id alog = fundedTotal id (rewardsLog log)
  claimed : ∀ id, claimedTotal id alog = claimedTotal id (rewardsLog log)
  clawed : ∀ id, clawedTotal id alog = clawedTotal id (rewardsLog log)
  announced : ∀ id, Listening V id log → Announced id (rewardsLog log) → Announced id alog
  same : ∀ id, SameVotes id (rewardsLog log) → SameVotes id alog
  calm : ∀ id, Calm b0 id log → Spec.DaoRewards.Calm id alog

theorem announced_app {id : Nat} {l l' : List Spec.DaoRewards.Event} (h : Announced id l) (h' : Announced id l') :
    Announced id (l ++ l') := by
  intro e he
  rcases List.mem_append.1 he with he | he
  · exact h e he
  · exact h' e he

theorem same_app {id : Nat} {l l' : List Spec.DaoRewards.Event} (h : SameVotes id l) (h' : SameVotes id l') :
    SameVotes id (l ++ l') := by
  intro e he
  rcases List.mem_append.1 he with he | he
  · exact h e he
  · exact h' e he

theorem calm_app {id : Nat} {l l' : List Spec.DaoRewards.Event} (h : Spec.DaoRewards.Calm id l) (h' : Spec.DaoRewards.Calm id l') :
    Spec.DaoRewards.Calm id (l ++ l') := by
  intro e he
  rcases List.mem_append.1 he with he | he
  · exact h e he
  · exact h' e he

/-- A voting module's state to begin with. -/
theorem sim_init (L : Lawful V.toVotingModule) {b0 : Block} {w : World S} (h : Init V b0 w) :
    ∃ aw, DaoRewards.sys.init b0 aw ∧ Sim V b0 [] w b0 aw b0 := by
  obtain ⟨⟨h1, h2, h3⟩, ⟨b1, l, hr, hb⟩, h5⟩ := h
  obtain ⟨mc, c1, c2, c3⟩ := power_map L hr (b1.height + 1)
  obtain ⟨ms, s1, s2, s3⟩ := power_map L hr b0.height
  have hl := later_weight L hr (Nat.lt_succ_self b1.height)
  have hv : ∀ a, ({ w.rew with votes := w.rew.votes.set w.vp { cur := mc, start := ms, since := b0.height } } : DaoRewards.World).vote a =
      if w.vp = a then { cur := mc, start := ms, since := b0.height } else w.rew.vote a :=
    fun a => vote_set' w.rew w.vp _ w.rew.now w.rew.c a
  have hvp := hv w.vp
  rw [if_pos rfl] at hvp
  have hat : (DaoRewards.Votes.atHeight { cur := mc, start := ms, since := b0.height } b0.height) = ms := by
    unfold DaoRewards.Votes.atHeight; rw [if_neg (Nat.lt_irrefl _)]
  refine ⟨{ w.rew with votes := w.rew.votes.set w.vp { cur := mc, start := ms, since := b0.height } }, ⟨h1, h2, ?_⟩, ?_⟩
  · intro a
    rw [hv a]
    split
    · exact ⟨c1, s1, Nat.le_refl _⟩
    · exact h3 a
  · refine ⟨rfl, rfl, rfl, ?_, h1, h1, ⟨Block.le_refl _, .inr rfl⟩, ⟨b1, l, hr, hb⟩, h5, ?_, ?_, ?_, ?_, ?_, ?_, ?_, ?_⟩
    · intro a ha; rw [hv a, if_neg (fun hh => ha hh.symm)]
    · rw [hvp]; exact c1
    · rw [hvp]; exact s1
    · rw [hvp]
    · rw [hvp]; intro a; rw [c2 a, hl.1 a]
    · rw [hvp]; show total mc = _; rw [c3, hl.2]
    · rw [hvp, hat]; exact s2
    · rw [hvp, hat]; exact s3
    · rw [hvp]; exact .inl (Nat.le_refl _)

theorem sim_run (L : Lawful V.toVotingModule) (T : Tells V) {b0 b : Block} {w0 w : World S} {log : List (Event S E C)}
    (h0 : Init V b0 w0) (hr : (sys V).Run w0 b0 log w b) :
    ∃ aw0 alog aw ab, DaoRewards.sys.init b0 aw0 ∧ DaoRewards.sys.Run aw0 b0 alog aw ab ∧ Sim V b0 log w b aw ab ∧
      Match V b0 log alog := by
  induction hr with
  | refl =>
    obtain ⟨aw, hi, hs⟩ := sim_init L h0
    exact ⟨aw, [], aw, b0, hi, .refl, hs, ⟨fun _ => rfl, fun _ => rfl, fun _ => rfl, fun _ _ h => h, fun _ h => h,
      fun _ _ e he => by cases he⟩⟩
  | @step w1 w2 b1 log env call out hr hb hs ih =>
    obtain ⟨aw0, alog, aw, ab, hi, hrun, hsim, hm⟩ := ih
    refine ⟨aw0, ?_⟩
    have hb' : b1.le env := hb
    replace hs : step V w1 env call = .ok (w2, out) := hs
    unfold step at hs
    rw [hsim.now] at hs
    simp only [bind_ok, require_ok, decide_eq_true_eq] at hs
    obtain ⟨_, hn, _, hu, hs1⟩ := hs
    have hnow := now_trans hsim.blk hb' hn
    have hat := hsim.at L (b' := env) hb'.1
    cases call with
    | rewards c =>
      simp only [bind_ok, Except.ok.injEq, Prod.mk.injEq] at hs1
      obtain ⟨⟨r, o⟩, h1, h2, h3⟩ := hs1
      subst h2; subst h3
      obtain ⟨aw', hst, e1, e2, e3, e4, e5, e6, e7, e8⟩ := sim_rewards hsim.c hsim.me hsim.bal hsim.others hat.1 hat.2
        (by rw [hsim.anow]; exact hnow.2) hu h1
      obtain ⟨bv, lv, hrv, hbv⟩ := hsim.reach
      refine ⟨⟨aw, env, c, o, aw'⟩ :: alog, aw', env, hi,
        Sys.Run.step (M := DaoRewards.sys) (env := env) (call := c) (out := o) hrun hnow.1 hst, ?_, ?_⟩
      · refine ⟨e1, e2, e3, e7, e4, e5, ⟨Block.le_refl _, .inr rfl⟩, ⟨bv, lv, hrv, Block.le_trans hbv hb'⟩, ?_, ?_, ?_, ?_, ?_, ?_,
          ?_, ?_, ?_⟩
        · show w1.caller ≠ r.me
          rw [e6]; exact hsim.caller
        · rw [e8]; exact hsim.wfc
        · rw [e8]; exact hsim.wfs
        · rw [e8]; exact Nat.le_trans hsim.since hb'.1
        · rw [e8]; exact hsim.cur
        · rw [e8]; exact hsim.curT
        · rw [e8]; exact hat.1
        · rw [e8]; exact hat.2
        · rw [e8]
          rcases hsim.bound with hb0 | ⟨e', he', hv, hle⟩
          · exact .inl hb0
          · exact .inr ⟨e', List.mem_cons_of_mem _ he', hv, hle⟩
      · have hf : ∀ id, fundedIn id (⟨aw, env, c, o, aw'⟩ : Spec.DaoRewards.Event) = fundedIn id ⟨w1.rew, env, c, o, r⟩ := by
          intro id; unfold fundedIn Spec.DaoRewards.target
          rw [show aw.c = w1.rew.c from hsim.c]
        refine ⟨?_, ?_, ?_, ?_, ?_, ?_⟩
        · intro id
          have := hm.funded id
          unfold fundedTotal at this ⊢
          simp only [rewardsLog, List.map_cons, List.sum_cons, this, hf]
        · intro id
          have := hm.claimed id
          unfold claimedTotal at this ⊢
          simp only [rewardsLog, List.map_cons, List.sum_cons, this]
          rfl
        · intro id
          have := hm.clawed id
          unfold clawedTotal at this ⊢
          simp only [rewardsLog, List.map_cons, List.sum_cons, this]
          rfl
        · intro id hl ha e he
          rcases List.mem_cons.1 he with rfl | he
          · intro vp diffs via hc d hget hvp
            exact ha _ List.mem_cons_self vp diffs via hc d (by
              show w1.rew.c.dists.get id = _
              rw [← hsim.c]; exact hget) hvp
          · exact hm.announced id (fun e he => hl e (List.mem_cons_of_mem _ he)) (fun e he => ha e (List.mem_cons_of_mem _ he)) e he
        · intro id ha e he
          rcases List.mem_cons.1 he with rfl | he
          · exact ha ⟨w1.rew, env, c, o, r⟩ List.mem_cons_self
          · exact hm.same id (fun e he => ha e (List.mem_cons_of_mem _ he)) e he
        · intro id hcalm e he
          rcases List.mem_cons.1 he with rfl | he
          · have key : ∀ vp, Hands id ⟨w1.rew, env, c, o, r⟩ vp → (aw.vote vp).since < env.height := by
              intro vp hh
              have hq := hcalm.1 c vp rfl hh
              by_cases hvp : vp = w1.vp
              · obtain ⟨q1, q2⟩ := hq.1 hvp
                subst hvp
                rcases hsim.bound with hb0 | ⟨e', he', hv, hle⟩
                · exact Nat.lt_of_le_of_lt hb0 q1
                · exact Nat.lt_of_le_of_lt hle (q2 e' he' hv)
              · rw [hsim.others vp hvp]; exact hq.2 hvp
            refine ⟨?_, ?_⟩
            · intro d hget hat
              refine key d.vp (.funds (d := d) ?_ ?_)
              · show w1.rew.c.dists.get id = _
                rw [← hsim.c]; exact hget
              · unfold AtOnce Spec.DaoRewards.AtOnce.atOnceRate Spec.DaoRewards.target at hat ⊢
                rw [show aw.c = w1.rew.c from hsim.c] at hat
                exact hat
            · intro a coins token vp hook oo dest hc hid hcoins
              refine key vp (.creates hc ?_ hcoins)
              show w1.rew.c.count + 1 = id
              rw [← hsim.c]; exact hid
          · exact hm.calm id hcalm.2 e he
    | vote e m =>
      simp only [bind_ok, require_ok, decide_eq_true_eq, Except.ok.injEq, Prod.mk.injEq] at hs1
      obtain ⟨_, he, ⟨s', o⟩, h1, c', h2, h3, h4⟩ := hs1
      subst h3; subst h4
      obtain ⟨alog', aw', ab', hrun', hsil, hsim', hann⟩ := sim_vote L T hsim hb' hn hu he h1 h2
      refine ⟨alog' ++ alog, aw', ab', hi, hrun.append hrun', hsim' _ rfl rfl, ?_⟩
      refine ⟨?_, ?_, ?_, ?_, ?_, ?_⟩
      · intro id; rw [(silent_sums hsil).1]; exact hm.funded id
      · intro id; rw [(silent_sums hsil).2.1]; exact hm.claimed id
      · intro id; rw [(silent_sums hsil).2.2]; exact hm.clawed id
      · intro id hl ha
        refine announced_app (hann id ?_) (hm.announced id (fun e he => hl e (List.mem_cons_of_mem _ he)) ha)
        exact hl _ List.mem_cons_self rfl
      · intro id ha
        exact same_app (silent_same hsil) (hm.same id ha)
      · intro id hcalm
        exact calm_app (silent_calm hsil) (hm.calm id hcalm.2)

end Verif.RewardedDao
