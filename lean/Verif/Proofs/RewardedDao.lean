import Verif.Spec.RewardedDao
import Verif.Proofs.DaoRewardsHistory
/-!
# A rewards distributor with a real voting module: simulation by the model of the distributor
-/

namespace Verif.RewardedDao
open Verif Verif.WholeDao Verif.Spec.WholeDao Verif.Spec.RewardedDao
open Verif.Spec.DaoRewards (Announced SameVotes fundedTotal claimedTotal clawedTotal fundedIn claimedIn clawedIn)

variable {S E C O : Type} {V : Telling S E C O}

/-! ### Maps with the same values -/

theorem total_keys {m : AMap Addr Nat} (hm : AMap.WF m) : total m = ((m.map Prod.fst).map (getD0 m)).sum := by
  induction m with
  | nil => rfl
  | cons p m ih =>
    obtain ⟨k, v⟩ := p
    have hm' : AMap.WF m := by
      unfold AMap.WF at hm ⊢; rw [List.map_cons, List.nodup_cons] at hm; exact hm.2
    have hk : k ∉ m.map Prod.fst := by
      unfold AMap.WF at hm; rw [List.map_cons, List.nodup_cons] at hm; exact hm.1
    rw [show total ((k, v) :: m) = v + total m from rfl, ih hm', List.map_cons, List.map_cons, List.sum_cons]
    congr 1
    · simp [getD0, AMap.get]
    · refine congrArg List.sum (List.map_congr_left ?_)
      intro a ha
      have : k ≠ a := fun h => hk (h ▸ ha)
      simp [getD0, AMap.get, this]

theorem total_le_of {m m' : AMap Addr Nat} (hm : AMap.WF m) (hm' : AMap.WF m') (h : ∀ a, getD0 m a = getD0 m' a) :
    total m ≤ total m' := by
  rw [total_keys hm]
  have : (m.map Prod.fst).map (getD0 m) = (m.map Prod.fst).map (getD0 m') :=
    List.map_congr_left (fun a _ => h a)
  rw [this]
  exact DaoRewards.mapsum_total hm' hm

theorem total_of {m m' : AMap Addr Nat} (hm : AMap.WF m) (hm' : AMap.WF m') (h : ∀ a, getD0 m a = getD0 m' a) :
    total m = total m' :=
  Nat.le_antisymm (total_le_of hm hm' h) (total_le_of hm' hm (fun a => (h a).symm))

/-- A function with finite support as a map. -/
def tabulate (L : List Addr) (f : Addr → Nat) : AMap Addr Nat := L.map (fun a => (a, f a))

theorem tabulate_wf {L : List Addr} (h : L.Nodup) (f : Addr → Nat) : AMap.WF (tabulate L f) := by
  unfold AMap.WF tabulate; rw [List.map_map]
  have : (Prod.fst ∘ fun a => (a, f a)) = (id : Addr → Addr) := rfl
  rw [this, List.map_id]; exact h

theorem tabulate_get (L : List Addr) (f : Addr → Nat) (a : Addr) :
    getD0 (tabulate L f) a = if a ∈ L then f a else 0 := by
  induction L with
  | nil => rfl
  | cons x L ih =>
    by_cases h : x = a
    · subst h; simp [tabulate, getD0, AMap.get]
    · have : getD0 (tabulate (x :: L) f) a = getD0 (tabulate L f) a := by
        simp [tabulate, getD0, AMap.get, h]
      rw [this, ih]
      have h' : a ≠ x := fun e => h e.symm
      simp [h']

theorem tabulate_total {L : List Addr} (h : L.Nodup) (f : Addr → Nat) : total (tabulate L f) = (L.map f).sum := by
  clear h
  induction L with
  | nil => rfl
  | cons a L ih =>
    rw [show total (tabulate (a :: L) f) = f a + total (tabulate L f) from rfl, ih, List.map_cons, List.sum_cons]

/-- The powers at a height as a map. -/
theorem power_map (L : Lawful V.toVotingModule) {s : S} {b : Block} {l : List (Ev S E C O)} (h : V.sys.Reach s b l) (x : Nat) :
    ∃ m : AMap Addr Nat, AMap.WF m ∧ (∀ a, getD0 m a = V.power s a x) ∧ total m = V.total s x := by
  obtain ⟨K, hK, h0, hs⟩ := L.sums h x
  refine ⟨tabulate K (fun a => V.power s a x), tabulate_wf hK _, ?_, ?_⟩
  · intro a
    rw [tabulate_get]
    split
    · rfl
    · rename_i ha; exact (h0 a ha).symm
  · rw [tabulate_total hK, hs]

/-- From the next block on the powers are the weights. -/
theorem later_weight (L : Lawful V.toVotingModule) {s : S} {b : Block} {l : List (Ev S E C O)} (h : V.sys.Reach s b l)
    {x : Nat} (hx : b.height < x) : (∀ a, V.power s a x = V.weight s a) ∧ V.total s x = V.totalWeight s :=
  L.history h .refl hx (by intro e he; cases he)

/-! ### The simulation -/

/-- The distributor of the whole and its voting module, and a distributor with powers that change at will. -/
structure Sim (V : Telling S E C O) (b0 : Block) (log : List (Event S E C)) (w : World S) (b : Block)
    (aw : DaoRewards.World) (ab : Block) : Prop where
  c : aw.c = w.rew.c
  me : aw.me = w.rew.me
  bal : aw.bal = w.rew.bal
  others : ∀ a, a ≠ w.vp → aw.vote a = w.rew.vote a
  anow : aw.now = ab
  now : w.rew.now = b
  blk : ab.le b ∧ (ab.height < b.height ∨ ab = b)
  reach : ∃ b1 l, V.sys.Reach w.vote b1 l ∧ b1.le b
  caller : w.caller ≠ w.rew.me
  wfc : AMap.WF (aw.vote w.vp).cur
  wfs : AMap.WF (aw.vote w.vp).start
  since : (aw.vote w.vp).since ≤ b.height
  cur : ∀ a, getD0 (aw.vote w.vp).cur a = V.weight w.vote a
  curT : total (aw.vote w.vp).cur = V.totalWeight w.vote
  start : ∀ a, getD0 ((aw.vote w.vp).atHeight b.height) a = V.power w.vote a b.height
  startT : total ((aw.vote w.vp).atHeight b.height) = V.total w.vote b.height
  bound : (aw.vote w.vp).since ≤ b0.height ∨ ∃ e ∈ log, isVote e.call = true ∧ (aw.vote w.vp).since ≤ e.env.height

theorem ans_eq {w : World S} {aw : DaoRewards.World} {b : Block} (ho : ∀ a, a ≠ w.vp → aw.vote a = w.rew.vote a)
    (hs : ∀ a, getD0 ((aw.vote w.vp).atHeight b.height) a = V.power w.vote a b.height)
    (ht : total ((aw.vote w.vp).atHeight b.height) = V.total w.vote b.height) : aw.answers b = answers V w b := by
  funext a
  unfold answers DaoRewards.World.answers
  by_cases h : a = w.vp
  · subst h
    rw [if_pos rfl]
    congr 1
    funext x
    exact hs x
  · rw [if_neg h, ho a h]

theorem Sim.at {b0 : Block} {log : List (Event S E C)} {w : World S} {b : Block} {aw : DaoRewards.World} {ab b' : Block}
    (L : Lawful V.toVotingModule) (h : Sim V b0 log w b aw ab) (hb : b.height ≤ b'.height) :
    (∀ a, getD0 ((aw.vote w.vp).atHeight b'.height) a = V.power w.vote a b'.height) ∧
      total ((aw.vote w.vp).atHeight b'.height) = V.total w.vote b'.height := by
  rcases Nat.lt_or_ge b.height b'.height with hlt | hge
  · obtain ⟨b1, l, hr, hb1⟩ := h.reach
    have hl := later_weight L hr (x := b'.height) (Nat.lt_of_le_of_lt hb1.1 hlt)
    have : (aw.vote w.vp).atHeight b'.height = (aw.vote w.vp).cur := by
      unfold DaoRewards.Votes.atHeight; rw [if_pos (Nat.lt_of_le_of_lt h.since hlt)]
    rw [this, hl.2]
    exact ⟨fun a => by rw [hl.1 a]; exact h.cur a, h.curT⟩
  · have : b'.height = b.height := Nat.le_antisymm hge hb
    rw [this]
    exact ⟨h.start, h.startT⟩

theorem Sim.answers {b0 : Block} {log : List (Event S E C)} {w : World S} {b : Block} {aw : DaoRewards.World} {ab b' : Block}
    (L : Lawful V.toVotingModule) (h : Sim V b0 log w b aw ab) (hb : b.height ≤ b'.height) :
    aw.answers b' = RewardedDao.answers V w b' := ans_eq h.others (h.at L hb).1 (h.at L hb).2

theorem vote_set' (w : DaoRewards.World) (vp : Addr) (v : DaoRewards.Votes) (n : Block) (c : DaoRewards.State) (a : Addr) :
    ({ w with votes := w.votes.set vp v, now := n, c := c } : DaoRewards.World).vote a = if vp = a then v else w.vote a := by
  unfold DaoRewards.World.vote
  rw [AMap.get_set]
  split
  · rfl
  · rfl

/-- A transaction of the distributor. -/
theorem sim_rewards {w : World S} {aw : DaoRewards.World} {b : Block} {c : DaoRewards.Call} {r : DaoRewards.World}
    {out : List Pay} (hc : aw.c = w.rew.c) (hme : aw.me = w.rew.me) (hbal : aw.bal = w.rew.bal)
    (ho : ∀ a, a ≠ w.vp → aw.vote a = w.rew.vote a)
    (hs : ∀ a, getD0 ((aw.vote w.vp).atHeight b.height) a = V.power w.vote a b.height)
    (ht : total ((aw.vote w.vp).atHeight b.height) = V.total w.vote b.height)
    (hnow : aw.now.height < b.height ∨ aw.now = b) (hu : b.height < U64)
    (h : rewardsStep V w b c = .ok (r, out)) :
    ∃ aw', DaoRewards.step aw b c = .ok (aw', out) ∧ aw'.c = r.c ∧ aw'.me = r.me ∧ aw'.bal = r.bal ∧ aw'.now = b ∧
      r.now = b ∧ r.me = w.rew.me ∧ (∀ a, a ≠ w.vp → aw'.vote a = r.vote a) ∧ aw'.vote w.vp = aw.vote w.vp := by
  have ha : aw.answers b = answers V w b := ans_eq ho hs ht
  have q1 : require (decide (aw.now.height < b.height ∨ aw.now = b)) Err.invalid = .ok () := (require_ok _ _ ()).2 (decide_eq_true hnow)
  have q2 : require (decide (b.height < U64)) Err.invalid = .ok () := (require_ok _ _ ()).2 (decide_eq_true hu)
  unfold DaoRewards.step
  rw [q1, ok_bind, q2, ok_bind]
  cases c with
  | exec a coins m =>
    simp only [rewardsStep, bind_ok, require_ok, decide_eq_true_eq, Except.ok.injEq, Prod.mk.injEq] at h
    obtain ⟨_, h1, l, h2, x, h3, l', h4, rfl, rfl⟩ := h
    refine ⟨{ aw with c := x.1, bal := l', now := b }, ?_, rfl, hme, rfl, rfl, rfl, rfl, ho, rfl⟩
    simp only [bind_ok, require_ok, decide_eq_true_eq, Except.ok.injEq, Prod.mk.injEq]
    exact ⟨(), by rw [hme]; exact h1, l, by rw [hme, hbal]; exact h2, x, by rw [hc, ha]; exact h3, l',
      by rw [hme]; exact h4, rfl, rfl⟩
  | send t a n id =>
    simp only [rewardsStep, bind_ok, require_ok, decide_eq_true_eq, Except.ok.injEq, Prod.mk.injEq] at h
    obtain ⟨_, h1, l, h2, x, h3, rfl, rfl⟩ := h
    refine ⟨{ aw with c := x, bal := l, now := b }, ?_, rfl, hme, rfl, rfl, rfl, rfl, ho, rfl⟩
    simp only [bind_ok, require_ok, decide_eq_true_eq, Except.ok.injEq, Prod.mk.injEq]
    exact ⟨(), by rw [hme]; exact h1, l, by rw [hme, hbal]; exact h2, x, by rw [hc, ha]; exact h3, rfl, trivial⟩
  | change vp diffs via =>
    simp only [rewardsStep, bind_ok, require_ok, decide_eq_true_eq, Except.ok.injEq, Prod.mk.injEq] at h
    obtain ⟨_, h1, _, h2, x, h3, rfl, rfl⟩ := h
    have hv : aw.vote vp = w.rew.vote vp := ho vp h1
    have ho' : ∀ (c1 c2 : DaoRewards.State) (a : Addr), a ≠ w.vp →
        ({ aw with votes := aw.votes.set vp ((aw.vote vp).change b.height diffs), now := b, c := c1 } : DaoRewards.World).vote a =
        ({ w.rew with votes := w.rew.votes.set vp ((w.rew.vote vp).change b.height diffs), now := b, c := c2 } : DaoRewards.World).vote a := by
      intro c1 c2 a hne
      rw [vote_set', vote_set', hv, ho a hne]
    have hvp : ∀ c1 : DaoRewards.State, ({ aw with votes := aw.votes.set vp ((aw.vote vp).change b.height diffs), now := b, c := c1 } : DaoRewards.World).vote w.vp =
        aw.vote w.vp := by
      intro c1; rw [vote_set', if_neg h1]
    refine ⟨{ aw with votes := aw.votes.set vp ((aw.vote vp).change b.height diffs), now := b, c := x }, ?_, rfl, hme, hbal, rfl, rfl, rfl,
      ho' x x, hvp x⟩
    simp only [bind_ok, require_ok, decide_eq_true_eq, Except.ok.injEq, Prod.mk.injEq]
    refine ⟨(), h2, x, ?_, rfl, trivial⟩
    have hq := ans_eq (V := V)
      (w := { w with rew := { w.rew with votes := w.rew.votes.set vp ((w.rew.vote vp).change b.height diffs), now := b } })
      (aw := { aw with votes := aw.votes.set vp ((aw.vote vp).change b.height diffs), now := b }) (b := b)
      (ho' aw.c w.rew.c) (by
        have := hvp aw.c
        intro a
        show getD0 ((({ aw with votes := aw.votes.set vp ((aw.vote vp).change b.height diffs), now := b, c := aw.c } : DaoRewards.World).vote w.vp).atHeight b.height) a = _
        rw [this]; exact hs a) (by
        have := hvp aw.c
        show total ((({ aw with votes := aw.votes.set vp ((aw.vote vp).change b.height diffs), now := b, c := aw.c } : DaoRewards.World).vote w.vp).atHeight b.height) = _
        rw [this]; exact ht)
    rw [hq, hc]
    exact h3
  | transfer t a dst n =>
    simp only [rewardsStep, bind_ok, require_ok, decide_eq_true_eq, Except.ok.injEq, Prod.mk.injEq] at h
    obtain ⟨_, h1, l, h2, rfl, rfl⟩ := h
    refine ⟨{ aw with bal := l, now := b }, ?_, hc, hme, rfl, rfl, rfl, rfl, ho, rfl⟩
    simp only [bind_ok, require_ok, decide_eq_true_eq, Except.ok.injEq, Prod.mk.injEq]
    exact ⟨(), by rw [hme]; exact h1, l, by rw [hbal]; exact h2, rfl, trivial⟩

/-! ### A call of the voting module -/

/-- The messages to the distributor. -/
def mine (me : Addr) : List (Addr × List Addr) → List (List Addr)
  | [] => []
  | (r, ms) :: rest => if r = me then ms :: mine me rest else mine me rest

def deliverMine (b : Block) (v : Addr → DaoRewards.Answer) (caller : Addr) :
    List (List Addr) → DaoRewards.State → Res DaoRewards.State
  | [], c => .ok c
  | ms :: rest, c => do
    let c1 ← DaoRewards.execHook c b v caller ms
    deliverMine b v caller rest c1

theorem deliver_eq (b : Block) (v : Addr → DaoRewards.Answer) (me caller : Addr) (told : List (Addr × List Addr))
    (c : DaoRewards.State) : deliver b v me caller told c = deliverMine b v caller (mine me told) c := by
  induction told generalizing c with
  | nil => rfl
  | cons x told ih =>
    obtain ⟨r, ms⟩ := x
    by_cases h : r = me
    · simp only [deliver, mine, if_pos h, deliverMine]
      exact bind_congr (fun c1 => ih c1)
    · simp only [deliver, mine, if_neg h]
      exact ih c

theorem mine_mem {me : Addr} {told : List (Addr × List Addr)} {ms : List Addr} (h : ms ∈ mine me told) :
    (me, ms) ∈ told := by
  induction told with
  | nil => cases h
  | cons x told ih =>
    obtain ⟨r, m⟩ := x
    unfold mine at h
    split at h
    · rename_i hr; subst hr
      rcases List.mem_cons.1 h with rfl | h
      · exact List.mem_cons_self
      · exact List.mem_cons_of_mem _ (ih h)
    · exact List.mem_cons_of_mem _ (ih h)

theorem mine_nil {me : Addr} {told : List (Addr × List Addr)} (h : mine me told = []) : ∀ m ∈ told, m.1 ≠ me := by
  induction told with
  | nil => intro m hm; cases hm
  | cons x told ih =>
    obtain ⟨r, m⟩ := x
    unfold mine at h
    split at h
    · cases h
    · rename_i hr
      intro m' hm'
      rcases List.mem_cons.1 hm' with rfl | hm'
      · exact hr
      · exact ih h m' hm'

/-- A transaction of the abstract distributor that only tells of changes: a hook message or a change of power. -/
def Silent (e : Spec.DaoRewards.Event) : Prop :=
  (∃ a ms, e.call = .exec a [] (.hook ms)) ∨ ∃ vp diffs via, e.call = .change vp diffs via

/-- Hook messages one after the other. -/
theorem hooks_run {b : Block} {caller : Addr} (mss : List (List Addr)) :
    ∀ {aw : DaoRewards.World} {c' : DaoRewards.State}, caller ≠ aw.me → aw.now.le b →
      (aw.now.height < b.height ∨ aw.now = b) → b.height < U64 → deliverMine b (aw.answers b) caller mss aw.c = .ok c' →
    ∃ alog ab', DaoRewards.sys.Run aw aw.now alog { aw with c := c', now := ab' } ab' ∧ (ab' = aw.now ∨ ab' = b) ∧
      ∀ e ∈ alog, ∃ a ms, e.call = .exec a [] (.hook ms) := by
  induction mss with
  | nil =>
    intro aw c' _ _ _ _ h
    simp only [deliverMine, Except.ok.injEq] at h
    subst h
    exact ⟨[], aw.now, .refl, .inl rfl, fun e he => by cases he⟩
  | cons ms mss ih =>
    intro aw c' hme hle hn hu h
    simp only [deliverMine, bind_ok] at h
    obtain ⟨c1, h1, h2⟩ := h
    obtain ⟨alog, ab', hr, _, hall⟩ := ih (aw := { aw with c := c1, now := b }) (c' := c') hme (Block.le_refl _) (.inr rfl) hu h2
    have hstep : DaoRewards.sys.step aw b (.exec caller [] (.hook ms)) = .ok ({ aw with c := c1, now := b }, []) := by
      rw [show DaoRewards.sys.step = DaoRewards.step from rfl]
      unfold DaoRewards.step
      rw [show require (decide (aw.now.height < b.height ∨ aw.now = b)) Err.invalid = .ok () from
        (require_ok _ _ ()).2 (decide_eq_true hn), ok_bind, show require (decide (b.height < U64)) Err.invalid = .ok () from
        (require_ok _ _ ()).2 (decide_eq_true hu), ok_bind]
      simp only [bind_ok, require_ok, decide_eq_true_eq, Except.ok.injEq, Prod.mk.injEq]
      refine ⟨(), hme, aw.bal, rfl, (c1, []), ?_, aw.bal, rfl, rfl, rfl⟩
      simp only [DaoRewards.exec, bind_ok, Except.ok.injEq, Prod.mk.injEq]
      exact ⟨c1, h1, rfl, trivial⟩
    have hab : ab' = b := by rename_i hh; rcases hh with h | h <;> exact h
    subst hab
    refine ⟨alog ++ [⟨aw, ab', .exec caller [] (.hook ms), [], { aw with c := c1, now := ab' }⟩], ab', ?_, .inr rfl, ?_⟩
    · exact (Sys.Run.step (M := DaoRewards.sys) (env := ab') (call := .exec caller [] (.hook ms)) (out := []) .refl hle hstep).append hr
    · intro e he
      rcases List.mem_append.1 he with he | he
      · exact hall e he
      · rw [List.mem_singleton] at he; subst he; exact ⟨_, _, rfl⟩

/-- A change of power, and the hook messages of which the distributor gets the first in the same step. -/
theorem change_run {b : Block} {aw : DaoRewards.World} {vp : Addr} {diffs : List (Addr × Nat)} {via : List Addr}
    {c1 : DaoRewards.State} (hd : diffs ≠ []) (hle : aw.now.le b) (hn : aw.now.height < b.height ∨ aw.now = b) (hu : b.height < U64)
    (h : DaoRewards.announce b (({ aw with votes := aw.votes.set vp ((aw.vote vp).change b.height diffs), now := b } : DaoRewards.World).answers b)
      (diffs.map Prod.fst) via aw.c = .ok c1) :
    DaoRewards.sys.Run aw aw.now
      [⟨aw, b, .change vp diffs via, [], { aw with votes := aw.votes.set vp ((aw.vote vp).change b.height diffs), now := b, c := c1 }⟩]
      { aw with votes := aw.votes.set vp ((aw.vote vp).change b.height diffs), now := b, c := c1 } b := by
  refine Sys.Run.step (M := DaoRewards.sys) (env := b) .refl hle ?_
  rw [show DaoRewards.sys.step = DaoRewards.step from rfl]
  unfold DaoRewards.step
  rw [show require (decide (aw.now.height < b.height ∨ aw.now = b)) Err.invalid = .ok () from
    (require_ok _ _ ()).2 (decide_eq_true hn), ok_bind, show require (decide (b.height < U64)) Err.invalid = .ok () from
    (require_ok _ _ ()).2 (decide_eq_true hu), ok_bind]
  simp only [bind_ok, require_ok, decide_eq_true_eq, Except.ok.injEq, Prod.mk.injEq]
  exact ⟨(), hd, c1, h, rfl, trivial⟩

theorem foldl_map_get (f : Addr → Nat) (D : List Addr) (m : AMap Addr Nat) {a : Addr} (h : a ∈ D) :
    getD0 ((D.map (fun a => (a, f a))).foldl (fun m p => AMap.set m p.1 p.2) m) a = f a := by
  induction D generalizing m with
  | nil => cases h
  | cons x D ih =>
    rw [List.map_cons, List.foldl_cons]
    by_cases hD : a ∈ D
    · exact ih _ hD
    · have hx : a = x := by
        rcases List.mem_cons.1 h with h | h
        · exact h
        · exact absurd h hD
      subst hx
      rw [DaoRewards.foldl_get _ _ _ (by
        rw [List.map_map]
        intro hc
        rw [List.mem_map] at hc
        obtain ⟨y, hy, he⟩ := hc
        exact hD (he ▸ hy)), getD0_set, if_pos rfl]

/-- The voting module after a call. -/
theorem vote_facts (L : Lawful V.toVotingModule) {s s' : S} {b b1 : Block} {l : List (Ev S E C O)} {e : E} {m : C} {o : O}
    (hr : V.sys.Reach s b1 l) (hb : b1.le b) (he : V.sys.block e = b) (hs : V.sys.step s e m = .ok (s', o)) :
    (∃ l', V.sys.Reach s' b l') ∧ (∀ a, V.power s' a b.height = V.power s a b.height) ∧ V.total s' b.height = V.total s b.height := by
  subst he
  refine ⟨⟨_, hr.step hb hs⟩, ?_⟩
  refine L.stable hr (Sys.Run.step (M := V.sys) (env := e) (call := m) (out := o) .refl hb hs) ?_
  intro e' he'
  rw [List.mem_singleton] at he'
  subst he'
  exact Nat.le_refl _

theorem weight_total (L : Lawful V.toVotingModule) {s : S} {b : Block} {l : List (Ev S E C O)} (hr : V.sys.Reach s b l)
    {m : AMap Addr Nat} (hm : AMap.WF m) (h : ∀ a, getD0 m a = V.weight s a) : total m = V.totalWeight s := by
  obtain ⟨m', h1, h2, h3⟩ := power_map L hr (b.height + 1)
  have hl := later_weight L hr (Nat.lt_succ_self b.height)
  rw [← hl.2, ← h3]
  exact total_of hm h1 (fun a => by rw [h a, h2 a, hl.1 a])

end Verif.RewardedDao
