import Verif.Spec.CoreQueries
import Verif.Proofs.Listings
import Verif.Props.DaoCoreLists
/-!
# C106, C107: what the queries of a DAO show
-/

namespace Verif.DaoCore
open Verif Verif.Paginate Verif.Listings
open Spec.DaoCore
open Verif.Spec.Listings
open Verif.Spec.Paginate (InOrder)

/-! ## The pause -/

theorem pauseInfo_paused {s : State} {b : Block} : (∃ x, pauseInfo s b = .paused x) ↔ Paused s b := by
  unfold pauseInfo Paused
  cases s.paused with
  | none => simp
  | some x => cases hx : x.isExpired b <;> simp [hx]

theorem pauseInfo_unpaused {s : State} {b : Block} : pauseInfo s b = .unpaused ↔ ¬ Paused s b := by
  rw [← pauseInfo_paused]
  cases pauseInfo s b <;> simp

/-- **C106.** `PauseInfo` says that the DAO is paused exactly when nobody but the DAO and its admin can do anything. -/
theorem C106_pause (s : State) (b : Block) : (∃ x, pauseInfo s b = .paused x) ↔ Closed s b := by
  rw [pauseInfo_paused]
  constructor
  · intro hp e sender m hb h1 h2 r hr
    obtain ⟨s', o⟩ := r
    rcases (execute_eff hr).1 (hb ▸ hp) with h | h
    · exact h1 h
    · exact h2 h
  · intro hc
    by_cases hp : Paused s b
    · exact hp
    · exfalso
      have hne : ∃ a : Addr, a ≠ s.me ∧ a ≠ s.admin :=
        ⟨s.me + s.admin + 1, by simp only [ne_eq, Addr] at *; omega, by simp only [ne_eq, Addr] at *; omega⟩
      obtain ⟨a, h1, h2⟩ := hne
      have hn : isPaused s b = false := by
        cases h : isPaused s b
        · rfl
        · exact absurd ((paused_iff s b).1 h) hp
      have : ∃ r, receiveCw20 s a = .ok r := by unfold receiveCw20; split <;> exact ⟨_, rfl⟩
      obtain ⟨r, hr⟩ := this
      refine hc ⟨b, fun _ => true, fun _ => true⟩ a .receive rfl h1 h2 r ?_
      simp only [execute, dispatch, hn, Bool.not_false, Bool.true_or, require, if_true, ok_bind, hr]

/-- **C106.** What `PauseInfo` shows is what was said last: the end of the last pause while it has not come and the
pause has not been ended, else nothing. -/
theorem C106_pause_last {w0 w : World} {b0 b : Block} {log : List Event} (h : sys.Run w0 b0 log w b) (b' : Block)
    (x : Expiration) :
    pauseInfo w.core b' = .paused x ↔ pauseAfter w0.core log = some x ∧ x.isExpired b' = false := by
  have key : w.core.paused = pauseAfter w0.core log := by
    induction h with
    | refl => rfl
    | step hr hb hs ih =>
      rename_i w1 w2 b1 log env call out
      obtain ⟨post, st⟩ := w2
      have hdoes := step_does hs
      clear hs
      unfold pauseAfter
      cases hdoes with
      | msg hh hc hp he hs hs' hd =>
        rw [hh]
        simp only at he ⊢
        cases he <;> first | rfl | exact ih
      | rep hh hc hd hme hf hr hs hs' =>
        rw [hh]
        simp only at hr ⊢
        cases hr <;> exact ih
      | other hh hc hd hs hs' he ho =>
        rw [hh]
        simp only at he ⊢
        rw [he]; exact ih
  rw [← key]
  unfold pauseInfo
  cases w.core.paused with
  | none => simp
  | some y =>
    simp only [Option.some.injEq]
    cases hy : y.isExpired b'
    · simp only [Bool.false_eq_true, if_false, PauseInfo.paused.injEq]
      constructor
      · rintro rfl; exact ⟨rfl, hy⟩
      · rintro ⟨rfl, _⟩; rfl
    · simp only [if_true, reduceCtorEq, false_iff]
      rintro ⟨rfl, h⟩
      rw [hy] at h; cases h

/-- **C106.** A pause of a DAO ends: there is a block from which on `PauseInfo` says that the DAO is not paused, unless
the DAO is paused again. -/
theorem C106_pause_ends {w0 w : World} {b0 b : Block} {log : List Event} (h : sys.Run w0 b0 log w b)
    (h0 : w0.core.paused ≠ some .never) :
    ∃ b1 : Block, ∀ b2 : Block, b1.le b2 → pauseInfo w.core b2 = .unpaused := by
  have key : w.core.paused ≠ some .never := by
    induction h with
    | refl => exact h0
    | step hr hb hs ih =>
      rename_i w1 w2 b1 log env call out
      obtain ⟨post, st⟩ := w2
      have hdoes := step_does hs
      clear hs
      cases hdoes with
      | msg hh hc hp he hs hs' hd =>
        simp only at he ⊢
        cases he <;> first | exact ih | skip
        case pause d _ => cases d <;> simp [Duration.after]
        case unpause => simp
      | rep hh hc hd hme hf hr hs hs' =>
        simp only at hr ⊢
        cases hr <;> exact ih
      | other hh hc hd hs hs' he ho =>
        simp only at he ⊢
        rw [he]; exact ih
  unfold pauseInfo
  rcases hp : w.core.paused with _ | x
  · exact ⟨⟨0, 0⟩, fun _ _ => rfl⟩
  · cases x with
    | atHeight n => exact ⟨⟨n, 0⟩, fun b2 hb => by simp [Expiration.isExpired, hb.1]⟩
    | atTime n => exact ⟨⟨0, n⟩, fun b2 hb => by simp [Expiration.isExpired, hb.2]⟩
    | never => exact absurd hp key

/-! ## The modules -/

theorem obeys_iff (s : State) (a : Addr) (hne : ∃ b, ¬ Paused s b) : Obeys s a ↔ Enabled s a := by
  constructor
  · intro h
    obtain ⟨b, hb⟩ := hne
    have := h ⟨b, fun _ => true, fun _ => true⟩ [] hb
    cases (execute_eff this).2 with
    | hook h1 h2 => exact ⟨_, h1, h2⟩
  · rintro ⟨p, h1, h2⟩ e msgs hp
    have hn : isPaused s e.block = false := by
      cases h : isPaused s e.block
      · rfl
      · exact absurd ((paused_iff s e.block).1 h) hp
    simp only [execute, dispatch, proposalHook, hn, Bool.not_false, Bool.true_or, require, if_true, ok_bind, h1, orErr,
      h2]

theorem values_addr {m : AMap Addr Module} (hw : m.WF) (ha : ∀ a p, m.get a = some p → p.address = a)
    (start : Option Nat) (o : Order) :
    ((range m start o).map Prod.snd).map (fun p => (p.address, p)) = range m start o := by
  rw [List.map_map]
  conv => rhs; rw [← List.map_id (range m start o)]
  refine List.map_congr_left ?_
  rintro ⟨a, p⟩ hp
  have := ha a p (AMap.get_of_mem hw (mem_range.1 hp).1)
  simp [this]

/-- **C106.** Following the pages of `ProposalModules`, of any size, shows every proposal module the DAO ever had, once,
with its address, prefix and status; there are as many as `ProposalModuleCount` says. -/
theorem C106_modules {w : World} {b : Block} {log : List Event} (h : sys.Reach w b log) (limit : Option Nat)
    (hl : limit ≠ some 0) :
    ∃ l, Pages (fun start => modulesPage w.core start limit) none l ∧ InOrder .asc l ∧
      (∀ a m, (a, m) ∈ l ↔ w.core.modules.get a = some m) ∧ l.length = (moduleCount w.core).2 := by
  obtain ⟨b0, w0, h0, hr⟩ := h
  have hi := inv_run h0 hr
  refine ⟨_, pages_paginate (limit := limit) hi.wf hl (fun start => ?_), range_inOrder hi.wf none .asc, ?_, ?_⟩
  · unfold modulesPage paginateValues paginateMap
    cases limit with
    | none => simp only [values_addr hi.wf hi.addr]
    | some l => simp only [List.map_take, values_addr hi.wf hi.addr]
  · intro a m; exact mem_all hi.wf
  · rw [(range_perm _ _).length_eq]; exact hi.total.symm

/-- **C106.** Following the pages of `ActiveProposalModules` shows exactly the modules whose messages the DAO carries
out, once each; there are as many as `ProposalModuleCount` says are active. -/
theorem C106_active {w : World} {b : Block} {log : List Event} (h : sys.Reach w b log) (limit : Option Nat)
    (hl : limit ≠ some 0) (hp : ∃ b, ¬ Paused w.core b) :
    ∃ l, Pages (fun start => activePage w.core start limit) none l ∧ InOrder .asc l ∧
      (∀ a, (∃ m, (a, m) ∈ l) ↔ Obeys w.core a) ∧ l.length = (moduleCount w.core).1 := by
  have hc := C48_counts h
  obtain ⟨b0, w0, h0, hr⟩ := h
  have hi := inv_run h0 hr
  have hwf : AMap.WF (w.core.modules.filter (fun p => p.2.enabled)) := wf_filter hi.wf _
  have hpage : ∀ start, activePage w.core start limit =
      .ok (paginateMap (w.core.modules.filter (fun p => p.2.enabled)) start limit .asc) := by
    intro start
    have e : (((range w.core.modules start .asc).map Prod.snd).filter (fun m => m.enabled)).map
        (fun m => (m.address, m)) = range (w.core.modules.filter (fun p => p.2.enabled)) start .asc := by
      have e1 : ((range w.core.modules start .asc).map Prod.snd).filter (fun m => m.enabled) =
          ((range w.core.modules start .asc).filter (fun p => p.2.enabled)).map Prod.snd := by
        rw [List.filter_map]; rfl
      rw [e1]
      have e2 : (range w.core.modules start .asc).filter (fun p => p.2.enabled) =
          range (w.core.modules.filter (fun p => p.2.enabled)) start .asc := by
        simp only [range, sorted_filter hi.wf, List.filter_filter]
        congr 1
        funext p
        exact Bool.and_comm _ _
      rw [e2]
      refine values_addr hwf (fun a p hap => ?_) start .asc
      exact hi.addr a p (AMap.get_of_mem hi.wf (List.mem_filter.1 (AMap.mem_of_get hap)).1)
    unfold activePage paginateValues paginateMap
    cases limit with
    | some l => simp only [Option.getD_some, List.map_take, e]
    | none =>
      simp only [Option.getD_none, List.map_take, e, List.length_map]
      rw [List.take_of_length_le]
      have h1 : (range w.core.modules start .asc).length ≤ w.core.modules.length := range_length
      have h2 := hc.2.2.2
      rw [hc.2.1] at h2
      rw [Nat.mod_eq_of_lt (by unfold U32; omega), ← e, List.length_map]
      exact Nat.le_trans (List.length_filter_le _ _) (by rw [List.length_map]; exact Nat.le_refl _)
  refine ⟨_, pages_paginate (limit := limit) hwf hl hpage, range_inOrder hwf none .asc, ?_, ?_⟩
  · intro a
    rw [obeys_iff _ _ hp]
    constructor
    · rintro ⟨m, hm⟩
      have := (mem_all hwf).1 hm
      have := List.mem_filter.1 (AMap.mem_of_get this)
      exact ⟨m, AMap.get_of_mem hi.wf this.1, this.2⟩
    · rintro ⟨m, h1, h2⟩
      exact ⟨m, (mem_all hwf).2 (AMap.get_of_mem hwf (List.mem_filter.2 ⟨AMap.mem_of_get h1, h2⟩))⟩
  · rw [(range_perm _ _).length_eq]; exact hc.1.symm

/-! ## Everything at once -/

theorem voting_last {w0 w : World} {b0 b : Block} {log : List Event} (h : sys.Run w0 b0 log w b) :
    w.core.voting = votingAfter w0.core log := by
  induction h with
  | refl => rfl
  | step hr hb hs ih =>
    rename_i w1 w2 b1 log env call out
    obtain ⟨post, st⟩ := w2
    have hdoes := step_does hs
    clear hs
    unfold votingAfter
    cases hdoes with
    | msg hh hc hp he hs hs' hd =>
      rw [hc]
      simp only at he ⊢
      cases he <;> exact ih
    | rep hh hc hd hme hf hr hs hs' =>
      rw [hc]
      simp only at hr ⊢
      cases hr <;> first | rfl | exact ih
    | other hh hc hd hs hs' he ho =>
      rw [hc]
      simp only at he ⊢
      rw [he]; exact ih

theorem voting_some {w0 w : World} {b0 b : Block} {log : List Event} (h : sys.Run w0 b0 log w b)
    (h0 : w0.core.voting.isSome = true ∨ ∃ i, Sub.create .votingModule i ∈ w0.stack) :
    w.core.voting.isSome = true ∨ ∃ i, Sub.create .votingModule i ∈ w.stack := by
  induction h with
  | refl => exact h0
  | step hr hb hs ih =>
    rename_i w1 w2 b1 log env call out
    obtain ⟨post, st⟩ := w2
    have hdoes := step_does hs
    clear hs
    cases hdoes with
    | msg hh hc hp he hs hs' hd =>
      rename_i sender m rest
      simp only at he hs hs' hd ⊢
      rcases ih with ih | ⟨i, ih⟩
      · left
        cases he <;> exact ih
      · right
        refine ⟨i, ?_⟩
        rw [hs] at ih
        rw [hs']
        rcases List.mem_append.1 ih with h1 | h1
        · rcases hd with hd | hd <;> rw [hd.1] at h1 <;> simp at h1
        · exact List.mem_append.2 (.inr h1)
    | rep hh hc hd hme hf hr hs hs' =>
      simp only at hr hs hs' ⊢
      rcases ih with ih | ⟨j, ih⟩
      · left
        cases hr <;> first | exact ih | rfl
      · rw [hs] at ih
        rcases List.mem_cons.1 ih with h1 | h1
        · left
          injection h1 with h2 h3
          subst h2
          cases hr; rfl
        · right
          exact ⟨j, by rw [hs']; exact List.mem_append.2 (.inr h1)⟩
    | other hh hc hd hs hs' he ho =>
      simp only at he hs hs' ⊢
      rcases ih with ih | ⟨j, ih⟩
      · left; rw [he]; exact ih
      · right
        rw [hs] at ih
        rcases List.mem_cons.1 ih with h1 | h1
        · cases h1
        · exact ⟨j, by rw [hs']; exact h1⟩

/-- **C106.** Between transactions `DumpState` answers, and says what the other queries say: the voting module made
last, everything the pages of `ProposalModules` show, the counts, the pause, the admin and the settings. A new DAO has
its voting module to be made first; `hv` asks that a migrated one has a voting module. -/
theorem C106_dump {w0 w : World} {b0 b : Block} {log : List Event} (h0 : Init b0 w0) (h : sys.Run w0 b0 log w b)
    (hv : w0.core.voting.isSome = true ∨ ∃ i, Sub.create .votingModule i ∈ w0.stack) (hs : w.stack = []) (b' : Block) :
    ∃ d, dumpState w.core b' = .ok d ∧ d.admin = w.core.admin ∧ d.config = w.core.config ∧
      d.pauseInfo = pauseInfo w.core b' ∧ some d.voting = votingAfter w0.core log ∧ votingModule w.core = .ok d.voting ∧
      (d.active, d.total) = moduleCount w.core ∧
      Pages (fun start => modulesPage w.core start none) none (d.modules.map (fun m => (m.address, m))) := by
  have hi := inv_run h0 h
  rcases voting_some h hv with h1 | ⟨i, h1⟩
  · obtain ⟨v, h2⟩ := Option.isSome_iff_exists.1 h1
    have hd : dumpState w.core b' = .ok ⟨w.core.admin, w.core.config, pauseInfo w.core b',
        (range w.core.modules none .asc).map Prod.snd, v, w.core.active, w.core.total⟩ := by
      simp only [dumpState, h2, orErr, ok_bind]
    refine ⟨_, hd, rfl, rfl, rfl, ?_, ?_, rfl, ?_⟩
    · rw [← voting_last h, h2]
    · simp only [votingModule, h2, orErr]
    · simp only [values_addr hi.wf hi.addr]
      refine pages_paginate (limit := none) hi.wf (by simp) (fun start => ?_)
      simp only [modulesPage, paginateValues, paginateMap, values_addr hi.wf hi.addr]
  · rw [hs] at h1; cases h1

/-- A new DAO has its voting module to be made first. -/
theorem C106_new_voting {me : Addr} {config : Config} {admin : Option Addr} {voting : Nat} {proposals : List Nat}
    {items : List (Nat × Nat)} {s : State} {out : List Sub}
    (h : instantiate me config admin voting proposals items = .ok (s, out)) :
    ∃ i, Sub.create .votingModule i ∈ (⟨s, out⟩ : World).stack := by
  simp only [instantiate, bind_ok, require_ok, Except.ok.injEq, Prod.mk.injEq] at h
  obtain ⟨_, _, _, _, _, rfl⟩ := h
  exact ⟨voting, List.mem_cons_self ..⟩

/-- **C106.** Following the pages of `ListItems` and `ListSubDaos` shows what was last set, once: see `C51_items` and
`C51_subDaos`. -/
theorem C106_lists {w0 w : World} {b0 b : Block} {log : List Event} (h0 : Init b0 w0) (h : sys.Run w0 b0 log w b)
    (limit : Option Nat) (hl : limit ≠ some 0) :
    (∃ l, Pages (fun start => itemsPage w.core start limit) none l ∧ InOrder .desc l ∧
      ∀ k v, (k, v) ∈ l ↔ itemAfter w0.core k log = some v) ∧
    (∃ l, Pages (fun start => subDaosPage w.core start limit) none l ∧ InOrder .asc l ∧
      ∀ a c, (a, c) ∈ l ↔ subDaoAfter w0.core a log = some c) := by
  have hw := wfs_run h0 h
  refine ⟨⟨_, pages_paginate hw.items hl (fun _ => rfl), range_inOrder hw.items none .desc, ?_⟩,
    ⟨_, pages_paginate hw.subDaos hl (fun _ => rfl), range_inOrder hw.subDaos none .asc, ?_⟩⟩
  · intro k v; rw [mem_all hw.items, C51_items h]
  · intro a c; rw [mem_all hw.subDaos, C51_subDaos h0 h]

/-! ## Balances -/

theorem mapM_error {X Y : Type} {f : X → Res Y} {l : List X} {x : X} (hx : x ∈ l) {err : Err} (h : f x = .error err) :
    ∀ r, l.mapM f ≠ .ok r := by
  induction l with
  | nil => cases hx
  | cons y l ih =>
    intro r hr
    rw [List.mapM_cons, bind_ok] at hr
    obtain ⟨a, h1, hr⟩ := hr
    rw [bind_ok] at hr
    obtain ⟨as, h2, hr⟩ := hr
    rcases List.mem_cons.1 hx with e | e
    · rw [← e, h] at h1; cases h1
    · exact ih e as h2

/-- **C107 (partial).** While every token on the list answers, following the pages of `Cw20Balances` shows the DAO's
balance of every token on the list, once. Missing is that the tokens answer: see `C107_blocked`. -/
theorem C107_balances_partial {w0 w : World} {b0 b : Block} {log : List Event} (h0 : Init b0 w0)
    (h : sys.Run w0 b0 log w b) (limit : Option Nat) (hl : limit ≠ some 0) (balance : Addr → Option Nat)
    (hb : ∀ a, cw20After w0.core a log → (balance a).isSome = true) :
    ∃ l, Pages (fun start => balancesPage w.core balance start limit) none l ∧ InOrder .desc l ∧
      ∀ a n, (a, n) ∈ l ↔ cw20After w0.core a log ∧ balance a = some n := by
  have hw := (wfs_run h0 h).cw20s
  have hc := C51_cw20s h0 h
  have hmem : ∀ start, ∀ x ∈ range w.core.cw20s start .desc, cw20After w0.core x.1 log := by
    intro start x hx
    rw [← hc, AMap.get_of_mem hw (mem_range.1 hx).1]; rfl
  have hone : ∀ a, cw20After w0.core a log → cw20Balance balance a = .ok (a, (balance a).getD 0) := by
    intro a ha
    obtain ⟨n, hn⟩ := Option.isSome_iff_exists.1 (hb a ha)
    simp only [cw20Balance, hn, orErr, ok_bind, Option.getD_some]
  have hpage : ∀ start, balancesPage w.core balance start limit =
      .ok ((paginateMap w.core.cw20s start limit .desc).map (fun x => (x.1, (balance x.1).getD 0))) := by
    intro start
    unfold balancesPage paginateKeys paginateMap
    cases limit with
    | none =>
      simp only
      rw [mapM_ok (g := fun a => (a, (balance a).getD 0)), List.map_map]
      · rfl
      · intro a ha
        obtain ⟨x, hx, rfl⟩ := List.mem_map.1 ha
        exact hone _ (hmem start x hx)
    | some n =>
      simp only
      rw [mapM_ok (g := fun a => (a, (balance a).getD 0)), ← List.map_take, List.map_map]
      · rfl
      · intro a ha
        obtain ⟨x, hx, rfl⟩ := List.mem_map.1 (List.mem_of_mem_take ha)
        exact hone _ (hmem start x hx)
  have key : Pages (fun start => balancesPage w.core balance start limit) none
      ((range w.core.cw20s none .desc).map (fun x => (x.1, (balance x.1).getD 0))) := by
    cases limit with
    | some n =>
      exact pages_keyed (g := fun x => (balance x.1).getD 0) hw (n := n) (by cases n <;> simp at hl ⊢) hpage none
    | none =>
      refine pages_keyed (g := fun x => (balance x.1).getD 0) hw (n := w.core.cw20s.length + 1) (by omega)
        (fun start => ?_) none
      simp only [hpage, paginateMap]
      rw [List.take_of_length_le (Nat.le_succ_of_le range_length)]
  refine ⟨_, key, ?_, ?_⟩
  · have := range_inOrder hw none .desc
    unfold InOrder at this ⊢
    simp only [List.pairwise_map] at this ⊢
    exact this
  · intro a n
    rw [List.mem_map]
    constructor
    · rintro ⟨x, hx, e⟩
      simp only [Prod.mk.injEq] at e
      obtain ⟨rfl, e⟩ := e
      have h1 := hmem none x hx
      obtain ⟨k, hk⟩ := Option.isSome_iff_exists.1 (hb _ h1)
      rw [hk] at e
      simp only [Option.getD_some] at e
      exact ⟨h1, by rw [hk, e]⟩
    · rintro ⟨h1, h2⟩
      rw [← hc] at h1
      obtain ⟨u, hu⟩ := Option.isSome_iff_exists.1 h1
      exact ⟨(a, u), (mem_all hw).2 hu, by simp [h2]⟩

/-- C107: why it is only partial. If tokens that are received are put on the list, anybody at all can say that they
have been, whether or not they are a token: one call, of nothing, and `Cw20Balances` without limits fails from then on,
until the caller is taken off the list. -/
theorem C107_blocked {w : World} {b : Block} {log : List Event} (h : sys.Reach w b log) (e : Env) (sender : Addr)
    (balance : Addr → Option Nat) (ha : w.core.config.autoCw20 = true) (hp : ¬ Paused w.core e.block)
    (hs : sender ≠ w.core.me) (hb : balance sender = none) :
    ∃ w', sys.step w e (.call sender .receive) = .ok (w', []) ∧ ∀ r, balancesPage w'.core balance none none ≠ .ok r := by
  have hn : isPaused w.core e.block = false := by
    cases h : isPaused w.core e.block
    · rfl
    · exact absurd ((paused_iff _ _).1 h) hp
  have hw : AMap.WF w.core.cw20s := by
    obtain ⟨b0, w0, h0, hr⟩ := h
    exact (wfs_run h0 hr).cw20s
  refine ⟨⟨{ w.core with cw20s := w.core.cw20s.set sender () }, w.stack⟩, ?_, ?_⟩
  · simp only [sys, step, execute, dispatch, receiveCw20, ha, hn, hs, ne_eq, not_false_eq_true, decide_true, require, if_true,
      ok_bind, Bool.not_false, Bool.true_or, List.nil_append]
  · refine mapM_error (x := sender) (err := .invalid) ?_ (by simp only [cw20Balance, hb, orErr, error_bind])
    have : (sender, ()) ∈ range (w.core.cw20s.set sender ()) none .desc :=
      (mem_all (AMap.WF_set hw _ _)).2 (by rw [AMap.get_set]; simp)
    exact List.mem_map.2 ⟨_, this, rfl⟩

/-- C107: the DAO can always take an address off the list again, whether or not it answers. -/
theorem C107_repair {w : World} {b : Block} {log : List Event} (h : sys.Reach w b log) (e : Env) (bad : List Addr) :
    ∃ s, execute w.core e w.core.me (.updateCw20List [] bad) = .ok (s, []) ∧
      ∀ a, (s.cw20s.get a).isSome = true ↔ (w.core.cw20s.get a).isSome = true ∧ a ∉ bad := by
  have hw : AMap.WF w.core.cw20s := by
    obtain ⟨b0, w0, h0, hr⟩ := h
    exact (wfs_run h0 hr).cw20s
  refine ⟨{ w.core with cw20s := removeAddrs w.core.cw20s bad }, ?_, ?_⟩
  · simp only [execute, dispatch, updateCw20s, updateAddrs, addAddrs, decide_true, Bool.or_true, Bool.true_or, require,
      if_true, ok_bind]
  · intro a
    rw [(get_removeAddrs _ hw bad a).1]
    by_cases hin : a ∈ bad <;> simp [hin]

/-! ## Examples -/

/-- C106: the DAO of `C47_example`, with one module active of three, paused until block 13. -/
theorem C106_example : ∃ w b log, sys.Run w0 ⟨0, 0⟩ log w b ∧ w.stack.isEmpty = true ∧
    pauseInfo w.core ⟨12, 12⟩ = .paused (.atHeight 13) ∧ pauseInfo w.core ⟨13, 13⟩ = .unpaused ∧
    activePage w.core none none = .ok [(13, ⟨13, [2], true⟩)] ∧
    modulesPage w.core none (some 2) = .ok [(11, ⟨11, [0], false⟩), (12, ⟨12, [1], false⟩)] ∧
    modulesPage w.core (some 12) (some 2) = .ok [(13, ⟨13, [2], true⟩)] ∧ moduleCount w.core = (1, 3) ∧
    subDaosPage w.core none none = .ok [(70, none), (71, some 2)] ∧
    balancesPage w.core (fun a => some (a + 1)) none none = .ok [(80, 81), (1, 2)] ∧
    dumpState w.core ⟨12, 12⟩ = .ok ⟨1, ⟨0, true, false⟩, .paused (.atHeight 13),
      [⟨11, [0], false⟩, ⟨12, [1], false⟩, ⟨13, [2], true⟩], 10, 1, 3⟩ := by
  obtain ⟨w, b, log, hr, hp⟩ := Sys.check_run (M := sys) (s := w0) (b := ⟨0, 0⟩) (cs := setup ++ office)
    (p := fun w _ _ => decide (w.stack.isEmpty = true ∧
      pauseInfo w.core ⟨12, 12⟩ = .paused (.atHeight 13) ∧ pauseInfo w.core ⟨13, 13⟩ = .unpaused ∧
      activePage w.core none none = .ok [(13, ⟨13, [2], true⟩)] ∧
      modulesPage w.core none (some 2) = .ok [(11, ⟨11, [0], false⟩), (12, ⟨12, [1], false⟩)] ∧
      modulesPage w.core (some 12) (some 2) = .ok [(13, ⟨13, [2], true⟩)] ∧ moduleCount w.core = (1, 3) ∧
      subDaosPage w.core none none = .ok [(70, none), (71, some 2)] ∧
      balancesPage w.core (fun a => some (a + 1)) none none = .ok [(80, 81), (1, 2)] ∧
      dumpState w.core ⟨12, 12⟩ = .ok ⟨1, ⟨0, true, false⟩, .paused (.atHeight 13),
        [⟨11, [0], false⟩, ⟨12, [1], false⟩, ⟨13, [2], true⟩], 10, 1, 3⟩)) (by decide +kernel)
  exact ⟨w, b, log, hr, of_decide_eq_true hp⟩

/-- C107: a DAO of the example whose balances can be listed, until 66, which is no token, calls it. -/
theorem C107_example : ∃ w b log, sys.Run w0 ⟨0, 0⟩ log w b ∧
    balancesPage w.core (fun a => if a = 66 then none else some 5) none none = .error .invalid := by
  obtain ⟨w, b, log, hr, hp⟩ := Sys.check_run (M := sys) (s := w0) (b := ⟨0, 0⟩)
    (cs := setup ++ [(env 3, .call 66 .receive)])
    (p := fun w _ _ => decide (balancesPage w.core (fun a => if a = 66 then none else some 5) none none =
      .error .invalid)) (by decide +kernel)
  exact ⟨w, b, log, hr, of_decide_eq_true hp⟩

end Verif.DaoCore
