import Verif.Props.Hooks
import Verif.Props.Cw20Stake
import Verif.Props.TokenStaked
import Verif.Spec.HookLists

/-! C60 for the contracts with listeners: in every history the listeners are those added and not removed since, in order
of addition, and every announcement goes to each of them once, in that order. -/

namespace Verif.HookLists
open Verif Verif.Hooks

/-- What a step does to the list of listeners. -/
def Follows (h : HookList) : Option Op → HookList → Prop
  | none, h' => h' = h
  | some (.add a), h' => addHook h a = .ok h'
  | some (.remove a), h' => removeHook h a = .ok h'

theorem lists {S E C O : Type} {M : Sys S E C O} {hk : S → HookList} {op : C → Option Op}
    (hinit : ∀ b s, M.init b s → items (hk s) = [])
    (hstep : ∀ s e c s' o, M.step s e c = .ok (s', o) → Follows (hk s) (op c) (hk s'))
    {s : S} {b : Block} {log : List (Ev S E C O)} (h : M.Reach s b log) :
    items (hk s) = listed (changes op log) ∧ (items (hk s)).Nodup := by
  obtain ⟨b0, s0, h0, hr⟩ := h
  induction hr with
  | refl => rw [hinit _ _ h0]; exact ⟨rfl, List.nodup_nil⟩
  | @step s1 s2 b1 l env call out hr hb hs ih =>
    obtain ⟨ih1, ih2⟩ := ih
    have hf := hstep _ _ _ _ _ hs
    unfold changes at ih1 ⊢
    cases ho : op call with
    | none =>
      rw [ho] at hf
      rw [show hk s2 = hk s1 from hf, List.filterMap_cons_none (by simpa using ho)]
      exact ⟨ih1, ih2⟩
    | some x =>
      rw [ho] at hf
      rw [List.filterMap_cons_some (b := x) (by simpa using ho)]
      cases x with
      | add a =>
        have ha : a ∉ items (hk s1) := fun ha => C60_add.1 ha _ hf
        have hf' := hf
        change addHook _ _ = _ at hf'
        rw [C60_add.2 ha] at hf'
        injection hf' with hf'
        refine ⟨?_, Single.addHook_nodup ih2 hf⟩
        rw [← hf', listed, ← ih1]; rfl
      | remove a =>
        refine ⟨?_, Single.removeHook_nodup ih2 hf⟩
        rw [C60_remove_exact ih2 hf, listed, ← ih1]

/-- The list before an event of a history. -/
theorem lists_at {S E C O : Type} {M : Sys S E C O} {hk : S → HookList} {op : C → Option Op}
    (hinit : ∀ b s, M.init b s → items (hk s) = [])
    (hstep : ∀ s e c s' o, M.step s e c = .ok (s', o) → Follows (hk s) (op c) (hk s'))
    {s : S} {b : Block} {l2 l1 : List (Ev S E C O)} {e : Ev S E C O} (h : M.Reach s b (l2 ++ e :: l1)) :
    items (hk e.pre) = listed (changes op l1) ∧ M.step e.pre e.env e.call = .ok (e.post, e.out) := by
  obtain ⟨b0, s0, h0, hrun⟩ := h
  suffices hx : ∀ l s b, M.Run s0 b0 l s b → ∀ l2, l = l2 ++ e :: l1 →
      (∃ b1, M.Run s0 b0 l1 e.pre b1) ∧ M.step e.pre e.env e.call = .ok (e.post, e.out) by
    obtain ⟨⟨b1, hr1⟩, hs⟩ := hx _ _ _ hrun l2 rfl
    exact ⟨(lists hinit hstep ⟨b0, s0, h0, hr1⟩).1, hs⟩
  clear hrun
  intro l s b hr
  induction hr with
  | refl => intro l2 hl; cases l2 <;> cases hl
  | step hr1 hb hs ih =>
    intro l2 hl
    cases l2 with
    | nil =>
      obtain ⟨rfl, rfl⟩ := List.cons.inj hl
      exact ⟨⟨_, hr1⟩, hs⟩
    | cons x l2 => exact ih l2 (List.cons.inj hl).2

theorem prepared {α : Type} (h : HookList) (f : Addr → α) :
    prepareHooks h (fun _ r => f r) = (items h).map f := by
  unfold prepareHooks
  rw [show (fun p : Addr × Nat => f p.1) = f ∘ Prod.fst from rfl, ← List.map_map]
  rw [List.zipIdx_map_fst]

end Verif.HookLists

namespace Verif.TokenStaked
open Verif Verif.HookLists Verif.Hooks

theorem settle_listeners {w w' : World} {c : State} {out out' : Out} (h : settle w c out = .ok (w', out')) :
    w'.c = c ∧ out' = out := by
  unfold settle at h
  split at h
  · simp only [Except.ok.injEq, Prod.mk.injEq] at h
    obtain ⟨rfl, rfl⟩ := h
    exact ⟨rfl, rfl⟩
  · simp only [bind_ok, Except.ok.injEq, Prod.mk.injEq] at h
    obtain ⟨_, _, rfl, rfl⟩ := h
    exact ⟨rfl, rfl⟩

theorem release_listeners {s s' : State} {b : Block} {a : Addr} {n : Nat} {l : List Cw20Stake.HookMsg} {out : Out}
    (h : release s b a n l = .ok (s', out)) : s'.hooks = s.hooks ∧ out.hooks = l := by
  unfold release at h
  split at h
  · simp only [Except.ok.injEq, Prod.mk.injEq] at h
    obtain ⟨rfl, rfl⟩ := h
    exact ⟨rfl, rfl⟩
  · split at h
    · cases h
    · simp only [Except.ok.injEq, Prod.mk.injEq] at h
      obtain ⟨rfl, rfl⟩ := h
      exact ⟨rfl, rfl⟩

theorem hookMsgs_eq (h : HookList) (k : Bool) (a : Addr) (n : Nat) :
    Cw20Stake.hookMsgs h k a n = (items h).map (fun r => ⟨r, k, a, n⟩) := prepared h _

theorem listeners_step {w w' : World} {b : Block} {c : Call} {o : Out} (h : step w b c = .ok (w', o)) :
    Follows w.c.hooks (listenerOp c) w'.c.hooks ∧ o.hooks = news (items w.c.hooks) c := by
  cases c with
  | exec a m =>
    simp only [step, bind_ok, require_ok, Prod.exists] at h
    obtain ⟨_, _, c1, o1, hx, hs⟩ := h
    obtain ⟨h1, rfl⟩ := settle_listeners hs
    rw [h1]
    cases m with
    | unstake n =>
      simp only [exec, execUnstake, bind_ok, require_ok] at hx
      obtain ⟨_, _, _, _, _, _, hx⟩ := hx
      obtain ⟨h2, h3⟩ := release_listeners hx
      exact ⟨h2, h3.trans (hookMsgs_eq _ _ _ _)⟩
    | claim =>
      simp only [exec, execClaim, bind_ok, require_ok, Prod.exists, Except.ok.injEq, Prod.mk.injEq] at hx
      obtain ⟨_, _, _, _, _, rfl, rfl⟩ := hx
      exact ⟨rfl, rfl⟩
    | updateConfig d =>
      simp only [exec, bind_ok, require_ok, Except.ok.injEq, Prod.mk.injEq] at hx
      obtain ⟨_, _, _, _, rfl, rfl⟩ := hx
      exact ⟨rfl, rfl⟩
    | updateActiveThreshold t =>
      simp only [exec, bind_ok, require_ok, Except.ok.injEq, Prod.mk.injEq] at hx
      obtain ⟨_, _, _, _, rfl, rfl⟩ := hx
      exact ⟨rfl, rfl⟩
    | addHook t =>
      simp only [exec, bind_ok, require_ok, Except.ok.injEq, Prod.mk.injEq] at hx
      obtain ⟨_, _, _, hh, rfl, rfl⟩ := hx
      exact ⟨hh, rfl⟩
    | removeHook t =>
      simp only [exec, bind_ok, require_ok, Except.ok.injEq, Prod.mk.injEq] at hx
      obtain ⟨_, _, _, hh, rfl, rfl⟩ := hx
      exact ⟨hh, rfl⟩
  | stake a n =>
    simp only [step, execStake, bind_ok, require_ok, Prod.exists, Except.ok.injEq, Prod.mk.injEq] at h
    obtain ⟨_, _, _, _, _, _, ⟨_, _, _, _, _, _, rfl, rfl⟩, rfl, rfl⟩ := h
    exact ⟨rfl, hookMsgs_eq _ _ _ _⟩
  | transfer a t n =>
    simp only [step, bind_ok, require_ok, Except.ok.injEq, Prod.mk.injEq] at h
    obtain ⟨_, _, _, _, rfl, rfl⟩ := h
    exact ⟨rfl, rfl⟩
  | mint t n =>
    simp only [step, bind_ok, require_ok, Except.ok.injEq, Prod.mk.injEq] at h
    obtain ⟨_, _, _, _, rfl, rfl⟩ := h
    exact ⟨rfl, rfl⟩
  | burn t n =>
    simp only [step, bind_ok, require_ok, Except.ok.injEq, Prod.mk.injEq] at h
    obtain ⟨_, _, _, _, rfl, rfl⟩ := h
    exact ⟨rfl, rfl⟩

theorem listeners_init {b : Block} {w : World} (h : sys.init b w) : items w.c.hooks = [] := by
  obtain ⟨dao, d, t, h, _⟩ := h
  simp only [instantiate, bind_ok, Except.ok.injEq] at h
  obtain ⟨_, _, _, _, h⟩ := h
  rw [← h]; rfl

/-- **C60**, dao-voting-token-staked: the listeners are those added and not removed since, in order of addition, each
once; every stake and unstake was announced to each of those listening at the time, in that order, and nothing else. -/
theorem C60_listeners {w : World} {b : Block} {log : List (Ev World Block Call Out)} (h : sys.Reach w b log) :
    items w.c.hooks = listed (changes listenerOp log) ∧ (items w.c.hooks).Nodup ∧
    ∀ l2 e l1, log = l2 ++ e :: l1 → e.out.hooks = news (listed (changes listenerOp l1)) e.call := by
  have hstep : ∀ s e c s' o, sys.step s e c = .ok (s', o) → Follows s.c.hooks (listenerOp c) s'.c.hooks :=
    fun _ _ _ _ _ hs => (listeners_step hs).1
  obtain ⟨h1, h2⟩ := lists (hk := fun w => w.c.hooks) (fun _ _ => listeners_init) hstep h
  refine ⟨h1, h2, ?_⟩
  rintro l2 e l1 rfl
  obtain ⟨h3, h4⟩ := lists_at (hk := fun w => w.c.hooks) (fun _ _ => listeners_init) hstep h
  rw [← h3]
  exact (listeners_step h4).2

end Verif.TokenStaked

namespace Verif.Cw20Stake
open Verif Verif.HookLists Verif.Hooks

theorem settle_listeners {w w' : World} {c : State} {out out' : Out} (h : settle w c out = .ok (w', out')) :
    w'.c = c ∧ out' = out := by
  unfold settle at h
  split at h
  · simp only [Except.ok.injEq, Prod.mk.injEq] at h
    obtain ⟨rfl, rfl⟩ := h
    exact ⟨rfl, rfl⟩
  · simp only [bind_ok, Except.ok.injEq, Prod.mk.injEq] at h
    obtain ⟨_, _, rfl, rfl⟩ := h
    exact ⟨rfl, rfl⟩

theorem release_listeners {s s' : State} {b : Block} {a : Addr} {n : Nat} {l : List HookMsg} {out : Out}
    (h : release s b a n l = .ok (s', out)) : s'.hooks = s.hooks ∧ out.hooks = l := by
  unfold release at h
  split at h
  · simp only [Except.ok.injEq, Prod.mk.injEq] at h
    obtain ⟨rfl, rfl⟩ := h
    exact ⟨rfl, rfl⟩
  · split at h
    · cases h
    · simp only [Except.ok.injEq, Prod.mk.injEq] at h
      obtain ⟨rfl, rfl⟩ := h
      exact ⟨rfl, rfl⟩

theorem hookMsgs_eq (h : HookList) (k : Bool) (a : Addr) (n : Nat) :
    hookMsgs h k a n = (items h).map (fun r => ⟨r, k, a, n⟩) := prepared h _

theorem listeners_step {w w' : World} {b : Block} {c : Call} {o : Out} (h : step w b c = .ok (w', o)) :
    Follows w.c.hooks (listenerOp c) w'.c.hooks ∧ o.hooks = news (items w.c.hooks) ⟨w, b, c, o, w'⟩ := by
  obtain ⟨hn1, hn2, _⟩ := hooks_announce h
  cases c with
  | exec a m =>
    simp only [step, bind_ok, require_ok, Prod.exists] at h
    obtain ⟨_, ha, c1, o1, hx, hs⟩ := h
    obtain ⟨h1, rfl⟩ := settle_listeners hs
    have hc := h1
    subst h1
    cases m with
    | receive x n r =>
      simp only [exec, execReceive, bind_ok, require_ok] at hx
      obtain ⟨_, hx, _⟩ := hx
      exact absurd (of_decide_eq_true hx) (of_decide_eq_true ha).1
    | unstake n =>
      refine ⟨?_, (hn2 a n rfl).trans (hookMsgs_eq _ _ _ _)⟩
      simp only [exec, execUnstake, bind_ok, require_ok] at hx
      obtain ⟨_, _, _, _, _, _, _, _, _, _, _, _, _, _, hx⟩ := hx
      exact (release_listeners hx).1
    | claim =>
      simp only [exec, execClaim, bind_ok, require_ok, Prod.exists, Except.ok.injEq, Prod.mk.injEq] at hx
      obtain ⟨_, _, _, _, _, hx, rfl⟩ := hx
      exact ⟨by rw [← hx]; rfl, rfl⟩
    | updateConfig d =>
      simp only [exec, execUpdateConfig, bind_ok, require_ok, Except.ok.injEq, Prod.mk.injEq] at hx
      obtain ⟨_, _, _, _, hx, rfl⟩ := hx
      exact ⟨by rw [← hx]; rfl, rfl⟩
    | updateOwnership t =>
      simp only [exec, bind_ok, require_ok, Except.ok.injEq, Prod.mk.injEq] at hx
      obtain ⟨_, _, hx, rfl⟩ := hx
      exact ⟨by rw [← hx]; rfl, rfl⟩
    | addHook t =>
      simp only [exec, bind_ok, require_ok, Except.ok.injEq, Prod.mk.injEq] at hx
      obtain ⟨_, _, _, hh, hx, rfl⟩ := hx
      exact ⟨by rw [← hx]; exact hh, rfl⟩
    | removeHook t =>
      simp only [exec, bind_ok, require_ok, Except.ok.injEq, Prod.mk.injEq] at hx
      obtain ⟨_, _, _, hh, hx, rfl⟩ := hx
      exact ⟨by rw [← hx]; exact hh, rfl⟩
  | send a n m =>
    simp only [step, exec, execReceive, bind_ok, require_ok, Prod.exists] at h
    obtain ⟨_, _, l, _, c1, o1, ⟨_, _, hx⟩, hs⟩ := h
    obtain ⟨h1, rfl⟩ := settle_listeners hs
    cases m with
    | stake =>
      refine ⟨?_, (hn1 a n rfl).trans (hookMsgs_eq _ _ _ _)⟩
      simp only [execStake, bind_ok, Except.ok.injEq, Prod.mk.injEq] at hx
      obtain ⟨_, _, _, _, _, _, _, _, hx, _⟩ := hx
      rw [h1, ← hx]; rfl
    | fund =>
      simp only [execFund, bind_ok, Except.ok.injEq, Prod.mk.injEq] at hx
      obtain ⟨_, _, hx, rfl⟩ := hx
      exact ⟨by rw [h1, ← hx]; rfl, rfl⟩
  | transfer a t n =>
    simp only [step, bind_ok, require_ok, Except.ok.injEq, Prod.mk.injEq] at h
    obtain ⟨_, _, _, _, rfl, rfl⟩ := h
    exact ⟨rfl, rfl⟩
  | mint t n =>
    simp only [step, bind_ok, require_ok, Except.ok.injEq, Prod.mk.injEq] at h
    obtain ⟨_, _, _, _, rfl, rfl⟩ := h
    exact ⟨rfl, rfl⟩
  | burn t n =>
    simp only [step, bind_ok, require_ok, Except.ok.injEq, Prod.mk.injEq] at h
    obtain ⟨_, _, _, _, rfl, rfl⟩ := h
    exact ⟨rfl, rfl⟩

theorem listeners_init {b : Block} {w : World} (h : sys.init b w) : items w.c.hooks = [] := by
  obtain ⟨_, _, _, h, _⟩ := h
  simp only [instantiate, bind_ok, Except.ok.injEq] at h
  obtain ⟨_, _, h⟩ := h
  rw [← h]; rfl

/-- **C60**, cw20-stake: the listeners are those added and not removed since, in order of addition, each once; every stake and
unstake was announced to each of those listening at the time, in that order, with the change of the stake, and nothing else. -/
theorem C60_listeners {w : World} {b : Block} {log : List (Ev World Block Call Out)} (h : sys.Reach w b log) :
    items w.c.hooks = listed (changes listenerOp log) ∧ (items w.c.hooks).Nodup ∧
    ∀ l2 e l1, log = l2 ++ e :: l1 → e.out.hooks = news (listed (changes listenerOp l1)) e := by
  have hstep : ∀ s e c s' o, sys.step s e c = .ok (s', o) → Follows s.c.hooks (listenerOp c) s'.c.hooks :=
    fun _ _ _ _ _ hs => (listeners_step hs).1
  obtain ⟨h1, h2⟩ := lists (hk := fun w => w.c.hooks) (fun _ _ => listeners_init) hstep h
  refine ⟨h1, h2, ?_⟩
  rintro l2 e l1 rfl
  obtain ⟨h3, h4⟩ := lists_at (hk := fun w => w.c.hooks) (fun _ _ => listeners_init) hstep h
  rw [← h3]
  exact (listeners_step h4).2

end Verif.Cw20Stake

namespace Verif.NftStaked
open Verif Verif.HookLists Verif.Hooks

theorem release_listeners {s s' : State} {b : Block} {a : Addr} {n : List Tok} {l : List HookMsg} {out : Out}
    (h : release s b a n l = .ok (s', out)) : s'.hooks = s.hooks ∧ out.hooks = l := by
  unfold release at h
  split at h
  · simp only [Except.ok.injEq, Prod.mk.injEq] at h
    obtain ⟨rfl, rfl⟩ := h
    exact ⟨rfl, rfl⟩
  · split at h
    · cases h
    · simp only [Except.ok.injEq, Prod.mk.injEq] at h
      obtain ⟨rfl, rfl⟩ := h
      exact ⟨rfl, rfl⟩

theorem hookMsgs_eq (h : HookList) (k : Bool) (a : Addr) (n : List Tok) :
    hookMsgs h k a n = (items h).map (fun r => ⟨r, k, a, n⟩) := prepared h _

/-- The messages about listeners. -/
def msgOp : Msg → Option Op
  | .addHook a => some (.add a)
  | .removeHook a => some (.remove a)
  | _ => none

/-- What they are told. -/
def msgNews (l : List Addr) (sender : Addr) : Msg → List HookMsg
  | .receiveNft a t => l.map (fun r => ⟨r, true, a, [t]⟩)
  | .unstake ts => l.map (fun r => ⟨r, false, sender, ts⟩)
  | _ => []

theorem listeners_exec {s s' : State} {b : Block} {n : Nat} {a : Addr} {m : Msg} {o : Out}
    (hx : exec s b n a m = .ok (s', o)) :
    Follows s.hooks (msgOp m) s'.hooks ∧ o.hooks = msgNews (items s.hooks) a m := by
  cases m with
  | receiveNft x t =>
    simp only [exec, execStake, registerStaked, bind_ok, require_ok, Except.ok.injEq, Prod.mk.injEq] at hx
    obtain ⟨_, _, _, ⟨_, _, _, _, rfl⟩, rfl, rfl⟩ := hx
    exact ⟨rfl, hookMsgs_eq _ _ _ _⟩
  | unstake ts =>
    simp only [exec, execUnstake, registerUnstaked, bind_ok, require_ok, Except.ok.injEq] at hx
    obtain ⟨_, _, _, ⟨_, _, _, _, _, _, _, _, _, _, rfl⟩, hx⟩ := hx
    obtain ⟨h2, h3⟩ := release_listeners hx
    exact ⟨h2, h3.trans (hookMsgs_eq _ _ _ _)⟩
  | claimNfts =>
    simp only [exec, execClaim, bind_ok, require_ok, Except.ok.injEq, Prod.mk.injEq] at hx
    obtain ⟨_, _, rfl, rfl⟩ := hx
    exact ⟨rfl, rfl⟩
  | updateConfig d =>
    simp only [exec, bind_ok, require_ok, Except.ok.injEq, Prod.mk.injEq] at hx
    obtain ⟨_, _, _, _, rfl, rfl⟩ := hx
    exact ⟨rfl, rfl⟩
  | updateActiveThreshold t =>
    simp only [exec, bind_ok, require_ok, Except.ok.injEq, Prod.mk.injEq] at hx
    obtain ⟨_, _, _, _, rfl, rfl⟩ := hx
    exact ⟨rfl, rfl⟩
  | addHook t =>
    simp only [exec, bind_ok, require_ok, Except.ok.injEq, Prod.mk.injEq] at hx
    obtain ⟨_, _, _, hh, rfl, rfl⟩ := hx
    exact ⟨hh, rfl⟩
  | removeHook t =>
    simp only [exec, bind_ok, require_ok, Except.ok.injEq, Prod.mk.injEq] at hx
    obtain ⟨_, _, _, hh, rfl, rfl⟩ := hx
    exact ⟨hh, rfl⟩

theorem listeners_step {w w' : World} {b : Block} {c : Call} {o : Out} (h : step w b c = .ok (w', o)) :
    Follows w.c.hooks (listenerOp c) w'.c.hooks ∧ o.hooks = news (items w.c.hooks) c := by
  cases c with
  | exec a m =>
    simp only [step, bind_ok, require_ok, Prod.exists, Except.ok.injEq, Prod.mk.injEq] at h
    obtain ⟨_, ha, c1, o1, hx, _, _, rfl, rfl⟩ := h
    have hm := listeners_exec hx
    cases m with
    | receiveNft x t =>
      simp only [exec, execStake, bind_ok, require_ok] at hx
      obtain ⟨_, hx, _⟩ := hx
      exact absurd (of_decide_eq_true hx) (of_decide_eq_true ha).2
    | _ => exact hm
  | send a t =>
    simp only [step, bind_ok, require_ok, Prod.exists, Except.ok.injEq, Prod.mk.injEq] at h
    obtain ⟨_, _, c1, o1, hx, rfl, rfl⟩ := h
    exact listeners_exec hx
  | transfer a t n =>
    simp only [step, bind_ok, require_ok, Except.ok.injEq, Prod.mk.injEq] at h
    obtain ⟨_, _, rfl, rfl⟩ := h
    exact ⟨rfl, rfl⟩
  | mint t n =>
    simp only [step, bind_ok, require_ok, Except.ok.injEq, Prod.mk.injEq] at h
    obtain ⟨_, _, rfl, rfl⟩ := h
    exact ⟨rfl, rfl⟩
  | burn t n =>
    simp only [step, bind_ok, require_ok, Except.ok.injEq, Prod.mk.injEq] at h
    obtain ⟨_, _, rfl, rfl⟩ := h
    exact ⟨rfl, rfl⟩

theorem instantiate_hooks {b : Block} {dao nft : Addr} {n : Option Nat} {d : Option Duration}
    {t : Option Active.ActiveThreshold} {s : State} (h : instantiate b dao nft n d t = .ok s) : items s.hooks = [] := by
  simp only [instantiate, bind_ok, Except.ok.injEq] at h
  obtain ⟨_, _, _, _, h⟩ := h
  rw [← h]; rfl

theorem listeners_init {b : Block} {w : World} (h : sys.init b w) : items w.c.hooks = [] := by
  obtain ⟨_, _, _, _, _, h, _⟩ := h
  exact instantiate_hooks h

/-- **C60**, dao-voting-cw721-staked: the listeners are those added and not removed since, in order of addition, each once;
every stake and unstake was announced to each of those listening at the time, in that order, and nothing else. -/
theorem C60_listeners {w : World} {b : Block} {log : List (Ev World Block Call Out)} (h : sys.Reach w b log) :
    items w.c.hooks = listed (changes listenerOp log) ∧ (items w.c.hooks).Nodup ∧
    ∀ l2 e l1, log = l2 ++ e :: l1 → e.out.hooks = news (listed (changes listenerOp l1)) e.call := by
  have hstep : ∀ s e c s' o, sys.step s e c = .ok (s', o) → Follows s.c.hooks (listenerOp c) s'.c.hooks :=
    fun _ _ _ _ _ hs => (listeners_step hs).1
  obtain ⟨h1, h2⟩ := lists (hk := fun w => w.c.hooks) (fun _ _ => listeners_init) hstep h
  refine ⟨h1, h2, ?_⟩
  rintro l2 e l1 rfl
  obtain ⟨h3, h4⟩ := lists_at (hk := fun w => w.c.hooks) (fun _ _ => listeners_init) hstep h
  rw [← h3]
  exact (listeners_step h4).2

end Verif.NftStaked

namespace Verif.OnftStaked
open Verif Verif.HookLists Verif.Hooks

theorem filter_hookMsgs {l : List Addr} (hl : l.Nodup) {r : Addr} (hr : r ∈ l) (f : Addr → NftStaked.HookMsg)
    (hf : ∀ x, (f x).to = x) : (l.map f).filter (fun m => decide (m.to = r)) = [f r] := by
  rw [List.filter_map]
  have : l.filter ((fun m : NftStaked.HookMsg => decide (m.to = r)) ∘ f) = [r] := by
    have h1 : l.filter ((fun m : NftStaked.HookMsg => decide (m.to = r)) ∘ f) = l.filter (fun x => x == r) := by
      refine List.filter_congr fun x _ => ?_
      simp only [Function.comp, hf]
      rfl
    rw [h1, List.filter_beq, List.count_eq_one_of_mem hl hr]; rfl
  rw [this]; rfl

theorem filter_all {ids : List Tok} {l : List Addr} (hl : l.Nodup) {r : Addr} (hr : r ∈ l) (a : Addr) :
    ((ids.map (fun t => l.map (fun x => (⟨x, true, a, [t]⟩ : NftStaked.HookMsg)))).flatten).filter
      (fun m => decide (m.to = r)) = ids.map (fun t => ⟨r, true, a, [t]⟩) := by
  induction ids with
  | nil => rfl
  | cons t ids ih =>
    rw [List.map_cons, List.flatten_cons, List.filter_append, ih,
      filter_hookMsgs hl hr (fun x => (⟨x, true, a, [t]⟩ : NftStaked.HookMsg)) (fun _ => rfl)]
    rfl

/-- What a step does to the listeners and tells them. -/
theorem listeners_step {w w' : World} {b : Block} {c : Call} {o : Out} (h : step w b c = .ok (w', o)) :
    Follows w.n.c.hooks (listenerOp c) w'.n.c.hooks ∧ ((items w.n.c.hooks).Nodup →
      (∀ r ∈ items w.n.c.hooks, o.hooks.filter (fun m => decide (m.to = r)) = newsFor r c) ∧
      ∀ m ∈ o.hooks, m.to ∈ items w.n.c.hooks) := by
  have quiet : ∀ {l : List NftStaked.HookMsg} {c : Call}, l = [] → (∀ r, newsFor r c = []) →
      ((∀ r ∈ items w.n.c.hooks, l.filter (fun m => decide (m.to = r)) = newsFor r c) ∧
      ∀ m ∈ l, m.to ∈ items w.n.c.hooks) := by
    rintro l c rfl hc
    exact ⟨fun r _ => (hc r).symm, fun m hm => absurd hm List.not_mem_nil⟩
  have shared : ∀ {m : NftStaked.Msg} {a : Addr} {r : World × Out}, execShared w b a m = .ok r →
      Follows w.n.c.hooks (NftStaked.msgOp m) r.1.n.c.hooks ∧
        r.2.hooks = NftStaked.msgNews (items w.n.c.hooks) a m := by
    intro m a r hx
    simp only [execShared, bind_ok, Except.ok.injEq] at hx
    obtain ⟨x, hx, rfl⟩ := hx
    exact NftStaked.listeners_exec hx
  cases c with
  | exec a m =>
    simp only [step, bind_ok, require_ok, Except.ok.injEq, Prod.mk.injEq] at h
    obtain ⟨_, ha, r, hx, _, _, rfl, rfl⟩ := h
    cases m with
    | prepareStake ts =>
      simp only [exec, execPrepare, bind_ok, require_ok, Except.ok.injEq] at hx
      obtain ⟨_, ⟨_, _, _, _, rfl⟩, rfl⟩ := hx
      exact ⟨rfl, fun _ => quiet rfl (fun _ => rfl)⟩
    | cancelStake ts rc =>
      simp only [exec, execCancel, bind_ok] at hx
      obtain ⟨_, _, hx⟩ := hx
      split at hx <;>
        (simp only [bind_ok, Except.ok.injEq] at hx
         obtain ⟨_, _, rfl⟩ := hx
         exact ⟨rfl, fun _ => quiet rfl (fun _ => rfl)⟩)
    | confirmStake ts =>
      simp only [exec, execConfirm, registerStaked, bind_ok, require_ok, Except.ok.injEq] at hx
      obtain ⟨_, _, _, _, _, ⟨_, _, _, _, rfl⟩, rfl⟩ := hx
      refine ⟨rfl, fun hn => ⟨fun r hr => ?_, fun m hm => ?_⟩⟩
      · simp only [NftStaked.hookMsgs_eq]
        exact filter_all hn hr a
      · simp only [NftStaked.hookMsgs_eq, List.mem_flatten, List.mem_map] at hm
        obtain ⟨_, ⟨t, _, rfl⟩, hm⟩ := hm
        obtain ⟨x, hx, rfl⟩ := List.mem_map.1 hm
        exact hx
    | unstake ts =>
      obtain ⟨h1, h2⟩ := shared hx
      refine ⟨h1, fun hn => ⟨fun r hr => ?_, fun m hm => ?_⟩⟩
      · rw [h2]
        exact filter_hookMsgs hn hr (fun x => (⟨x, false, a, ts⟩ : NftStaked.HookMsg)) (fun _ => rfl)
      · rw [h2] at hm
        obtain ⟨x, hx, rfl⟩ := List.mem_map.1 hm
        exact hx
    | claimNfts =>
      obtain ⟨h1, h2⟩ := shared hx
      exact ⟨h1, fun _ => quiet h2 (fun _ => rfl)⟩
    | updateConfig d =>
      obtain ⟨h1, h2⟩ := shared hx
      exact ⟨h1, fun _ => quiet h2 (fun _ => rfl)⟩
    | updateActiveThreshold t =>
      obtain ⟨h1, h2⟩ := shared hx
      exact ⟨h1, fun _ => quiet h2 (fun _ => rfl)⟩
    | addHook t =>
      obtain ⟨h1, h2⟩ := shared hx
      exact ⟨h1, fun _ => quiet h2 (fun _ => rfl)⟩
    | removeHook t =>
      obtain ⟨h1, h2⟩ := shared hx
      exact ⟨h1, fun _ => quiet h2 (fun _ => rfl)⟩
  | transfer a t n =>
    simp only [step, bind_ok, require_ok, Except.ok.injEq, Prod.mk.injEq] at h
    obtain ⟨_, _, rfl, rfl⟩ := h
    exact ⟨rfl, fun _ => quiet rfl (fun _ => rfl)⟩
  | mint t n =>
    simp only [step, bind_ok, require_ok, Except.ok.injEq, Prod.mk.injEq] at h
    obtain ⟨_, _, rfl, rfl⟩ := h
    exact ⟨rfl, fun _ => quiet rfl (fun _ => rfl)⟩
  | burn t n =>
    simp only [step, bind_ok, require_ok, Except.ok.injEq, Prod.mk.injEq] at h
    obtain ⟨_, _, rfl, rfl⟩ := h
    exact ⟨rfl, fun _ => quiet rfl (fun _ => rfl)⟩

theorem listeners_init {b : Block} {w : World} (h : sys.init b w) : items w.n.c.hooks = [] := by
  obtain ⟨_, _, _, _, _, _, _, h⟩ := h
  exact NftStaked.instantiate_hooks h

/-- **C60**, dao-voting-onft-staked: the listeners are those added and not removed since, in order of addition, each
once; every stake and unstake was announced to each of those listening at the time, and to nobody else. -/
theorem C60_listeners {w : World} {b : Block} {log : List (Ev World Block Call Out)} (h : sys.Reach w b log) :
    items w.n.c.hooks = listed (changes listenerOp log) ∧ (items w.n.c.hooks).Nodup ∧
    ∀ l2 e l1, log = l2 ++ e :: l1 →
      (∀ r ∈ listed (changes listenerOp l1), e.out.hooks.filter (fun m => decide (m.to = r)) = newsFor r e.call) ∧
      ∀ m ∈ e.out.hooks, m.to ∈ listed (changes listenerOp l1) := by
  have hstep : ∀ s e c s' o, sys.step s e c = .ok (s', o) → Follows s.n.c.hooks (listenerOp c) s'.n.c.hooks :=
    fun _ _ _ _ _ hs => (listeners_step hs).1
  obtain ⟨h1, h2⟩ := lists (hk := fun w => w.n.c.hooks) (fun _ _ => listeners_init) hstep h
  refine ⟨h1, h2, ?_⟩
  rintro l2 e l1 rfl
  obtain ⟨h3, h4⟩ := lists_at (hk := fun w => w.n.c.hooks) (fun _ _ => listeners_init) hstep h
  have hn : (items e.pre.n.c.hooks).Nodup := by
    obtain ⟨b0, s0, h0, hr⟩ := h
    obtain ⟨l1', l2', b1, _, hr1, _⟩ := hr.event e (by simp)
    exact (lists (hk := fun w => w.n.c.hooks) (fun _ _ => listeners_init) hstep ⟨b0, s0, h0, hr1⟩).2
  rw [← h3]
  exact (listeners_step h4).2 hn

end Verif.OnftStaked

namespace Verif.Roles
open Verif Verif.HookLists Verif.Hooks

theorem listeners_exec {s s' : State} {b : Block} {a : Addr} {m : Msg} {o : Out} (hx : exec s b a m = .ok (s', o)) :
    Follows s.hooks (listenerOp m) s'.hooks ∧
      o.hooks.map (fun x => x.to) = if reweighs m then items s.hooks else [] := by
  have ann : ∀ (h : HookList) (x : Addr) (p q : Option Nat), (announce h x p q).hooks.map (fun x => x.to) = items h := by
    intro h x p q
    unfold announce
    simp only [prepared h (fun r => (⟨r, x, p, q⟩ : HookMsg)), List.map_map]
    exact List.map_id _
  simp only [exec, bind_ok] at hx
  obtain ⟨_, _, hx⟩ := hx
  cases m with
  | mint t o u r w =>
    simp only [dispatch, execMint, bind_ok, Except.ok.injEq, Prod.mk.injEq] at hx
    obtain ⟨_, _, _, _, _, _, _, _, _, _, rfl, rfl⟩ := hx
    exact ⟨rfl, ann _ _ _ _⟩
  | burn t =>
    simp only [dispatch, execBurn, bind_ok, Except.ok.injEq, Prod.mk.injEq] at hx
    obtain ⟨_, _, _, _, _, _, _, _, _, _, _, _, rfl, rfl⟩ := hx
    exact ⟨rfl, ann _ _ _ _⟩
  | updateTokenWeight t w =>
    simp only [dispatch, execWeight, bind_ok, Prod.exists, Except.ok.injEq, Prod.mk.injEq] at hx
    obtain ⟨_, _, _, _, _, _, _, _, _, rfl, rfl⟩ := hx
    exact ⟨rfl, ann _ _ _ _⟩
  | transferNft d t =>
    simp only [dispatch, execTransfer, bind_ok, orErr_ok, Except.ok.injEq, Prod.mk.injEq] at hx
    obtain ⟨_, ⟨_, _, rfl⟩, rfl, rfl⟩ := hx
    exact ⟨rfl, rfl⟩
  | sendNft d t =>
    simp only [dispatch, execTransfer, bind_ok, orErr_ok, Except.ok.injEq, Prod.mk.injEq] at hx
    obtain ⟨_, ⟨_, _, rfl⟩, rfl, rfl⟩ := hx
    exact ⟨rfl, rfl⟩
  | updateTokenRole t r =>
    simp only [dispatch, execRole, bind_ok, orErr_ok, Except.ok.injEq, Prod.mk.injEq] at hx
    obtain ⟨_, ⟨_, _, rfl⟩, rfl, rfl⟩ := hx
    exact ⟨rfl, rfl⟩
  | updateTokenUri t r =>
    simp only [dispatch, execUri, bind_ok, orErr_ok, Except.ok.injEq, Prod.mk.injEq] at hx
    obtain ⟨_, ⟨_, _, rfl⟩, rfl, rfl⟩ := hx
    exact ⟨rfl, rfl⟩
  | addHook x =>
    simp only [dispatch, bind_ok, Except.ok.injEq, Prod.mk.injEq] at hx
    obtain ⟨_, hh, rfl, rfl⟩ := hx
    exact ⟨hh, rfl⟩
  | removeHook x =>
    simp only [dispatch, bind_ok, Except.ok.injEq, Prod.mk.injEq] at hx
    obtain ⟨_, hh, rfl, rfl⟩ := hx
    exact ⟨hh, rfl⟩
  | updateOwnership x =>
    simp only [dispatch, bind_ok, Except.ok.injEq, Prod.mk.injEq] at hx
    obtain ⟨_, _, rfl, rfl⟩ := hx
    exact ⟨rfl, rfl⟩

/-- **C60**, cw721-roles: the listeners are those added and not removed since, in order of addition, each once; every
mint, burn and change of a weight was announced to each of those listening at the time, in that order, and nothing else.
What they are told is C68. -/
theorem C60_listeners {s : State} {b : Block} {log : List (Ev State Env Msg Out)} (h : sys.Reach s b log) :
    items s.hooks = listed (changes listenerOp log) ∧ (items s.hooks).Nodup ∧
    ∀ l2 e l1, log = l2 ++ e :: l1 → e.out.hooks.map (fun x => x.to) =
      if reweighs e.call then listed (changes listenerOp l1) else [] := by
  have hinit : ∀ b s, sys.init b s → items s.hooks = [] := by
    rintro b s ⟨m, rfl⟩; rfl
  have hstep : ∀ s e c s' o, sys.step s e c = .ok (s', o) → Follows s.hooks (listenerOp c) s'.hooks :=
    fun _ _ _ _ _ hs => (listeners_exec hs).1
  obtain ⟨h1, h2⟩ := lists (hk := fun s => s.hooks) hinit hstep h
  refine ⟨h1, h2, ?_⟩
  rintro l2 e l1 rfl
  obtain ⟨h3, h4⟩ := lists_at (hk := fun s => s.hooks) hinit hstep h
  rw [← h3]
  exact (listeners_exec h4).2

end Verif.Roles

namespace Verif.TokenStaked
open Verif Verif.HookLists Verif.Hooks

/-- A case: 40 and 41 are added, the first stake is told to both, 40 is removed, and only 41 hears of the unstaking. -/
theorem C60_listeners_example : ∃ w b log, sys.Run exW ⟨1, 1⟩ log w b ∧
    log.map (fun e => e.out.hooks) = [[⟨41, false, 2, 30⟩], [], [⟨40, true, 2, 80⟩, ⟨41, true, 2, 80⟩], [], []] ∧
    listed (changes listenerOp log) = [41] := by
  have h := Sys.check_run (M := sys) (s := exW) (b := ⟨1, 1⟩)
    (cs := [(⟨2, 2⟩, .exec 1 (.addHook 40)), (⟨2, 2⟩, .exec 1 (.addHook 41)), (⟨2, 2⟩, .stake 2 80),
      (⟨3, 3⟩, .exec 1 (.removeHook 40)), (⟨3, 3⟩, .exec 2 (.unstake 30))])
    (p := fun _ _ log => decide (log.map (fun e => e.out.hooks) =
        [[⟨41, false, 2, 30⟩], [], [⟨40, true, 2, 80⟩, ⟨41, true, 2, 80⟩], [], []] ∧
      listed (changes listenerOp log) = [41])) (by decide +kernel)
  obtain ⟨w, b, log, hr, hp⟩ := h
  exact ⟨w, b, log, hr, of_decide_eq_true hp⟩

end Verif.TokenStaked
