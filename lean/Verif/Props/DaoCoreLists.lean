import Verif.Proofs.DaoCore
import Verif.Props.Paginate
import Verif.Props.DaoCore
import Verif.Props.DaoCoreModules
/-!
# C51: items, token lists and SubDAOs behave like maps and sets

and example histories of a DAO.
-/

namespace Verif.DaoCore
open Spec.DaoCore

theorem get_addAddrs {v : Addr → Bool} {m m' : AMap Addr Unit} {l : List Addr} (h : addAddrs v m l = .ok m') (a : Addr) :
    ((m'.get a).isSome = true ↔ a ∈ l ∨ (m.get a).isSome = true) ∧ (∀ x ∈ l, v x = true) := by
  induction l generalizing m with
  | nil =>
    simp only [addAddrs, Except.ok.injEq] at h
    subst h; simp
  | cons b l ih =>
    simp only [addAddrs, bind_ok, require_ok] at h
    obtain ⟨_, hv, h⟩ := h
    obtain ⟨h1, h2⟩ := ih h
    refine ⟨?_, ?_⟩
    · rw [h1, AMap.get_set]
      by_cases hb : b = a
      · subst hb; simp
      · have hb' : a ≠ b := fun e => hb e.symm
        simp [hb, hb']
    · intro x hx
      rcases List.mem_cons.1 hx with rfl | hx
      · exact hv
      · exact h2 x hx

theorem wf_addAddrs {v : Addr → Bool} {m m' : AMap Addr Unit} {l : List Addr} (hm : AMap.WF m)
    (h : addAddrs v m l = .ok m') : AMap.WF m' := by
  induction l generalizing m with
  | nil =>
    simp only [addAddrs, Except.ok.injEq] at h
    subst h; exact hm
  | cons b l ih =>
    simp only [addAddrs, bind_ok, require_ok] at h
    obtain ⟨_, _, h⟩ := h
    exact ih (AMap.WF_set hm _ _) h

theorem get_removeAddrs {V : Type} (m : AMap Addr V) (hm : AMap.WF m) (l : List Addr) (a : Addr) :
    (removeAddrs m l).get a = (if a ∈ l then none else m.get a) ∧ AMap.WF (removeAddrs m l) := by
  induction l generalizing m with
  | nil => simp [removeAddrs, hm]
  | cons b l ih =>
    obtain ⟨h1, h2⟩ := ih (m.erase b) (AMap.WF_erase hm b)
    refine ⟨?_, h2⟩
    show (removeAddrs (m.erase b) l).get a = _
    rw [h1, AMap.get_erase]
    by_cases hb : b = a
    · subst hb; simp
    · have hb' : a ≠ b := fun e => hb e.symm
      simp [hb, hb']

theorem get_addSubDaos (m : AMap Addr (Option Nat)) (hm : AMap.WF m) (l : List (Addr × Option Nat)) (a : Addr) :
    (addSubDaos m l).get a = (match lastCharter a l with | some c => some c | none => m.get a) ∧
    AMap.WF (addSubDaos m l) := by
  induction l generalizing m with
  | nil => exact ⟨rfl, hm⟩
  | cons p l ih =>
    obtain ⟨b, c⟩ := p
    obtain ⟨h1, h2⟩ := ih (m.set b c) (AMap.WF_set hm _ _)
    refine ⟨?_, h2⟩
    show (addSubDaos (m.set b c) l).get a = _
    rw [h1]
    simp only [lastCharter]
    cases lastCharter a l with
    | some x => rfl
    | none =>
      simp only [AMap.get_set]
      by_cases hb : b = a <;> simp [hb]

theorem wf_saveItems {m : AMap Nat Nat} (hm : AMap.WF m) (l : List (Nat × Nat)) : AMap.WF (saveItems m l) := by
  induction l generalizing m with
  | nil => exact hm
  | cons p l ih => exact ih (AMap.WF_set hm _ _)

/-- The maps hold each key once. -/
structure WFs (s : State) : Prop where
  items : AMap.WF s.items
  cw20s : AMap.WF s.cw20s
  cw721s : AMap.WF s.cw721s
  subDaos : AMap.WF s.subDaos

theorem wfs_init {b : Block} {w : World} (h : Init b w) : WFs w.core := by
  cases h with
  | new h =>
    simp only [instantiate, bind_ok, require_ok, Except.ok.injEq, Prod.mk.injEq] at h
    obtain ⟨_, _, _, _, rfl, _⟩ := h
    exact ⟨wf_saveItems AMap.WF_nil _, AMap.WF_nil, AMap.WF_nil, AMap.WF_nil⟩
  | migrated hk h0 hl hm hi h20 h721 hs =>
    refine ⟨hi, h20, h721, ?_⟩
    simp only [migrate, hs]
    exact AMap.WF_nil

theorem wfs_eff {s s' : State} {e : Env} {sender : Addr} {m : Msg} {out : List Sub} (h : Eff s e sender m s' out)
    (hw : WFs s) : WFs s' := by
  cases h
  case receive h => exact ⟨hw.items, AMap.WF_set hw.cw20s _ _, hw.cw721s, hw.subDaos⟩
  case receiveNft h => exact ⟨hw.items, hw.cw20s, AMap.WF_set hw.cw721s _ _, hw.subDaos⟩
  case removeItem k h hk => exact ⟨AMap.WF_erase hw.items _, hw.cw20s, hw.cw721s, hw.subDaos⟩
  case setItem k v h => exact ⟨AMap.WF_set hw.items _ _, hw.cw20s, hw.cw721s, hw.subDaos⟩
  case cw20 a r m h hm =>
    simp only [updateAddrs, bind_ok, Except.ok.injEq] at hm
    obtain ⟨m1, h1, rfl⟩ := hm
    exact ⟨hw.items, (get_removeAddrs _ (wf_addAddrs hw.cw20s h1) _ 0).2, hw.cw721s, hw.subDaos⟩
  case cw721 a r m h hm =>
    simp only [updateAddrs, bind_ok, Except.ok.injEq] at hm
    obtain ⟨m1, h1, rfl⟩ := hm
    exact ⟨hw.items, hw.cw20s, (get_removeAddrs _ (wf_addAddrs hw.cw721s h1) _ 0).2, hw.subDaos⟩
  case subDaos a r h =>
    exact ⟨hw.items, hw.cw20s, hw.cw721s,
      (get_addSubDaos _ (get_removeAddrs _ hw.subDaos _ 0).2 _ 0).2⟩
  all_goals exact ⟨hw.items, hw.cw20s, hw.cw721s, hw.subDaos⟩

theorem wfs_rep {s s' : State} {c : Created} {role : Role} {out : List Sub} (h : Rep s c role s' out)
    (hw : WFs s) : WFs s' := by
  cases h <;> exact ⟨hw.items, hw.cw20s, hw.cw721s, hw.subDaos⟩

theorem wfs_run {w0 w : World} {b0 b : Block} {log : List Event} (h0 : Init b0 w0) (h : sys.Run w0 b0 log w b) :
    WFs w.core := by
  induction h with
  | refl => exact wfs_init h0
  | step hr hb hs ih =>
    cases step_does hs with
    | msg hh hc hp he hs hs' hd => exact wfs_eff he ih
    | rep hh hc hd hme hf hr hs hs' =>
      exact wfs_rep hr ih
    | other hh hc hd hs hs' he ho =>
      simp only at he
      rw [he]; exact ih

/-- C51: looking up an item gives what was last set for its key, or nothing if it was removed since. -/
theorem C51_items {w0 w : World} {b0 b : Block} {log : List Event} (h : sys.Run w0 b0 log w b) (k : Nat) :
    w.core.items.get k = itemAfter w0.core k log := by
  induction h with
  | refl => rfl
  | step hr hb hs ih =>
    rename_i w1 w2 b1 log env call out
    obtain ⟨post, st⟩ := w2
    have hdoes := step_does hs
    clear hs
    unfold itemAfter
    cases hdoes with
    | msg hh hc hp he hs hs' hd =>
      rw [hh]
      simp only at he ⊢
      cases he <;> simp only [ih]
      case removeItem k' h1 h2 =>
        rw [AMap.get_erase, ih]
      case setItem k' v h1 =>
        rw [AMap.get_set, ih]
    | rep hh hc hd hme hf hr hs hs' =>
      rw [hh]
      simp only at hr ⊢
      cases hr <;> simp only [ih]
    | other hh hc hd hs hs' he ho =>
      rw [hh]
      simp only at he ⊢
      rw [he, ih]

/-- C51: an item can be removed only if it is there. -/
theorem C51_remove {w0 w : World} {b0 b : Block} {log : List Event} (h : sys.Run w0 b0 log w b) :
    ∀ e ∈ log, ∀ a k, handled e = some (a, .removeItem k) →
      (e.pre.core.items.get k).isSome = true ∧ e.post.core.items.get k = none := by
  intro e he a k hk
  have hdoes := run_does h e he
  obtain ⟨pre, env, call, out, ⟨post, st⟩⟩ := e
  cases hdoes with
  | msg hh hc hp he hs hs' hdd =>
    rw [hk] at hh
    simp only [Option.some.injEq, Prod.mk.injEq] at hh
    obtain ⟨rfl, rfl⟩ := hh
    simp only at he ⊢
    cases he with
    | removeItem h1 h2 =>
      refine ⟨h2, ?_⟩
      simp [AMap.get_erase]
  | rep hh hc hd' hme hf hr hs hs' => rw [hk] at hh; cases hh
  | other hh hc hd' hs hs' he ho => rw [hk] at hh; cases hh

/-- C51: a cw20 token is on the list exactly if the last thing done to it put it there: an update that adds it and does
not remove it, or its own transfer to a DAO that lists tokens automatically. -/
theorem C51_cw20s {w0 w : World} {b0 b : Block} {log : List Event} (h0 : Init b0 w0) (h : sys.Run w0 b0 log w b)
    (a : Addr) : (w.core.cw20s.get a).isSome = true ↔ cw20After w0.core a log := by
  induction h with
  | refl => exact Iff.rfl
  | step hr hb hs ih =>
    have hw := wfs_run h0 hr
    rename_i w1 w2 b1 log env call out
    obtain ⟨post, st⟩ := w2
    have hdoes := step_does hs
    clear hs
    unfold cw20After
    cases hdoes with
    | msg hh hc hp he hs hs' hd =>
      rw [hh]
      simp only at he ⊢
      cases he <;> simp only [ih]
      case receive h1 =>
        rw [AMap.get_set]
        split
        · rename_i e; subst e; simp [h1]
        · rename_i e; simp [e, ih]
      case receiveNot h1 => simp [h1]
      case cw20 add rem m h1 h2 =>
        simp only [updateAddrs, bind_ok, Except.ok.injEq] at h2
        obtain ⟨m1, h3, rfl⟩ := h2
        rw [(get_removeAddrs _ (wf_addAddrs hw.cw20s h3) rem a).1]
        by_cases hin : a ∈ rem
        · simp [hin]
        · rw [if_neg hin, (get_addAddrs h3 a).1, ih]; simp [hin]
    | rep hh hc hd hme hf hr hs hs' =>
      rw [hh]
      simp only at hr ⊢
      cases hr <;> simp only [ih]
    | other hh hc hd hs hs' he ho =>
      rw [hh]
      simp only at he ⊢
      rw [he]; exact ih

/-- C51: the same for NFT collections. -/
theorem C51_cw721s {w0 w : World} {b0 b : Block} {log : List Event} (h0 : Init b0 w0) (h : sys.Run w0 b0 log w b)
    (a : Addr) : (w.core.cw721s.get a).isSome = true ↔ cw721After w0.core a log := by
  induction h with
  | refl => exact Iff.rfl
  | step hr hb hs ih =>
    have hw := wfs_run h0 hr
    rename_i w1 w2 b1 log env call out
    obtain ⟨post, st⟩ := w2
    have hdoes := step_does hs
    clear hs
    unfold cw721After
    cases hdoes with
    | msg hh hc hp he hs hs' hd =>
      rw [hh]
      simp only at he ⊢
      cases he <;> simp only [ih]
      case receiveNft h1 =>
        rw [AMap.get_set]
        split
        · rename_i e; subst e; simp [h1]
        · rename_i e; simp [e, ih]
      case receiveNftNot h1 => simp [h1]
      case cw721 add rem m h1 h2 =>
        simp only [updateAddrs, bind_ok, Except.ok.injEq] at h2
        obtain ⟨m1, h3, rfl⟩ := h2
        rw [(get_removeAddrs _ (wf_addAddrs hw.cw721s h3) rem a).1]
        by_cases hin : a ∈ rem
        · simp [hin]
        · rw [if_neg hin, (get_addAddrs h3 a).1, ih]; simp [hin]
    | rep hh hc hd hme hf hr hs hs' =>
      rw [hh]
      simp only at hr ⊢
      cases hr <;> simp only [ih]
    | other hh hc hd hs hs' he ho =>
      rw [hh]
      simp only at he ⊢
      rw [he]; exact ih

/-- C51: an update puts a token on the list only if it answers as a token. -/
theorem C51_verified {w0 w : World} {b0 b : Block} {log : List Event} (h : sys.Run w0 b0 log w b) :
    ∀ e ∈ log, ∀ a add rem,
      (handled e = some (a, .updateCw20List add rem) → ∀ x ∈ add, e.env.isCw20 x = true) ∧
      (handled e = some (a, .updateCw721List add rem) → ∀ x ∈ add, e.env.isCw721 x = true) := by
  intro e he a add rem
  have hdoes := run_does h e he
  obtain ⟨pre, env, call, out, ⟨post, st⟩⟩ := e
  cases hdoes with
  | msg hh hc hp he hs hs' hdd =>
    rw [hh]
    simp only at he ⊢
    refine ⟨?_, ?_⟩ <;> intro hk <;> simp only [Option.some.injEq, Prod.mk.injEq] at hk <;>
      obtain ⟨rfl, rfl⟩ := hk
    · cases he with
      | cw20 h1 h2 =>
        simp only [updateAddrs, bind_ok] at h2
        obtain ⟨m1, h3, _⟩ := h2
        exact (get_addAddrs h3 0).2
    · cases he with
      | cw721 h1 h2 =>
        simp only [updateAddrs, bind_ok] at h2
        obtain ⟨m1, h3, _⟩ := h2
        exact (get_addAddrs h3 0).2
  | rep hh hc hd' hme hf hr hs hs' => rw [hh]; simp
  | other hh hc hd' hs hs' he ho => rw [hh]; simp

/-- C51: a SubDAO is listed with the charter it was last added with, unless it was removed since. -/
theorem C51_subDaos {w0 w : World} {b0 b : Block} {log : List Event} (h0 : Init b0 w0) (h : sys.Run w0 b0 log w b)
    (a : Addr) : w.core.subDaos.get a = subDaoAfter w0.core a log := by
  induction h with
  | refl => rfl
  | step hr hb hs ih =>
    have hw := wfs_run h0 hr
    rename_i w1 w2 b1 log env call out
    obtain ⟨post, st⟩ := w2
    have hdoes := step_does hs
    clear hs
    unfold subDaoAfter
    cases hdoes with
    | msg hh hc hp he hs hs' hd =>
      rw [hh]
      simp only at he ⊢
      cases he <;> simp only [ih]
      case subDaos add rem h1 =>
        obtain ⟨r1, r2⟩ := get_removeAddrs _ hw.subDaos rem a
        rw [(get_addSubDaos _ r2 add a).1, r1, ih]
        cases lastCharter a add <;> rfl
    | rep hh hc hd hme hf hr hs hs' =>
      rw [hh]
      simp only at hr ⊢
      cases hr <;> simp only [ih]
    | other hh hc hd hs hs' he ho =>
      rw [hh]
      simp only at he ⊢
      rw [he, ih]

/-- C51: the listings show exactly what the lookups give: following the pages of `ListItems`, `Cw20TokenList`,
`Cw721TokenList` or `ListSubDaos`, of any size, shows each entry once. -/
theorem C51_listed {w : World} {b : Block} {log : List Event} (h : sys.Reach w b log) (l fuel : Nat) (hl : 0 < l) :
    (w.core.items.length < fuel → ∀ k v,
      (k, v) ∈ (Spec.Paginate.follow (fun s => Paginate.paginateMap w.core.items s (some l) .desc) fuel none).flatten ↔
        w.core.items.get k = some v) ∧
    (w.core.cw20s.length < fuel → ∀ a,
      (a, ()) ∈ (Spec.Paginate.follow (fun s => Paginate.paginateMap w.core.cw20s s (some l) .desc) fuel none).flatten ↔
        (w.core.cw20s.get a).isSome = true) ∧
    (w.core.cw721s.length < fuel → ∀ a,
      (a, ()) ∈ (Spec.Paginate.follow (fun s => Paginate.paginateMap w.core.cw721s s (some l) .desc) fuel none).flatten ↔
        (w.core.cw721s.get a).isSome = true) ∧
    (w.core.subDaos.length < fuel → ∀ a c,
      (a, c) ∈ (Spec.Paginate.follow (fun s => Paginate.paginateMap w.core.subDaos s (some l) .asc) fuel none).flatten ↔
        w.core.subDaos.get a = some c) := by
  obtain ⟨b0, w0, h0, hr⟩ := h
  have hw := wfs_run h0 hr
  refine ⟨?_, ?_, ?_, ?_⟩
  · intro hf k v; exact (Paginate.C59_map hw.items .desc l hl fuel hf).2.1 k v
  · intro hf a
    rw [(Paginate.C59_map hw.cw20s .desc l hl fuel hf).2.1 a ()]
    cases w.core.cw20s.get a <;> simp
  · intro hf a
    rw [(Paginate.C59_map hw.cw721s .desc l hl fuel hf).2.1 a ()]
    cases w.core.cw721s.get a <;> simp
  · intro hf a c; exact (Paginate.C59_map hw.subDaos .asc l hl fuel hf).2.1 a c

/-! ## Example histories -/

/-- A DAO at address 1, its own admin, with one item and two proposal modules to be created. -/
def w0 : World :=
  { core := { me := 1, admin := 1, nominated := none, config := ⟨0, true, false⟩, paused := none, voting := none
              modules := [], active := 0, total := 0, items := [(5, 6)], cw20s := [], cw721s := [], subDaos := [] }
    stack := [.create .votingModule 0, .create .proposalModule 1, .create .proposalModule 2] }

/-- Everyone answers as a token. -/
def env (h : Nat) : Env := { block := ⟨h, h⟩, isCw20 := fun _ => true, isCw721 := fun _ => true }

theorem w0_init : Init ⟨0, 0⟩ w0 := by
  refine .new (me := 1) (config := ⟨0, true, false⟩) (admin := none) (voting := 0) (proposals := [1, 2])
    (items := [(5, 6)]) ?_
  rfl

/-- The modules are created at 10, 11 and 12; then module 11 passes a proposal that sets an item, replaces both proposal
modules by a new one, lists SubDAOs and sends something else. -/
def setup : List (Env × Call) :=
  [(env 1, .deliver ⟨10, []⟩), (env 1, .deliver ⟨11, []⟩), (env 1, .deliver ⟨12, [.other 8]⟩), (env 1, .deliver ⟨0, []⟩),
   (env 2, .call 11 (.executeProposalHook
     [.toSelf (.setItem 5 7), .toSelf (.updateProposalModules [3] [11, 12]), .toSelf (.updateSubDaos [(70, none), (71, some 2)] [72]),
      .other 9, .toSelf (.updateCw20List [80, 81] [81])])),
   (env 2, .deliver ⟨0, []⟩), (env 2, .deliver ⟨0, []⟩), (env 2, .deliver ⟨13, [.toSelf .receive]⟩),
   (env 2, .deliver ⟨0, []⟩), (env 2, .deliver ⟨0, []⟩), (env 2, .deliver ⟨0, []⟩), (env 2, .deliver ⟨0, []⟩)]

/-- Then module 13 makes the DAO, as its own admin, nominate 50, who accepts; the DAO pauses; the admin ends the pause. -/
def office : List (Env × Call) :=
  [(env 3, .call 13 (.executeProposalHook [.toSelf (.executeAdminMsgs [.toSelf (.nominateAdmin (some 50))]),
      .toSelf (.pause (.height 10))])),
   (env 3, .deliver ⟨0, []⟩), (env 3, .deliver ⟨0, []⟩), (env 3, .deliver ⟨0, []⟩)]

/-- C48, C49, C51: an example history. The call of a module that callbacks are made for, in the DAO's own name, puts the
DAO's own address on the token list, as the code does. -/
theorem C48_example : ∃ w b log, sys.Run w0 ⟨0, 0⟩ log w b ∧ w.stack.isEmpty = true ∧
    w.core.modules = [(11, ⟨11, [0], false⟩), (12, ⟨12, [1], false⟩), (13, ⟨13, [2], true⟩)] ∧
    w.core.active = 1 ∧ w.core.total = 3 ∧ w.core.voting = some 10 ∧ w.core.items = [(5, 7)] ∧
    w.core.subDaos = [(70, none), (71, some 2)] ∧ w.core.cw20s = [(1, ()), (80, ())] := by
  obtain ⟨w, b, log, hr, hp⟩ := Sys.check_run (M := sys) (s := w0) (b := ⟨0, 0⟩) (cs := setup)
    (p := fun w _ _ => decide (w.stack.isEmpty = true ∧
      w.core.modules = [(11, ⟨11, [0], false⟩), (12, ⟨12, [1], false⟩), (13, ⟨13, [2], true⟩)] ∧
      w.core.active = 1 ∧ w.core.total = 3 ∧ w.core.voting = some 10 ∧ w.core.items = [(5, 7)] ∧
      w.core.subDaos = [(70, none), (71, some 2)] ∧ w.core.cw20s = [(1, ()), (80, ())])) (by decide +kernel)
  exact ⟨w, b, log, hr, of_decide_eq_true hp⟩

/-- Does a step go through? -/
def accepts (w : World) (e : Env) (c : Call) : Bool :=
  match step w e c with
  | .ok _ => true
  | .error _ => false

/-- C47, C50: an example history. While paused, the enabled module is not heard; a disabled module and strangers never
are; only the nominee can accept; the admin can end the pause; after the pause has run out the module is heard again. -/
theorem C47_example : ∃ w b log, sys.Run w0 ⟨0, 0⟩ log w b ∧ w.stack.isEmpty = true ∧
    w.core.nominated = some 50 ∧ w.core.paused = some (.atHeight 13) ∧
    accepts w (env 4) (.call 13 (.executeProposalHook [])) = false ∧
    accepts w (env 13) (.call 13 (.executeProposalHook [])) = true ∧
    accepts w (env 13) (.call 11 (.executeProposalHook [])) = false ∧
    accepts w (env 13) (.call 50 (.executeAdminMsgs [])) = false ∧
    accepts w (env 4) (.call 50 .acceptAdminNomination) = false ∧
    accepts w (env 13) (.call 50 .acceptAdminNomination) = true ∧
    accepts w (env 13) (.call 51 .acceptAdminNomination) = false := by
  obtain ⟨w, b, log, hr, hp⟩ := Sys.check_run (M := sys) (s := w0) (b := ⟨0, 0⟩) (cs := setup ++ office)
    (p := fun w _ _ => decide (w.stack.isEmpty = true ∧
      w.core.nominated = some 50 ∧ w.core.paused = some (.atHeight 13) ∧
      accepts w (env 4) (.call 13 (.executeProposalHook [])) = false ∧
      accepts w (env 13) (.call 13 (.executeProposalHook [])) = true ∧
      accepts w (env 13) (.call 11 (.executeProposalHook [])) = false ∧
      accepts w (env 13) (.call 50 (.executeAdminMsgs [])) = false ∧
      accepts w (env 4) (.call 50 .acceptAdminNomination) = false ∧
      accepts w (env 13) (.call 50 .acceptAdminNomination) = true ∧
      accepts w (env 13) (.call 51 .acceptAdminNomination) = false)) (by decide +kernel)
  exact ⟨w, b, log, hr, of_decide_eq_true hp⟩

/-- C50: and then: 50 accepts, is admin and may have the DAO send messages. -/
theorem C50_example : ∃ w b log, sys.Run w0 ⟨0, 0⟩ log w b ∧ w.core.admin = 50 ∧ w.core.nominated = none ∧
    accepts w (env 14) (.call 50 (.executeAdminMsgs [.other 1])) = true ∧
    accepts w (env 14) (.call 13 (.nominateAdmin none)) = false := by
  obtain ⟨w, b, log, hr, hp⟩ := Sys.check_run (M := sys) (s := w0) (b := ⟨0, 0⟩)
    (cs := setup ++ office ++ [(env 13, .call 50 .acceptAdminNomination)])
    (p := fun w _ _ => decide (w.core.admin = 50 ∧ w.core.nominated = none ∧
      accepts w (env 14) (.call 50 (.executeAdminMsgs [.other 1])) = true ∧
      accepts w (env 14) (.call 13 (.nominateAdmin none)) = false)) (by decide +kernel)
  exact ⟨w, b, log, hr, of_decide_eq_true hp⟩

end Verif.DaoCore
