import Verif.Spec.Roles
import Verif.Proofs.NftStaked
/-!
# Lemmas about cw721-roles and dao-voting-cw721-roles
-/

namespace Verif.Roles
open Verif Verif.Spec.Roles

theorem prepareHooks_eq {α : Type} (h : Hooks.HookList) (f : Addr → α) :
    Hooks.prepareHooks h (fun _ x => f x) = (Hooks.items h).map f := by
  unfold Hooks.prepareHooks
  rw [← List.zipIdx_map_fst 0 (Hooks.items h), List.map_map]
  simp [Function.comp_def]

/-! ## What a call does -/

/-- The effects of the messages. -/
inductive Does (s : State) (b : Block) : Msg → State → Out → Prop where
  | mint {t o u r w T n c} (hT : s.total.get () = some T) (hTw : T + w < U64)
      (hn : (s.members.get o).getD 0 + w = n) (hfree : s.tokens.get t = none) (hc : s.count + 1 = c)
      (hc' : s.count + 1 < U64) :
      Does s b (.mint t o u r w)
        { s with tokens := s.tokens.set t ⟨o, u, r, w⟩, count := c, members := s.members.save o n b.height
                 total := s.total.save () (T + w) b.height }
        (announce s.hooks o (s.members.get o) (some n))
  | burn {t tok T old} (ht : s.tokens.get t = some tok) (hT : s.total.get () = some T)
      (ho : s.members.get tok.owner = some old) (hle : tok.weight ≤ old) (hle' : tok.weight ≤ T)
      (hc : 1 ≤ s.count) :
      Does s b (.burn t)
        { s with tokens := s.tokens.erase t, count := s.count - 1
                 members := setMember s.members b.height tok.owner (old - tok.weight)
                 total := s.total.save () (T - tok.weight) b.height }
        (announce s.hooks tok.owner (some old) (leftOver (old - tok.weight)))
  | raise {t w tok T n} (ht : s.tokens.get t = some tok) (hT : s.total.get () = some T)
      (hlt : tok.weight < w) (hTw : T + (w - tok.weight) < U64)
      (hn : (s.members.get tok.owner).getD 0 + (w - tok.weight) = n) :
      Does s b (.updateTokenWeight t w)
        { s with tokens := s.tokens.set t { tok with weight := w }
                 members := s.members.save tok.owner n b.height
                 total := s.total.save () (T + (w - tok.weight)) b.height }
        (announce s.hooks tok.owner (s.members.get tok.owner) (some n))
  | lower {t w tok T} (ht : s.tokens.get t = some tok) (hT : s.total.get () = some T)
      (hlt : w < tok.weight) (hle : tok.weight - w ≤ (s.members.get tok.owner).getD 0)
      (hle' : tok.weight - w ≤ T) :
      Does s b (.updateTokenWeight t w)
        { s with tokens := s.tokens.set t { tok with weight := w }
                 members := s.members.save tok.owner ((s.members.get tok.owner).getD 0 - (tok.weight - w)) b.height
                 total := s.total.save () (T - (tok.weight - w)) b.height }
        (announce s.hooks tok.owner none none)
  | transfer {dst t tok} (ht : s.tokens.get t = some tok) :
      Does s b (.transferNft dst t) { s with tokens := s.tokens.set t { tok with owner := dst } } {}
  | send {dst t tok} (ht : s.tokens.get t = some tok) :
      Does s b (.sendNft dst t) { s with tokens := s.tokens.set t { tok with owner := dst } }
        { receive := [(dst, t)] }
  | role {t r tok} (ht : s.tokens.get t = some tok) :
      Does s b (.updateTokenRole t r) { s with tokens := s.tokens.set t { tok with role := r } } {}
  | uri {t r tok} (ht : s.tokens.get t = some tok) :
      Does s b (.updateTokenUri t r) { s with tokens := s.tokens.set t { tok with uri := r } } {}
  | addHook {a h} : Does s b (.addHook a) { s with hooks := h } {}
  | removeHook {a h} : Does s b (.removeHook a) { s with hooks := h } {}
  | own {x o} : Does s b (.updateOwnership x) { s with ownership := o } {}

theorem exec_does {s s' : State} {b : Block} {a : Addr} {m : Msg} {out : Out}
    (h : exec s b a m = .ok (s', out)) : Does s b m s' out := by
  simp only [exec, bind_ok, Ownership.assertOwner_ok] at h
  obtain ⟨_, _, h⟩ := h
  cases m with
  | mint t o u r w =>
    simp only [dispatch, execMint, bind_ok, require_ok, orErr_ok, add64_ok, decide_eq_true_eq,
      Except.ok.injEq, Prod.mk.injEq] at h
    obtain ⟨T, hT, _, ⟨h1, rfl⟩, n, ⟨h2, rfl⟩, _, hf, c, ⟨h3, rfl⟩, rfl, rfl⟩ := h
    exact .mint hT h1 rfl hf rfl h3
  | burn t =>
    simp only [dispatch, execBurn, bind_ok, require_ok, orErr_ok, add64_ok, decide_eq_true_eq,
      Except.ok.injEq, Prod.mk.injEq] at h
    obtain ⟨tok, ht, T, hT, old, ho, _, h1, _, h2, _, h3, rfl, rfl⟩ := h
    exact .burn ht hT ho h1 h2 h3
  | updateTokenWeight t w =>
    simp only [dispatch, execWeight, bind_ok, orErr_ok] at h
    obtain ⟨tok, ht, T, hT, ⟨n, T', o, n'⟩, hr, h⟩ := h
    simp only [Except.ok.injEq, Prod.mk.injEq] at h
    obtain ⟨rfl, rfl⟩ := h
    unfold reweigh at hr
    split at hr
    · simp at hr
    · split at hr
      · rename_i hlt
        simp only [bind_ok, add64_ok, Except.ok.injEq, Prod.mk.injEq] at hr
        obtain ⟨_, ⟨h1, rfl⟩, _, ⟨h2, rfl⟩, rfl, rfl, rfl, rfl⟩ := hr
        exact .raise ht hT hlt h1 rfl
      · rename_i hne hlt
        simp only [bind_ok, require_ok, decide_eq_true_eq, Except.ok.injEq, Prod.mk.injEq] at hr
        obtain ⟨_, h1, _, h2, rfl, rfl, rfl, rfl⟩ := hr
        exact .lower ht hT (by omega) h1 h2
  | transferNft dst t =>
    simp only [dispatch, execTransfer, bind_ok, orErr_ok, Except.ok.injEq, Prod.mk.injEq] at h
    obtain ⟨_, ⟨tok, ht, rfl⟩, rfl, rfl⟩ := h
    exact .transfer ht
  | sendNft dst t =>
    simp only [dispatch, execTransfer, bind_ok, orErr_ok, Except.ok.injEq, Prod.mk.injEq] at h
    obtain ⟨_, ⟨tok, ht, rfl⟩, rfl, rfl⟩ := h
    exact .send ht
  | updateTokenRole t r =>
    simp only [dispatch, execRole, bind_ok, orErr_ok, Except.ok.injEq, Prod.mk.injEq] at h
    obtain ⟨_, ⟨tok, ht, rfl⟩, rfl, rfl⟩ := h
    exact .role ht
  | updateTokenUri t r =>
    simp only [dispatch, execUri, bind_ok, orErr_ok, Except.ok.injEq, Prod.mk.injEq] at h
    obtain ⟨_, ⟨tok, ht, rfl⟩, rfl, rfl⟩ := h
    exact .uri ht
  | addHook x =>
    simp only [dispatch, bind_ok, Except.ok.injEq, Prod.mk.injEq] at h
    obtain ⟨_, _, rfl, rfl⟩ := h
    exact .addHook
  | removeHook x =>
    simp only [dispatch, bind_ok, Except.ok.injEq, Prod.mk.injEq] at h
    obtain ⟨_, _, rfl, rfl⟩ := h
    exact .removeHook
  | updateOwnership x =>
    simp only [dispatch, bind_ok, Except.ok.injEq, Prod.mk.injEq] at h
    obtain ⟨_, _, rfl, rfl⟩ := h
    exact .own

theorem exec_owner {s : State} {b : Block} {a : Addr} {m : Msg} {r : State × Out}
    (h : exec s b a m = .ok r) : s.ownership.owner = some a := by
  simp only [exec, bind_ok, Ownership.assertOwner_ok] at h
  exact h.choose_spec.1

/-! ## Sums -/

theorem allTokens_eq (s : State) : allTokens s = AMap.sum (fun _ t => t.weight) s.tokens := by
  rw [AMap.sum_eq_list]; rfl

theorem owned_eq (s : State) (a : Addr) :
    owned s a = AMap.sum (fun _ t => if t.owner = a then t.weight else 0) s.tokens := by
  rw [AMap.sum_eq_list]; rfl

theorem allMembers_eq (s : State) : allMembers s = Verif.total s.members.cur := rfl

theorem weight_eq (s : State) (a : Addr) : weight s a = getD0 s.members.cur a := rfl

theorem getD0_erase {K : Type} [DecidableEq K] (m : AMap K Nat) (k q : K) :
    getD0 (m.erase k) q = if k = q then 0 else getD0 m q := by
  unfold getD0; rw [AMap.get_erase]; split <;> rfl

theorem setMember_getD0 (m : Snap Addr Nat) (h : Nat) (a q : Addr) (n : Nat) :
    getD0 (setMember m h a n).cur q = if a = q then n else getD0 m.cur q := by
  unfold setMember
  split
  · rename_i hn; subst hn; exact getD0_erase _ _ _
  · exact getD0_set _ _ _ _

theorem setMember_total {m : Snap Addr Nat} (hm : m.cur.WF) (h : Nat) (a : Addr) (n : Nat) :
    Verif.total (setMember m h a n).cur + getD0 m.cur a = Verif.total m.cur + n := by
  unfold setMember
  split
  · rename_i hn; subst hn; exact total_erase hm a
  · exact total_set _ _ _

theorem setMember_wf {m : Snap Addr Nat} (hm : m.cur.WF) (h : Nat) (a : Addr) (n : Nat) :
    (setMember m h a n).cur.WF := by
  unfold setMember
  split
  · exact AMap.WF_erase hm _
  · exact AMap.WF_set hm _ _

/-- What holds in every reachable state. -/
structure Inv (s : State) : Prop where
  wfT : s.tokens.WF
  wfM : s.members.cur.WF
  tot : s.total.get () = some (allMembers s)
  eq : allMembers s = allTokens s
  lt : allMembers s < U64
  count : s.count = s.tokens.length
  countLt : s.count < U64

theorem inv_init (b : Block) (minter : Addr) : Inv (instantiate b minter) where
  wfT := AMap.WF_nil
  wfM := AMap.WF_nil
  tot := by simp [instantiate, Snap.get_save]; rfl
  eq := rfl
  lt := by unfold U64; exact Nat.two_pow_pos 64
  count := rfl
  countLt := by unfold U64; exact Nat.two_pow_pos 64

theorem inv_does {s s' : State} {b : Block} {m : Msg} {out : Out} (hi : Inv s) (hd : Does s b m s' out) :
    Inv s' := by
  have htot := hi.tot
  have heq := hi.eq
  cases hd with
  | mint hT hTw hn hfree hc hc' =>
    rename_i t o u r w T n c
    rw [htot, Option.some.injEq] at hT
    have h1 := AMap.sum_set (fun (_ : Nat) (t : Token) => t.weight) s.tokens t ⟨o, u, r, w⟩
    have h2 := total_set s.members.cur o n
    simp only [AMap.at?, hfree] at h1
    have h3 : getD0 s.members.cur o + w = n := hn
    rw [allMembers_eq, allTokens_eq] at heq
    rw [allMembers_eq] at hT
    have e1 : Verif.total (s.members.cur.set o n) = T + w := by omega
    refine ⟨AMap.WF_set hi.wfT _ _, AMap.WF_set hi.wfM _ _, ?_, ?_, ?_, ?_, ?_⟩
    · simp only [allMembers_eq, Snap.get_save, if_true]; exact congrArg some e1.symm
    · simp only [allMembers_eq, allTokens_eq, Snap.save, e1]; omega
    · simp only [allMembers_eq, Snap.save, e1]; exact hTw
    · have := AMap.length_set s.tokens t (⟨o, u, r, w⟩ : Token)
      simp only [hfree, if_true] at this
      simp only [this, ← hc, hi.count]
    · simp only; omega
  | burn ht hT ho hle hle' hc =>
    rename_i t tok T old
    rw [htot, Option.some.injEq] at hT
    have h1 := AMap.sum_erase (fun (_ : Nat) (t : Token) => t.weight) hi.wfT t
    have h2 := setMember_total hi.wfM b.height tok.owner (old - tok.weight)
    simp only [AMap.at?, ht] at h1
    have h3 : getD0 s.members.cur tok.owner = old := by
      have : s.members.cur.get tok.owner = some old := ho
      simp [getD0, this]
    rw [allMembers_eq, allTokens_eq] at heq
    rw [allMembers_eq] at hT
    have hlt := hi.lt
    rw [allMembers_eq] at hlt
    have e1 : Verif.total (setMember s.members b.height tok.owner (old - tok.weight)).cur = T - tok.weight := by
      omega
    refine ⟨AMap.WF_erase hi.wfT _, setMember_wf hi.wfM _ _ _, ?_, ?_, ?_, ?_, ?_⟩
    · simp only [allMembers_eq, Snap.get_save, if_true, e1]
    · simp only [allMembers_eq, allTokens_eq, e1]; omega
    · simp only [allMembers_eq, e1]; omega
    · have := AMap.length_erase hi.wfT t
      simp only [ht, reduceCtorEq, if_false] at this
      have := hi.count
      simp only; omega
    · have := hi.countLt; simp only; omega
  | raise ht hT hlt hTw hn =>
    rename_i t w tok T n
    rw [htot, Option.some.injEq] at hT
    have h1 := AMap.sum_set (fun (_ : Nat) (t : Token) => t.weight) s.tokens t { tok with weight := w }
    have h2 := total_set s.members.cur tok.owner n
    simp only [AMap.at?, ht] at h1
    have h3 : getD0 s.members.cur tok.owner + (w - tok.weight) = n := hn
    rw [allMembers_eq, allTokens_eq] at heq
    rw [allMembers_eq] at hT
    have e1 : Verif.total (s.members.cur.set tok.owner n) = T + (w - tok.weight) := by omega
    refine ⟨AMap.WF_set hi.wfT _ _, AMap.WF_set hi.wfM _ _, ?_, ?_, ?_, ?_, hi.countLt⟩
    · simp only [allMembers_eq, Snap.get_save, if_true]; exact congrArg some e1.symm
    · simp only [allMembers_eq, allTokens_eq, Snap.save, e1]; omega
    · simp only [allMembers_eq, Snap.save, e1]; exact hTw
    · have := AMap.length_set s.tokens t ({ tok with weight := w } : Token)
      simp only [ht, reduceCtorEq, if_false] at this
      simp only [this, hi.count]; rfl
  | lower ht hT hlt hle hle' =>
    rename_i t w tok T
    rw [htot, Option.some.injEq] at hT
    have h1 := AMap.sum_set (fun (_ : Nat) (t : Token) => t.weight) s.tokens t { tok with weight := w }
    have h2 := total_set s.members.cur tok.owner ((s.members.get tok.owner).getD 0 - (tok.weight - w))
    simp only [AMap.at?, ht] at h1
    have h3 : getD0 s.members.cur tok.owner = (s.members.get tok.owner).getD 0 := rfl
    rw [allMembers_eq, allTokens_eq] at heq
    rw [allMembers_eq] at hT
    have hlt' := hi.lt
    rw [allMembers_eq] at hlt'
    have e1 : Verif.total (s.members.cur.set tok.owner ((s.members.get tok.owner).getD 0 - (tok.weight - w))) =
        T - (tok.weight - w) := by omega
    refine ⟨AMap.WF_set hi.wfT _ _, AMap.WF_set hi.wfM _ _, ?_, ?_, ?_, ?_, hi.countLt⟩
    · simp only [allMembers_eq, Snap.get_save, if_true]; exact congrArg some e1.symm
    · simp only [allMembers_eq, allTokens_eq, Snap.save, e1]; omega
    · simp only [allMembers_eq, Snap.save, e1]; omega
    · have := AMap.length_set s.tokens t ({ tok with weight := w } : Token)
      simp only [ht, reduceCtorEq, if_false] at this
      simp only [this, hi.count]; rfl
  | transfer ht => exact keep hi ht rfl
  | send ht => exact keep hi ht rfl
  | role ht => exact keep hi ht rfl
  | uri ht => exact keep hi ht rfl
  | addHook => exact ⟨hi.wfT, hi.wfM, hi.tot, hi.eq, hi.lt, hi.count, hi.countLt⟩
  | removeHook => exact ⟨hi.wfT, hi.wfM, hi.tot, hi.eq, hi.lt, hi.count, hi.countLt⟩
  | own => exact ⟨hi.wfT, hi.wfM, hi.tot, hi.eq, hi.lt, hi.count, hi.countLt⟩
where
  /-- Changing a token without changing its weight. -/
  keep {s : State} {t : Nat} {tok tok' : Token} (hi : Inv s) (ht : s.tokens.get t = some tok)
      (hw : tok'.weight = tok.weight) : Inv { s with tokens := s.tokens.set t tok' } := by
    refine ⟨AMap.WF_set hi.wfT _ _, hi.wfM, hi.tot, ?_, hi.lt, ?_, hi.countLt⟩
    · have h1 := AMap.sum_set (fun (_ : Nat) (t : Token) => t.weight) s.tokens t tok'
      simp only [AMap.at?, ht] at h1
      have heq := hi.eq
      rw [allMembers_eq, allTokens_eq] at heq
      simp only [allMembers_eq, allTokens_eq]; omega
    · have := AMap.length_set s.tokens t tok'
      simp only [ht, reduceCtorEq, if_false] at this
      simp only [this, hi.count]; rfl

theorem inv_reach {s : State} {b : Block} {log : List Event} (h : sys.Reach s b log) : Inv s :=
  Sys.Reach.induct (M := sys) (P := fun s _ _ => Inv s)
    (fun b s ⟨m, hm⟩ => hm ▸ inv_init b m)
    (fun _ _ _ _ _ _ _ _ ih _ hs => inv_does ih (exec_does hs)) h

/-! ## Member weights against tokens -/

theorem flow_does {e : Event} {b : Block} (hwf : e.pre.tokens.WF) (hd : Does e.pre b e.call e.post e.out)
    (a : Addr) :
    weight e.post a + received a e + owned e.pre a + 0 =
      weight e.pre a + owned e.post a + givenAway a e := by
  obtain ⟨s, env, m, out, s'⟩ := e
  simp only at hd hwf
  simp only [received, givenAway, moves, weight_eq, owned_eq]
  cases hd with
  | mint hT hTw hn hfree hc hc' =>
    rename_i t o u r w T n c
    have h1 := AMap.sum_set (fun (_ : Nat) (t : Token) => if t.owner = a then t.weight else 0) s.tokens t
      ⟨o, u, r, w⟩
    simp only [AMap.at?, hfree] at h1
    have h3 : getD0 s.members.cur o + w = n := hn
    simp only [Snap.save, getD0_set]
    by_cases ho : o = a
    · subst ho; simp only [if_true] at h1 ⊢; omega
    · simp only [ho, if_false] at h1 ⊢; omega
  | burn ht hT ho hle hle' hc =>
    rename_i t tok T old
    have h1 := AMap.sum_erase (fun (_ : Nat) (t : Token) => if t.owner = a then t.weight else 0) hwf t
    simp only [AMap.at?, ht] at h1
    have h3 : getD0 s.members.cur tok.owner = old := by
      have : s.members.cur.get tok.owner = some old := ho
      simp [getD0, this]
    simp only [setMember_getD0]
    by_cases ho : tok.owner = a
    · subst ho; simp only [if_true] at h1 ⊢; omega
    · simp only [ho, if_false] at h1 ⊢; omega
  | raise ht hT hlt hTw hn =>
    rename_i t w tok T n
    have h1 := AMap.sum_set (fun (_ : Nat) (t : Token) => if t.owner = a then t.weight else 0) s.tokens t
      { tok with weight := w }
    simp only [AMap.at?, ht] at h1
    have h3 : getD0 s.members.cur tok.owner + (w - tok.weight) = n := hn
    simp only [Snap.save, getD0_set]
    by_cases ho : tok.owner = a
    · subst ho; simp only [if_true] at h1 ⊢; omega
    · simp only [ho, if_false] at h1 ⊢; omega
  | lower ht hT hlt hle hle' =>
    rename_i t w tok T
    have h1 := AMap.sum_set (fun (_ : Nat) (t : Token) => if t.owner = a then t.weight else 0) s.tokens t
      { tok with weight := w }
    simp only [AMap.at?, ht] at h1
    have h3 : getD0 s.members.cur tok.owner = (s.members.get tok.owner).getD 0 := rfl
    simp only [Snap.save, getD0_set]
    by_cases ho : tok.owner = a
    · subst ho; simp only [if_true] at h1 ⊢; omega
    · simp only [ho, if_false] at h1 ⊢; omega
  | transfer ht =>
    rename_i dst t tok
    have h1 := AMap.sum_set (fun (_ : Nat) (t : Token) => if t.owner = a then t.weight else 0) s.tokens t
      { tok with owner := dst }
    simp only [AMap.at?, ht] at h1 ⊢
    omega
  | send ht =>
    rename_i dst t tok
    have h1 := AMap.sum_set (fun (_ : Nat) (t : Token) => if t.owner = a then t.weight else 0) s.tokens t
      { tok with owner := dst }
    simp only [AMap.at?, ht] at h1 ⊢
    omega
  | role ht =>
    rename_i t r tok
    have h1 := AMap.sum_set (fun (_ : Nat) (t : Token) => if t.owner = a then t.weight else 0) s.tokens t
      { tok with role := r }
    simp only [AMap.at?, ht] at h1 ⊢
    omega
  | uri ht =>
    rename_i t r tok
    have h1 := AMap.sum_set (fun (_ : Nat) (t : Token) => if t.owner = a then t.weight else 0) s.tokens t
      { tok with uri := r }
    simp only [AMap.at?, ht] at h1 ⊢
    omega
  | addHook => simp only; omega
  | removeHook => simp only; omega
  | own => simp only; omega

theorem flow_reach {s : State} {b : Block} {log : List Event} (h : sys.Reach s b log) (a : Addr) :
    weight s a + (log.map (received a)).sum = owned s a + (log.map (givenAway a)).sum := by
  refine Sys.Reach.induct (M := sys) (P := fun s b log => sys.Reach s b log ∧
    weight s a + (log.map (received a)).sum = owned s a + (log.map (givenAway a)).sum)
    ?_ ?_ h |>.2
  · rintro b s ⟨m, rfl⟩
    exact ⟨⟨b, _, ⟨m, rfl⟩, .refl⟩, rfl⟩
  · intro s b log env call out s' hr ih hb hs
    refine ⟨hr.step hb hs, ?_⟩
    have hf := flow_does (e := ⟨s, env, call, out, s'⟩) (inv_reach hr).wfT (exec_does hs) a
    simp only [List.map_cons, List.sum_cons]
    have := ih.2
    simp only at hf
    omega

/-! ## Snapshots -/

theorem does_writes {s s' : State} {b : Block} {m : Msg} {out : Out} (hd : Does s b m s' out) :
    Snap.Writes b.height s.members s'.members ∧ Snap.Writes b.height s.total s'.total := by
  cases hd with
  | mint => exact ⟨.one _ _ _ _, .one _ _ _ _⟩
  | burn =>
    refine ⟨?_, .one _ _ _ _⟩
    simp only [setMember]
    split
    · exact .remove _ .refl
    · exact .one _ _ _ _
  | raise => exact ⟨.one _ _ _ _, .one _ _ _ _⟩
  | lower => exact ⟨.one _ _ _ _, .one _ _ _ _⟩
  | _ => exact ⟨.refl, .refl⟩

theorem snapshotted : sys.Snapshotted (fun s => s.members) ∧ sys.Snapshotted (fun s => s.total) := by
  constructor
  · constructor
    · rintro b s ⟨m, rfl⟩; exact Snap.upTo_empty _
    · intro s env call s' out h; exact (does_writes (exec_does h)).1
  · constructor
    · rintro b s ⟨m, rfl⟩; exact Snap.upTo_save (Snap.upTo_empty b.height) (Nat.le_refl _)
    · intro s env call s' out h; exact (does_writes (exec_does h)).2

/-! ## Ownership -/

theorem exec_ownership {s s' : State} {b : Block} {a : Addr} {m : Msg} {out : Out}
    (h : exec s b a m = .ok (s', out)) : s'.ownership.owner = s.ownership.owner ∨ s'.ownership.owner = none := by
  have ho := exec_owner h
  by_cases hm : ∃ x, m = .updateOwnership x
  · obtain ⟨x, rfl⟩ := hm
    simp only [exec, bind_ok, dispatch, Except.ok.injEq, Prod.mk.injEq] at h
    obtain ⟨_, _, o, hu, rfl, rfl⟩ := h
    rcases Ownership.update_owner hu with h | ⟨h, _⟩ | ⟨h, _⟩
    · exact Or.inl h
    · exact Or.inl (h.trans ho.symm)
    · exact Or.inr h
  · have hd := exec_does h
    cases hd with
    | own => exact absurd ⟨_, rfl⟩ hm
    | _ => exact Or.inl rfl

end Verif.Roles
