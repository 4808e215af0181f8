import Verif.Spec.NftDao
import Verif.Proofs.NftStaked
/-!
# Lemmas about a voting module with an NFT collection of its own
-/

namespace Verif.NftDao
open Verif Verif.Spec.NftDao
open Verif.NftStaked (afterStake afterUnstake hookMsgs)

/-! ## The collection -/

/-- `a` may move a token of `o`. -/
def Coll.May (c : Coll) (b : Block) (a o : Addr) (t : Tok) : Prop :=
  o = a ∨ c.isApproved b t a = true ∨ c.isOperator b o a = true

theorem canSend_ok {c : Coll} {b : Block} {a : Addr} {t : Tok} {u : Unit} :
    c.checkCanSend b a t = .ok u ↔ ∃ o, c.tokens.get t = some o ∧ c.May b a o t := by
  simp only [Coll.checkCanSend, Coll.May, bind_ok, orErr_ok, require_ok, Bool.or_eq_true, decide_eq_true_eq, or_assoc]

theorem canApprove_ok {c : Coll} {b : Block} {a : Addr} {t : Tok} {u : Unit} :
    c.checkCanApprove b a t = .ok u ↔ ∃ o, c.tokens.get t = some o ∧ (o = a ∨ c.isOperator b o a = true) := by
  simp only [Coll.checkCanApprove, bind_ok, orErr_ok, require_ok, Bool.or_eq_true, decide_eq_true_eq]

/-- The messages that move nothing. -/
def Permission : CollMsg → Prop
  | .approve _ _ _ => True
  | .revoke _ _ => True
  | .approveAll _ _ => True
  | .revokeAll _ => True
  | .extension => True
  | _ => False

/-- What the messages to the collection do. -/
inductive CollEffect (c : Coll) (b : Block) (s : Addr) : CollMsg → Coll → Prop where
  | mint (t : Tok) (dst : Addr) (own : c.owner.owner = some s) (fresh : c.tokens.get t = none)
      (len : c.tokens.length + 1 < U64) :
      CollEffect c b s (.mint t dst) { c with tokens := c.tokens.set t dst, approvals := c.approvals.erase t }
  | burn (t : Tok) (o : Addr) (ho : c.tokens.get t = some o) (may : c.May b s o t) :
      CollEffect c b s (.burn t) { c with tokens := c.tokens.erase t, approvals := c.approvals.erase t }
  | transfer (t : Tok) (dst o : Addr) (ho : c.tokens.get t = some o) (may : c.May b s o t) :
      CollEffect c b s (.transfer dst t) { c with tokens := c.tokens.set t dst, approvals := c.approvals.erase t }
  | send (t : Tok) (dst o : Addr) (ho : c.tokens.get t = some o) (may : c.May b s o t) :
      CollEffect c b s (.send dst t) { c with tokens := c.tokens.set t dst, approvals := c.approvals.erase t }
  | approvals (m : CollMsg) (hm : Permission m) (t : Tok) (o : Addr) (l : List (Addr × Expiration))
      (ho : c.tokens.get t = some o) (may : o = s ∨ c.isOperator b o s = true)
      (hl : l = [] ∨ (∃ a e, m = .approve a t e) ∨ ∀ x ∈ l, x ∈ (c.approvals.get t).getD []) :
      CollEffect c b s m { c with approvals := c.approvals.set t l }
  | operators (m : CollMsg) (hm : Permission m) (ops : AMap (Addr × Addr) Expiration)
      (ho : ∀ k, ops.get k = c.operators.get k ∨ k.1 = s ∧ (ops.get k = none ∨ ∃ e, m = .approveAll k.2 e)) :
      CollEffect c b s m { c with operators := ops }
  | ownership (x : OwnerAction) (o : Ownership) (ho : c.owner.update b s x = .ok o) :
      CollEffect c b s (.updateOwnership x) { c with owner := o }

theorem exec_effect {c c' : Coll} {b : Block} {s : Addr} {m : CollMsg} (h : c.exec b s m = .ok c') : CollEffect c b s m c' := by
  cases m with
  | mint t dst =>
    simp only [Coll.exec, bind_ok, Ownership.assertOwner_ok, require_ok, decide_eq_true_eq, Except.ok.injEq] at h
    obtain ⟨_, h1, _, ⟨h2, h3⟩, rfl⟩ := h
    exact .mint t dst h1 h2 h3
  | burn t =>
    simp only [Coll.exec, bind_ok, canSend_ok, Except.ok.injEq] at h
    obtain ⟨_, ⟨o, ho, hm⟩, rfl⟩ := h
    exact .burn t o ho hm
  | transfer dst t =>
    simp only [Coll.exec, Coll.move, bind_ok, canSend_ok, Except.ok.injEq] at h
    obtain ⟨_, ⟨o, ho, hm⟩, rfl⟩ := h
    exact .transfer t dst o ho hm
  | send dst t =>
    simp only [Coll.exec, Coll.move, bind_ok, canSend_ok, Except.ok.injEq] at h
    obtain ⟨_, ⟨o, ho, hm⟩, rfl⟩ := h
    exact .send t dst o ho hm
  | approve a t e =>
    simp only [Coll.exec, bind_ok, canApprove_ok, require_ok, Except.ok.injEq] at h
    obtain ⟨_, ⟨o, ho, hm⟩, _, _, rfl⟩ := h
    exact .approvals (.approve a t e) trivial t o _ ho hm (Or.inr (Or.inl ⟨a, e, rfl⟩))
  | revoke a t =>
    simp only [Coll.exec, bind_ok, canApprove_ok, Except.ok.injEq] at h
    obtain ⟨_, ⟨o, ho, hm⟩, rfl⟩ := h
    exact .approvals (.revoke a t) trivial t o _ ho hm (Or.inr (Or.inr (fun x hx => (List.mem_filter.1 hx).1)))
  | approveAll a e =>
    simp only [Coll.exec, bind_ok, require_ok, Except.ok.injEq] at h
    obtain ⟨_, _, rfl⟩ := h
    refine .operators (.approveAll a e) trivial _ (fun k => ?_)
    rw [AMap.get_set]
    split
    · rename_i hk; subst hk; exact Or.inr ⟨rfl, Or.inr ⟨e, rfl⟩⟩
    · exact Or.inl rfl
  | revokeAll a =>
    simp only [Coll.exec, Except.ok.injEq] at h
    subst h
    refine .operators (.revokeAll a) trivial _ (fun k => ?_)
    rw [AMap.get_erase]
    split
    · rename_i hk; subst hk; exact Or.inr ⟨rfl, Or.inl rfl⟩
    · exact Or.inl rfl
  | updateOwnership x =>
    simp only [Coll.exec, bind_ok, Except.ok.injEq] at h
    obtain ⟨o, ho, rfl⟩ := h
    exact .ownership x o ho
  | extension =>
    simp only [Coll.exec, Except.ok.injEq] at h
    subst h
    exact .operators (c := c) .extension trivial c.operators (fun k => Or.inl rfl)

/-- What every message keeps. -/
theorem exec_keeps {c c' : Coll} {b : Block} {s : Addr} {m : CollMsg} (h : c.exec b s m = .ok c') :
    c'.addr = c.addr ∧ (c.tokens.WF → c'.tokens.WF) ∧
      (c.tokens.WF → c.tokens.length < U64 → c'.tokens.length < U64) := by
  cases exec_effect h with
  | mint t dst own fresh len =>
    refine ⟨rfl, fun hw => AMap.WF_set hw _ _, fun hw hl => ?_⟩
    simp only [AMap.length_set, fresh, if_true]; exact len
  | burn t o ho may =>
    refine ⟨rfl, fun hw => AMap.WF_erase hw _, fun hw hl => ?_⟩
    have := AMap.length_erase hw t
    simp only
    omega
  | transfer t dst o ho may =>
    refine ⟨rfl, fun hw => AMap.WF_set hw _ _, fun hw hl => ?_⟩
    simp only [AMap.length_set, ho]; simpa using hl
  | send t dst o ho may =>
    refine ⟨rfl, fun hw => AMap.WF_set hw _ _, fun hw hl => ?_⟩
    simp only [AMap.length_set, ho]; simpa using hl
  | approvals => exact ⟨rfl, id, fun _ => id⟩
  | operators => exact ⟨rfl, id, fun _ => id⟩
  | ownership => exact ⟨rfl, id, fun _ => id⟩

/-- The owner of the collection, by the message. -/
theorem exec_owner {c c' : Coll} {b : Block} {s : Addr} {m : CollMsg} (h : c.exec b s m = .ok c') :
    c'.owner = c.owner ∨ ∃ x, m = .updateOwnership x ∧ c.owner.update b s x = .ok c'.owner := by
  cases exec_effect h with
  | ownership x o ho => exact Or.inr ⟨x, rfl, ho⟩
  | _ => exact Or.inl rfl

/-- The call that follows a message. -/
theorem collStep_ok {w w' : World} {b : Block} {s : Addr} {m : CollMsg} {out : NftStaked.Out}
    (h : collStep w b s m = .ok (w', out)) :
    ∃ c, w.coll.exec b s m = .ok c ∧
      ((∀ t, m ≠ .send w.self t) ∧ w' = { w with coll := c } ∧ out = {} ∨
        ∃ t, m = .send w.self t ∧ w.coll.addr = w.vm.nft ∧
          w' = { w with coll := c, vm := afterStake w.vm b s t } ∧
            out = { hooks := hookMsgs w.vm.hooks true s [t] }) := by
  simp only [collStep, bind_ok] at h
  obtain ⟨c, hc, h⟩ := h
  refine ⟨c, hc, ?_⟩
  have hk := (exec_keeps hc).1
  cases m with
  | send dst t =>
    simp only [notify] at h
    split at h
    · rename_i hd
      subst hd
      simp only [bind_ok] at h
      obtain ⟨⟨v, o⟩, hv, h⟩ := h
      simp only [NftStaked.exec] at hv
      obtain ⟨h1, rfl, rfl⟩ := NftStaked.stake_inv hv
      simp only [Except.ok.injEq, Prod.mk.injEq] at h
      obtain ⟨rfl, rfl⟩ := h
      exact Or.inr ⟨t, rfl, by rw [← hk]; exact h1, rfl, rfl⟩
    · rename_i hd
      simp only [Except.ok.injEq, Prod.mk.injEq] at h
      obtain ⟨rfl, rfl⟩ := h
      refine Or.inl ⟨?_, rfl, rfl⟩
      rintro t' ht; cases ht; exact hd rfl
  | _ =>
    simp only [notify, Except.ok.injEq, Prod.mk.injEq] at h
    obtain ⟨rfl, rfl⟩ := h
    exact Or.inl ⟨by simp, rfl, rfl⟩

/-- The tokens after giving back. -/
theorem giveBack_ok {b : Block} {self : Addr} {l : List (Addr × Tok)} {c c' : Coll} (h : giveBack b self l c = .ok c') :
    c'.tokens = l.foldl (fun m x => AMap.set m x.2 x.1) c.tokens ∧ c'.addr = c.addr ∧ c'.owner = c.owner ∧
      c'.operators = c.operators ∧ c'.approvals = l.foldl (fun m x => AMap.erase m x.2) c.approvals ∧
        c'.tokens.length = c.tokens.length ∧ (c.tokens.WF → c'.tokens.WF) := by
  induction l generalizing c with
  | nil => simp only [giveBack, Except.ok.injEq] at h; subst h; simp
  | cons x l ih =>
    obtain ⟨a, t⟩ := x
    simp only [giveBack, bind_ok] at h
    obtain ⟨c1, h1, h⟩ := h
    obtain ⟨i1, i2, i3, i4, i5, i6, i7⟩ := ih h
    have he := exec_effect h1
    generalize hm : CollMsg.transfer a t = m at he
    cases he with
    | transfer t' dst o ho may =>
      cases hm
      refine ⟨i1, i2, i3, i4, i5, ?_, fun hw => i7 (AMap.WF_set hw _ _)⟩
      rw [i6]; simp only [AMap.length_set, ho]; simp
    | approvals m hp => subst hm; exact absurd hp id
    | operators m hp => subst hm; exact absurd hp id
    | _ => cases hm

/-- The tokens after giving back, in the model without permissions. -/
theorem stakedGiveBack_ok {self : Addr} {l : List (Addr × Tok)} {o o' : AMap Tok Addr}
    (h : NftStaked.giveBack o self l = .ok o') : o' = l.foldl (fun m x => AMap.set m x.2 x.1) o := by
  induction l generalizing o with
  | nil => simp only [NftStaked.giveBack, Except.ok.injEq] at h; subst h; rfl
  | cons x l ih =>
    obtain ⟨a, t⟩ := x
    simp only [NftStaked.giveBack, bind_ok, require_ok] at h
    obtain ⟨_, _, h⟩ := h
    exact ih h

/-- The module can always give back what it owns. -/
theorem giveBack_runs {b : Block} {self : Addr} {l : List (Addr × Tok)} {c : Coll} {o' : AMap Tok Addr}
    (h : NftStaked.giveBack c.tokens self l = .ok o') : ∃ c', giveBack b self l c = .ok c' ∧ c'.tokens = o' := by
  induction l generalizing c with
  | nil => simp only [NftStaked.giveBack, Except.ok.injEq] at h; exact ⟨c, rfl, h⟩
  | cons x l ih =>
    obtain ⟨a, t⟩ := x
    simp only [NftStaked.giveBack, bind_ok, require_ok, decide_eq_true_eq] at h
    obtain ⟨_, ho, h⟩ := h
    have hc : c.exec b self (.transfer a t) = .ok { c with tokens := c.tokens.set t a, approvals := c.approvals.erase t } := by
      simp only [Coll.exec, Coll.move, (canSend_ok (u := ())).2 ⟨self, ho, Or.inl rfl⟩, ok_bind]
    obtain ⟨c', h1, h2⟩ := ih (c := { c with tokens := c.tokens.set t a, approvals := c.approvals.erase t }) h
    exact ⟨c', by simp only [giveBack, hc, ok_bind, h1], h2⟩

/-! ## The world without permissions -/

/-- The module over the owners of the NFTs only. -/
def proj (w : World) : NftStaked.World := { c := w.vm, self := w.self, owners := w.coll.tokens }

/-- The transaction that is seen there. -/
def image (self sender : Addr) : Call → Option NftStaked.Call
  | .coll (.mint t d) => some (.mint d t)
  | .coll (.burn t) => some (.burn sender t)
  | .coll (.transfer d t) => some (.transfer sender d t)
  | .coll (.send d t) => some (if d = self then .send sender t else .transfer sender d t)
  | .vm m => some (.exec sender m)
  | _ => none

/-- The module gave no permissions. -/
structure Clean (w : World) : Prop where
  ops : ∀ a, w.coll.operators.get (w.self, a) = none
  app : ∀ t, w.coll.tokens.get t = some w.self → (w.coll.approvals.get t).getD [] = []
  nft : w.coll.addr = w.vm.nft

theorem Clean.not_may {w : World} (h : Clean w) {b : Block} {a o : Addr} {t : Tok} (ho : w.coll.tokens.get t = some o)
    (ha : a ≠ w.self) (hm : w.coll.May b a o t) : o ≠ w.self := by
  rintro rfl
  rcases hm with h1 | h1 | h1
  · exact ha h1.symm
  · unfold Coll.isApproved at h1; rw [h.app t ho] at h1; simp at h1
  · unfold Coll.isOperator at h1; rw [h.ops a] at h1; cases h1

/-- A message of somebody else leaves the module without permissions. -/
theorem clean_exec {w : World} (h : Clean w) {c : Coll} {b : Block} {s : Addr} {m : CollMsg} (hs : s ≠ w.self)
    (hc : w.coll.exec b s m = .ok c) : Clean { w with coll := c } := by
  have hk := (exec_keeps hc).1
  refine ⟨?_, ?_, by simp only [hk]; exact h.nft⟩
  · intro a
    cases exec_effect hc with
    | operators m hm ops ho =>
      simp only
      rcases ho (w.self, a) with h1 | ⟨h1, _⟩
      · rw [h1]; exact h.ops a
      · exact absurd h1.symm hs
    | _ => exact h.ops a
  · intro t ht
    have herase : ∀ (t' : Tok) (x : AMap Tok Addr), (t' ≠ t → x.get t = w.coll.tokens.get t) → x.get t = some w.self →
        ((w.coll.approvals.erase t').get t).getD [] = [] := by
      intro t' x hx h1
      rw [AMap.get_erase]
      split
      · rfl
      · rename_i hne
        exact h.app t (by rw [← hx hne]; exact h1)
    cases exec_effect hc with
    | mint t' dst => exact herase t' _ (fun hne => AMap.get_set_ne _ _ hne) ht
    | burn t' => exact herase t' _ (fun hne => by rw [AMap.get_erase, if_neg hne]) ht
    | transfer t' dst => exact herase t' _ (fun hne => AMap.get_set_ne _ _ hne) ht
    | send t' dst => exact herase t' _ (fun hne => AMap.get_set_ne _ _ hne) ht
    | approvals m hm t' o l ho may =>
      simp only at ht ⊢
      rw [AMap.get_set]
      split
      · rename_i hk'
        subst hk'
        rw [ht] at ho; cases ho
        rcases may with h1 | h1
        · exact absurd h1.symm hs
        · unfold Coll.isOperator at h1; rw [h.ops s] at h1; cases h1
      · exact h.app t ht
    | operators => exact h.app t ht
    | ownership => exact h.app t ht

theorem foldl_erase_get (l : List (Addr × Tok)) (m : AMap Tok (List (Addr × Expiration))) (t : Tok) :
    (l.foldl (fun m x => AMap.erase m x.2) m).get t = if t ∈ l.map (·.2) then none else m.get t := by
  induction l generalizing m with
  | nil => simp
  | cons x l ih =>
    simp only [List.foldl_cons, ih, List.map_cons, List.mem_cons, AMap.get_erase]
    by_cases h1 : t ∈ l.map (·.2)
    · simp [h1]
    · by_cases h2 : x.2 = t
      · simp [h2]
      · simp [h1, h2, Ne.symm h2]

theorem foldl_set_get (l : List (Addr × Tok)) (m : AMap Tok Addr) (t : Tok) (h : t ∉ l.map (·.2)) :
    (l.foldl (fun m x => AMap.set m x.2 x.1) m).get t = m.get t := by
  induction l generalizing m with
  | nil => rfl
  | cons x l ih =>
    simp only [List.map_cons, List.mem_cons, not_or] at h
    simp only [List.foldl_cons]
    rw [ih _ h.2, AMap.get_set_ne _ _ (Ne.symm h.1)]

theorem exec_nft {s s' : NftStaked.State} {b : Block} {n : Nat} {a : Addr} {m : NftStaked.Msg} {out : NftStaked.Out}
    (h : NftStaked.exec s b n a m = .ok (s', out)) : s'.nft = s.nft ∧ s'.dao = s.dao := by
  cases m with
  | receiveNft x t =>
    simp only [NftStaked.exec] at h
    obtain ⟨_, rfl, _⟩ := NftStaked.stake_inv h; exact ⟨rfl, rfl⟩
  | unstake ts =>
    simp only [NftStaked.exec] at h
    obtain ⟨_, _, _, _, m, _, ⟨_, rfl, _⟩ | ⟨d, _, _, rfl, _⟩⟩ := NftStaked.unstake_inv h <;> exact ⟨rfl, rfl⟩
  | claimNfts =>
    simp only [NftStaked.exec] at h
    obtain ⟨_, rfl, _⟩ := NftStaked.claim_inv h; exact ⟨rfl, rfl⟩
  | updateConfig d =>
    simp only [NftStaked.exec, bind_ok, require_ok, Except.ok.injEq, Prod.mk.injEq] at h
    obtain ⟨_, _, _, _, rfl, _⟩ := h; exact ⟨rfl, rfl⟩
  | addHook x =>
    simp only [NftStaked.exec, bind_ok, require_ok, Except.ok.injEq, Prod.mk.injEq] at h
    obtain ⟨_, _, _, _, rfl, _⟩ := h; exact ⟨rfl, rfl⟩
  | removeHook x =>
    simp only [NftStaked.exec, bind_ok, require_ok, Except.ok.injEq, Prod.mk.injEq] at h
    obtain ⟨_, _, _, _, rfl, _⟩ := h; exact ⟨rfl, rfl⟩
  | updateActiveThreshold t =>
    simp only [NftStaked.exec, bind_ok, require_ok, Except.ok.injEq, Prod.mk.injEq] at h
    obtain ⟨_, _, _, _, rfl, _⟩ := h; exact ⟨rfl, rfl⟩

/-- What a call gives back is held for the caller. -/
theorem exec_send {w : NftStaked.World} (hi : NftStaked.Inv w) {s' : NftStaked.State} {b : Block} {n : Nat} {a : Addr}
    {m : NftStaked.Msg} {out : NftStaked.Out} (h : NftStaked.exec w.c b n a m = .ok (s', out)) :
    ∃ ts : List Tok, out.send = ts.map (fun t => (a, t)) ∧ ts.Nodup ∧ ∀ t ∈ ts, NftStaked.Holds w.c a t := by
  cases m with
  | receiveNft x t =>
    simp only [NftStaked.exec] at h
    obtain ⟨_, _, rfl⟩ := NftStaked.stake_inv h; exact ⟨[], rfl, List.nodup_nil, by simp⟩
  | unstake ts =>
    simp only [NftStaked.exec] at h
    obtain ⟨_, _, _, _, m, hm, h⟩ := NftStaked.unstake_inv h
    have hr := NftStaked.removeAll_inv hi.wf hm
    rcases h with ⟨_, _, ho⟩ | ⟨d, _, _, _, ho⟩
    · exact ⟨ts, ho, hr.nodup, fun t ht => Or.inl (hr.had t ht)⟩
    · exact ⟨[], ho, List.nodup_nil, by simp⟩
  | claimNfts =>
    simp only [NftStaked.exec] at h
    obtain ⟨_, _, rfl⟩ := NftStaked.claim_inv h
    exact ⟨_, rfl, NftStaked.matured_nodup b (hi.nodup a), fun t ht => Or.inr ((NftStaked.queued_split w.c b a t).2 (Or.inl ht))⟩
  | updateConfig d =>
    simp only [NftStaked.exec, bind_ok, require_ok, Except.ok.injEq, Prod.mk.injEq] at h
    obtain ⟨_, _, _, _, _, rfl⟩ := h; exact ⟨[], rfl, List.nodup_nil, by simp⟩
  | addHook x =>
    simp only [NftStaked.exec, bind_ok, require_ok, Except.ok.injEq, Prod.mk.injEq] at h
    obtain ⟨_, _, _, _, _, rfl⟩ := h; exact ⟨[], rfl, List.nodup_nil, by simp⟩
  | removeHook x =>
    simp only [NftStaked.exec, bind_ok, require_ok, Except.ok.injEq, Prod.mk.injEq] at h
    obtain ⟨_, _, _, _, _, rfl⟩ := h; exact ⟨[], rfl, List.nodup_nil, by simp⟩
  | updateActiveThreshold t =>
    simp only [NftStaked.exec, bind_ok, require_ok, Except.ok.injEq, Prod.mk.injEq] at h
    obtain ⟨_, _, _, _, _, rfl⟩ := h; exact ⟨[], rfl, List.nodup_nil, by simp⟩

/-- A transaction leaves the module without permissions. -/
theorem clean_step {w w' : World} {e : Env} {call : Call} {out : NftStaked.Out} (h : Clean w)
    (hs : step w e call = .ok (w', out)) : Clean w' := by
  cases call with
  | coll m =>
    simp only [step, bind_ok, require_ok, decide_eq_true_eq] at hs
    obtain ⟨_, ⟨hself, _⟩, hs⟩ := hs
    obtain ⟨c, hc, h1⟩ := collStep_ok hs
    have := clean_exec h hself hc
    rcases h1 with ⟨_, rfl, _⟩ | ⟨t, rfl, _, rfl, _⟩
    · exact this
    · exact ⟨this.ops, this.app, this.nft⟩
  | vm m =>
    simp only [step, bind_ok, require_ok, decide_eq_true_eq] at hs
    obtain ⟨_, ⟨hself, _⟩, ⟨c, o⟩, he, cl, hg, hs⟩ := hs
    simp only [Except.ok.injEq, Prod.mk.injEq] at hs hg
    obtain ⟨rfl, rfl⟩ := hs
    obtain ⟨g1, g2, g3, g4, g5, g6, g7⟩ := giveBack_ok hg
    refine ⟨fun a => by simp only [g4]; exact h.ops a, ?_, ?_⟩
    · intro t ht
      simp only [g5, foldl_erase_get] at ht ⊢
      split
      · rfl
      · rename_i hn
        rw [g1, foldl_set_get _ _ _ hn] at ht
        exact h.app t ht
    · simp only [g2, (exec_nft he).1]; exact h.nft

/-- Every transaction is one of the module over the owners only, or is not seen there. -/
theorem step_image {w w' : World} {e : Env} {call : Call} {out : NftStaked.Out} (h : Clean w)
    (hi : NftStaked.Inv (proj w)) (hs : step w e call = .ok (w', out)) :
    w'.self = w.self ∧
    (∀ k, image w.self e.sender call = some k → NftStaked.step (proj w) e.block k = .ok (proj w', out)) ∧
    (image w.self e.sender call = none → proj w' = proj w) := by
  cases call with
  | coll m =>
    simp only [step, bind_ok, require_ok, decide_eq_true_eq] at hs
    obtain ⟨_, ⟨hself, _⟩, hs⟩ := hs
    obtain ⟨c, hc, h1⟩ := collStep_ok hs
    refine ⟨by rcases h1 with ⟨_, rfl, _⟩ | ⟨t, rfl, _, rfl, _⟩ <;> rfl, ?_⟩
    have touch : ∀ {o : Addr} {t : Tok}, w.coll.tokens.get t = some o → w.coll.May e.block e.sender o t →
        NftStaked.canTouch (proj w) e.sender t = true := by
      intro o t ho hm
      exact NftStaked.canTouch_iff.2 ⟨o, ho, h.not_may ho hself hm, hself⟩
    have quiet : ∀ {m : CollMsg}, Permission m → image w.self e.sender (.coll m) = none ∧ ∀ t, m ≠ .send w.self t := by
      intro m hm
      cases m <;> first | exact absurd hm id | exact ⟨rfl, by simp⟩
    cases exec_effect hc with
    | mint t dst own fresh len =>
      obtain ⟨_, rfl, rfl⟩ := h1.resolve_right (by simp)
      refine ⟨fun k hk => ?_, fun hn => by cases hn⟩
      cases hk
      have hd : decide ((proj w).owners.get t = none ∧ (proj w).owners.length + 1 < U64) = true := decide_eq_true ⟨fresh, len⟩
      simp only [NftStaked.step, hd, require, if_true, ok_bind]
      rfl
    | burn t o ho may =>
      obtain ⟨_, rfl, rfl⟩ := h1.resolve_right (by simp)
      refine ⟨fun k hk => ?_, fun hn => by cases hn⟩
      cases hk
      simp only [NftStaked.step, touch ho may, require, if_true, ok_bind]
      rfl
    | transfer t dst o ho may =>
      obtain ⟨_, rfl, rfl⟩ := h1.resolve_right (by simp)
      refine ⟨fun k hk => ?_, fun hn => by cases hn⟩
      cases hk
      simp only [NftStaked.step, touch ho may, require, if_true, ok_bind]
      rfl
    | send t dst o ho may =>
      refine ⟨fun k hk => ?_, fun hn => by cases hn⟩
      simp only [image, Option.some.injEq] at hk
      rcases h1 with ⟨hne, rfl, rfl⟩ | ⟨t', ht, _, rfl, rfl⟩
      · rw [if_neg (fun hd => hne t (by rw [hd]))] at hk
        subst hk
        simp only [NftStaked.step, touch ho may, require, if_true, ok_bind]
        rfl
      · cases ht
        rw [if_pos rfl] at hk
        subst hk
        simp only [collStep, hc, ok_bind, notify, if_true] at hs
        simp only [bind_ok] at hs
        obtain ⟨⟨v, o'⟩, hv, hs⟩ := hs
        simp only [Except.ok.injEq, Prod.mk.injEq] at hs
        obtain ⟨hs1, rfl⟩ := hs
        have hv' : NftStaked.exec (proj w).c e.block (proj w).owners.length (proj w).c.nft (.receiveNft e.sender t) =
            .ok (v, { hooks := hookMsgs w.vm.hooks true e.sender [t] }) := by
          have hn := h.nft
          simp only [NftStaked.exec] at hv ⊢
          simp only [proj]
          rw [← hn]
          exact hv
        simp only [NftStaked.step, touch ho may, require, if_true, ok_bind, hv']
        have e1 : v = afterStake w.vm e.block e.sender t := by
          have := congrArg World.vm hs1; simpa using this
        subst e1
        rfl
    | approvals m hm t o l ho may =>
      obtain ⟨q1, q2⟩ := quiet hm
      rw [q1]
      refine ⟨fun k hk => (by cases hk), fun _ => ?_⟩
      rcases h1 with ⟨_, rfl, _⟩ | ⟨t', ht, _⟩
      · rfl
      · exact absurd ht (q2 t')
    | operators m hm ops ho =>
      obtain ⟨q1, q2⟩ := quiet hm
      rw [q1]
      refine ⟨fun k hk => (by cases hk), fun _ => ?_⟩
      rcases h1 with ⟨_, rfl, _⟩ | ⟨t', ht, _⟩
      · rfl
      · exact absurd ht (q2 t')
    | ownership x o ho =>
      obtain ⟨_, rfl, rfl⟩ := h1.resolve_right (by simp)
      exact ⟨fun k hk => (by cases hk), fun _ => rfl⟩
  | vm m =>
    simp only [step, bind_ok, require_ok, decide_eq_true_eq] at hs
    obtain ⟨_, ⟨hself, hnft⟩, ⟨c, o⟩, he, cl, hg, hs⟩ := hs
    simp only [Except.ok.injEq, Prod.mk.injEq] at hs hg he
    obtain ⟨rfl, rfl⟩ := hs
    refine ⟨rfl, fun k hk => ?_, fun hn => by cases hn⟩
    cases hk
    obtain ⟨ts, h1, h2, h3⟩ := exec_send (w := proj w) hi he
    obtain ⟨o', ho'⟩ := NftStaked.giveBack_ok (o := w.coll.tokens) (self := w.self) (a := e.sender) h2
      (fun t ht => hi.own _ _ (h3 t ht))
    rw [← h1] at ho'
    have e1 := stakedGiveBack_ok ho'
    have e2 := (giveBack_ok hg).1
    have hd : decide (e.sender ≠ (proj w).self ∧ e.sender ≠ (proj w).c.nft) = true :=
      decide_eq_true ⟨hself, by show e.sender ≠ w.vm.nft; rw [← h.nft]; exact hnft⟩
    have he' : NftStaked.exec (proj w).c e.block (proj w).owners.length e.sender m = .ok (c, o) := he
    have hg' : NftStaked.giveBack (proj w).owners (proj w).self o.send = .ok o' := ho'
    simp only [NftStaked.step, hd, require, if_true, ok_bind, he', hg']
    rw [e1, ← e2]
    rfl

end Verif.NftDao
