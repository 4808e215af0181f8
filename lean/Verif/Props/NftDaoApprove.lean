import Verif.Props.NftDao
/-!
# C92: who may bring an NFT to the voting module
-/

namespace Verif.NftDao
open Verif Verif.Spec.NftDao

/-- `a` is allowed to move `t`, and to let others move it, for its own sake: as its owner or as an operator of its owner. -/
def Commands (w : World) (b : Block) (a : Addr) (t : Tok) : Prop :=
  ∃ o, owner w t = some o ∧ (o = a ∨ ∃ e, w.coll.operators.get (o, a) = some e ∧ e.isExpired b = false)

theorem operator_iff {c : Coll} {b : Block} {o a : Addr} :
    c.isOperator b o a = true ↔ ∃ e, c.operators.get (o, a) = some e ∧ e.isExpired b = false := by
  unfold Coll.isOperator
  cases c.operators.get (o, a) with
  | none => simp
  | some e => simp

theorem move_iff {w : World} {b : Block} {a : Addr} {t : Tok} : MayMove w b a t ↔ Commands w b a t ∨
    ∃ o e, owner w t = some o ∧ (a, e) ∈ (w.coll.approvals.get t).getD [] ∧ e.isExpired b = false := by
  unfold MayMove Commands
  constructor
  · rintro ⟨o, h, h1 | ⟨l, e, h1, h2, h3⟩ | h1⟩
    · exact Or.inl ⟨o, h, Or.inl h1⟩
    · exact Or.inr ⟨o, e, h, by rw [h1]; exact h2, h3⟩
    · exact Or.inl ⟨o, h, Or.inr h1⟩
  · rintro (⟨o, h, h1 | h1⟩ | ⟨o, e, h, h1, h2⟩)
    · exact ⟨o, h, Or.inl h1⟩
    · exact ⟨o, h, Or.inr (Or.inr h1)⟩
    · refine ⟨o, h, Or.inr (Or.inl ?_)⟩
      cases hg : w.coll.approvals.get t with
      | none => rw [hg] at h1; simp at h1
      | some l => exact ⟨l, e, rfl, by rw [hg] at h1; exact h1, h2⟩

theorem other_move {w : World} {b : Block} {a : Addr} {x t : Tok} {l : List (Addr × Expiration)}
    (h : x = t → ∀ e, (a, e) ∈ l ↔ (a, e) ∈ (w.coll.approvals.get t).getD []) :
    MayMove { w with coll := { w.coll with approvals := w.coll.approvals.set t l } } b a x ↔ MayMove w b a x := by
  rw [move_iff, move_iff]
  refine or_congr Iff.rfl ?_
  refine exists_congr fun o => exists_congr fun e => and_congr Iff.rfl (and_congr ?_ Iff.rfl)
  by_cases hx : x = t
  · subst hx
    simp only [AMap.get_set_self, Option.getD_some]
    exact h rfl e
  · simp only [AMap.get_set_ne _ _ (Ne.symm hx)]

/-- **C92.** Only who owns the token or is an operator of its owner can approve somebody. The one approved may then move the
token until the approval ends, and as before if it is theirs to command; nothing changes for anybody else and for any
other token. -/
theorem C92_approve {w w' : World} {e : Env} {out : NftStaked.Out} {sp : Addr} {t : Tok} {ex : Expiration}
    (hs : step w e (.coll (.approve sp t ex)) = .ok (w', out)) :
    Commands w e.block e.sender t ∧
    (∀ b, MayMove w' b sp t ↔ ex.isExpired b = false ∨ Commands w b sp t) ∧
    (∀ b a x, a ≠ sp ∨ x ≠ t → (MayMove w' b a x ↔ MayMove w b a x)) := by
  simp only [step, collStep, Coll.exec, Coll.checkCanApprove, notify, bind_ok, require_ok, orErr_ok, Except.ok.injEq,
    Prod.mk.injEq, Bool.or_eq_true, decide_eq_true_eq, operator_iff] at hs
  obtain ⟨_, _, _, ⟨_, ⟨o, ho, hm⟩, _, _, rfl⟩, rfl, _⟩ := hs
  refine ⟨⟨o, ho, hm⟩, fun b => ?_, fun b a x hx => ?_⟩
  · rw [move_iff]
    simp only [AMap.get_set_self, Option.getD_some, withoutSpender, List.mem_append, List.mem_filter, decide_eq_true_eq,
      ne_eq, not_true_eq_false, and_false, List.mem_singleton, Prod.mk.injEq, true_and, false_or]
    constructor
    · rintro (h | ⟨_, _, _, rfl, h⟩)
      · exact Or.inr h
      · exact Or.inl h
    · rintro (h | h)
      · exact Or.inr ⟨o, ex, ho, rfl, h⟩
      · exact Or.inl h
  · refine other_move (fun hxt f => ?_)
    have hne : a ≠ sp := by rcases hx with hx | hx; exacts [hx, absurd hxt hx]
    simp [withoutSpender, hne]

/-- **C92.** Only who owns the token or is an operator of its owner can revoke an approval. The one concerned may then move
the token only if it is theirs to command; nothing changes for anybody else and for any other token. -/
theorem C92_revoke {w w' : World} {e : Env} {out : NftStaked.Out} {sp : Addr} {t : Tok}
    (hs : step w e (.coll (.revoke sp t)) = .ok (w', out)) :
    Commands w e.block e.sender t ∧ (∀ b, MayMove w' b sp t ↔ Commands w b sp t) ∧
    (∀ b a x, a ≠ sp ∨ x ≠ t → (MayMove w' b a x ↔ MayMove w b a x)) := by
  simp only [step, collStep, Coll.exec, Coll.checkCanApprove, notify, bind_ok, require_ok, orErr_ok, Except.ok.injEq,
    Prod.mk.injEq, Bool.or_eq_true, decide_eq_true_eq, operator_iff] at hs
  obtain ⟨_, _, _, ⟨_, ⟨o, ho, hm⟩, rfl⟩, rfl, _⟩ := hs
  refine ⟨⟨o, ho, hm⟩, fun b => ?_, fun b a x hx => ?_⟩
  · rw [move_iff]
    simp only [AMap.get_set_self, Option.getD_some, withoutSpender, List.mem_filter, decide_eq_true_eq,
      ne_eq, not_true_eq_false, and_false, false_and, exists_false, or_false]
    exact Iff.rfl
  · refine other_move (fun hxt f => ?_)
    have hne : a ≠ sp := by rcases hx with hx | hx; exacts [hx, absurd hxt hx]
    simp [withoutSpender, hne]

/-- Address 5 owns token 1, lets 6 and 7 move it, and takes it back from 6: 7 can bring it to the voting module, 6 cannot. -/
example :
    let w0 : World := ⟨⟨8, { owner := some 1 }, [(1, 5)], [], []⟩, ⟨1, 8, none, [], Snap.empty, Snap.empty, [], none, none⟩, 9⟩
    (match step w0 ⟨⟨2, 2⟩, 5⟩ (.coll (.approve 6 1 .never)) with
      | .ok (w1, _) =>
        match step w1 ⟨⟨2, 2⟩, 5⟩ (.coll (.approve 7 1 (.atHeight 9))) with
        | .ok (w2, _) =>
          match step w2 ⟨⟨3, 3⟩, 5⟩ (.coll (.revoke 6 1)) with
          | .ok (w3, _) =>
            (match step w2 ⟨⟨4, 4⟩, 6⟩ (.coll (.send 9 1)) with | .ok _ => true | .error _ => false) &&
            (match step w3 ⟨⟨4, 4⟩, 6⟩ (.coll (.send 9 1)) with | .ok _ => false | .error _ => true) &&
            (match step w3 ⟨⟨4, 4⟩, 7⟩ (.coll (.send 9 1)) with
              | .ok (w4, _) => decide (w4.vm.stakedNfts 7 = [1])
              | .error _ => false) &&
            (match step w3 ⟨⟨9, 9⟩, 7⟩ (.coll (.send 9 1)) with | .ok _ => false | .error _ => true)
          | .error _ => false
        | .error _ => false
      | .error _ => false) = true := by decide +kernel

end Verif.NftDao
