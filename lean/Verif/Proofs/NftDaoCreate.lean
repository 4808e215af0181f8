import Verif.Proofs.NftDao
import Verif.Proofs.TokenDaoCreate
/-!
# Lemmas about the creation of a voting module with an NFT collection of its own
-/

namespace Verif.NftDao
open Verif Verif.Spec.NftDao
open Verif.Spec.TokenDao (Lasting Sensible)
open Verif.NftStaked (afterStake)

/-- The state of a new voting module. -/
def freshVm (b : Block) (dao nft : Addr) (d : Option Duration) (th : Option Active.ActiveThreshold) : NftStaked.State :=
  { dao := dao, nft := nft, unstakingDuration := d, staked := [], balances := Snap.empty,
    totalStaked := Snap.empty.save () 0 b.height, claims := [], threshold := th, hooks := none }

/-- The module and the collection before the listed messages. -/
def start (b : Block) (dao self addr : Addr) (d : Option Duration) (th : Option Active.ActiveThreshold) : World :=
  { coll := newColl addr self, vm := freshVm b dao addr d th, self := self }

/-- The ownership of the collection is offered to the DAO. -/
def offered (w : World) (dao : Addr) : World :=
  { w with coll := { w.coll with owner := { w.coll.owner with pendingOwner := some dao, pendingExpiry := none } } }

theorem checkThreshold_none {th : Option Active.ActiveThreshold} {u : Unit} :
    NftStaked.checkThreshold th none = .ok u ↔ ∀ p, th = some (.percentage p) → 0 < p ∧ p ≤ DEC_ONE := by
  unfold NftStaked.checkThreshold
  cases th with
  | none => simp
  | some t =>
    cases t with
    | absolute k => simp
    | percentage p =>
      simp only [Active.assertValidPercentage, require_ok, decide_eq_true_eq, Option.some.injEq,
        Active.ActiveThreshold.percentage.injEq, forall_eq']
      constructor
      · rintro ⟨h1, h2⟩; exact ⟨by omega, h2⟩
      · rintro ⟨h1, h2⟩; exact ⟨by omega, h2⟩

theorem checkThreshold_some {th : Option Active.ActiveThreshold} {n : Nat} {u : Unit} :
    NftStaked.checkThreshold th (some n) = .ok u ↔ Sensible th n := by
  unfold NftStaked.checkThreshold Sensible
  cases th with
  | none => simp
  | some t =>
    cases t with
    | absolute k =>
      simp only [Active.assertValidCount, bind_ok, require_ok, decide_eq_true_eq]
      constructor
      · rintro ⟨_, h1, h2⟩; exact ⟨by omega, h2⟩
      · rintro ⟨h1, h2⟩; exact ⟨(), by omega, h2⟩
    | percentage p =>
      simp only [Active.assertValidPercentage, require_ok, decide_eq_true_eq]
      constructor
      · rintro ⟨h1, h2⟩; exact ⟨by omega, h2⟩
      · rintro ⟨h1, h2⟩; exact ⟨by omega, h2⟩

theorem instantiate_ok {b : Block} {dao nft : Addr} {d : Option Duration} {th : Option Active.ActiveThreshold} {s : NftStaked.State} :
    NftStaked.instantiate b dao nft none d th = .ok s ↔
      Lasting d ∧ (∀ p, th = some (.percentage p) → 0 < p ∧ p ≤ DEC_ONE) ∧ s = freshVm b dao nft d th := by
  simp only [NftStaked.instantiate, bind_ok, TokenDao.lasting_ok, checkThreshold_none, Except.ok.injEq]
  constructor
  · rintro ⟨_, h1, _, h2, rfl⟩; exact ⟨h1, h2, rfl⟩
  · rintro ⟨h1, h2, rfl⟩; exact ⟨(), h1, (), h2, rfl⟩

theorem collStep_owner {w : World} {b : Block} {s : Addr} {x : OwnerAction} {r : World × NftStaked.Out} :
    collStep w b s (.updateOwnership x) = .ok r ↔
      ∃ o, w.coll.owner.update b s x = .ok o ∧ r = ({ w with coll := { w.coll with owner := o } }, {}) := by
  simp only [collStep, Coll.exec, bind_ok, Except.ok.injEq, notify]
  constructor
  · rintro ⟨c, ⟨o, ho, rfl⟩, h⟩; exact ⟨o, ho, h.symm⟩
  · rintro ⟨o, ho, rfl⟩; exact ⟨_, ⟨o, ho, rfl⟩, rfl⟩

theorem validate_ok {th : Option Active.ActiveThreshold} {n : Nat} {u : Unit} :
    validate th n = .ok u ↔ n ≠ 0 ∧ Sensible th n := by
  simp only [validate, bind_ok, require_ok, decide_eq_true_eq, checkThreshold_some, exists_const]

/-- When a module and its collection are made, and what comes out. -/
theorem newModule_ok {b : Block} {dao self addr : Addr} {d : Option Duration} {th : Option Active.ActiveThreshold}
    {initial : List CollMsg} {w : World} :
    newModule b dao self addr d th initial = .ok w ↔
      Lasting d ∧ initial ≠ [] ∧ ∃ w1, runList b initial (start b dao self addr d th) = .ok w1 ∧
        w1.coll.owner.owner = some self ∧ w1.coll.tokens.length ≠ 0 ∧ Sensible th w1.coll.tokens.length ∧ w = offered w1 dao := by
  simp only [newModule, bind_ok, instantiate_ok, require_ok, decide_eq_true_eq, collStep_owner, Ownership.update,
    Ownership.assertOwner_ok, validate_ok, Except.ok.injEq]
  constructor
  · rintro ⟨_, ⟨h1, h2, rfl⟩, _, h3, w1, h4, x, ⟨o, ⟨_, h5, rfl⟩, rfl⟩, _, ⟨h6, h7⟩, rfl⟩
    exact ⟨h1, h3, w1, h4, h5, h6, h7, rfl⟩
  · rintro ⟨h1, h3, w1, h4, h5, h6, h7, rfl⟩
    exact ⟨_, ⟨h1, (TokenDao.sensible_iff.1 h7).1, rfl⟩, (), h3, w1, h4, _, ⟨_, ⟨(), h5, rfl⟩, rfl⟩, (), ⟨h6, h7⟩, rfl⟩

theorem create_ok {b : Block} {dao self addr : Addr} {d : Option Duration} {th : Option Active.ActiveThreshold}
    {initial : List CollMsg} {w : World} :
    create b dao self addr d th initial = .ok w ↔
      ∃ w1, newModule b dao self addr d th initial = .ok w1 ∧
        w = { w1 with coll := { w1.coll with owner := { owner := some dao } } } := by
  simp only [create, bind_ok, collStep_owner, Ownership.update, require_ok, decide_eq_true_eq, Except.ok.injEq]
  constructor
  · rintro ⟨w1, h1, x, ⟨o, ⟨_, h2, _, _, rfl⟩, rfl⟩, rfl⟩
    exact ⟨w1, h1, by simp only [h2]⟩
  · rintro ⟨w1, h1, rfl⟩
    obtain ⟨_, _, w2, _, _, _, _, rfl⟩ := newModule_ok.1 h1
    exact ⟨_, h1, _, ⟨_, ⟨(), rfl, (), rfl, rfl⟩, rfl⟩, rfl⟩

/-! ## The listed messages -/

/-- What holds all along, whatever the messages. -/
structure Kept (w0 w : World) : Prop where
  self : w.self = w0.self
  addr : w.coll.addr = w0.coll.addr
  wf : w.coll.tokens.WF
  small : w.coll.tokens.length < U64
  nft : w.vm.nft = w0.vm.nft
  dao : w.vm.dao = w0.vm.dao
  threshold : w.vm.threshold = w0.vm.threshold
  duration : w.vm.unstakingDuration = w0.vm.unstakingDuration
  claims : w.vm.claims = w0.vm.claims
  hooks : w.vm.hooks = w0.vm.hooks

theorem kept_step {w0 w w' : World} {b : Block} {s : Addr} {m : CollMsg} {out : NftStaked.Out} (h : Kept w0 w)
    (hs : collStep w b s m = .ok (w', out)) : Kept w0 w' := by
  obtain ⟨c, hc, h1⟩ := collStep_ok hs
  obtain ⟨k1, k2, k3⟩ := exec_keeps hc
  rcases h1 with ⟨_, rfl, _⟩ | ⟨t, rfl, _, rfl, _⟩
  · exact ⟨h.self, k1.trans h.addr, k2 h.wf, k3 h.wf h.small, h.nft, h.dao, h.threshold, h.duration, h.claims, h.hooks⟩
  · exact ⟨h.self, k1.trans h.addr, k2 h.wf, k3 h.wf h.small, h.nft, h.dao, h.threshold, h.duration, h.claims, h.hooks⟩

theorem kept_run {b : Block} {l : List CollMsg} {w0 w w' : World} (h : Kept w0 w) (hr : runList b l w = .ok w') :
    Kept w0 w' := by
  induction l generalizing w with
  | nil => simp only [runList, Except.ok.injEq] at hr; subst hr; exact h
  | cons m l ih =>
    simp only [runList, bind_ok] at hr
    obtain ⟨⟨w1, o⟩, h1, hr⟩ := hr
    exact ih (kept_step h h1) hr

theorem U64_pos : 0 < U64 := by unfold U64; exact Nat.pow_pos (by decide)

theorem kept_start (b : Block) (dao self addr : Addr) (d : Option Duration) (th : Option Active.ActiveThreshold) :
    Kept (start b dao self addr d th) (start b dao self addr d th) :=
  ⟨rfl, rfl, AMap.WF_nil, U64_pos, rfl, rfl, rfl, rfl, rfl, rfl⟩

/-- Harmless messages of the module itself. -/
theorem harmless_step {w w' : World} {b : Block} {m : CollMsg} {out : NftStaked.Out} (h : Clean w) (hm : Harmless w.self m)
    (hs : collStep w b w.self m = .ok (w', out)) : Clean w' ∧ w'.vm = w.vm ∧ w'.self = w.self := by
  obtain ⟨c, hc, h1⟩ := collStep_ok hs
  have hk := (exec_keeps hc).1
  rcases h1 with ⟨_, rfl, _⟩ | ⟨t, rfl, _⟩
  · refine ⟨⟨?_, ?_, hk.trans h.nft⟩, rfl, rfl⟩
    · intro a
      cases exec_effect hc with
      | operators m _ ops ho =>
        simp only
        rcases ho (w.self, a) with h1 | ⟨_, h1 | ⟨e, rfl⟩⟩
        · rw [h1]; exact h.ops a
        · exact h1
        · exact absurd hm id
      | _ => exact h.ops a
    · intro t ht
      have herase : ∀ (t' : Tok) (x : AMap Tok Addr), (t' ≠ t → x.get t = w.coll.tokens.get t) → x.get t = some w.self →
          ((w.coll.approvals.erase t').get t).getD [] = [] := by
        intro t' x hx h1
        rw [AMap.get_erase]
        split
        · rfl
        · rename_i hne
          exact h.app t (by rw [← hx hne]; exact h1)
      cases exec_effect hc with
      | mint t' dst => exact herase t' _ (fun hne => AMap.get_set_ne _ _ hne) ht
      | burn t' => exact herase t' _ (fun hne => by rw [AMap.get_erase, if_neg hne]) ht
      | transfer t' dst => exact herase t' _ (fun hne => AMap.get_set_ne _ _ hne) ht
      | send t' dst => exact herase t' _ (fun hne => AMap.get_set_ne _ _ hne) ht
      | approvals m _ t' o l ho may hl =>
        simp only at ht ⊢
        rw [AMap.get_set]
        split
        · rename_i hk'
          subst hk'
          rcases hl with rfl | ⟨a, e, rfl⟩ | hl
          · rfl
          · exact absurd hm id
          · rw [h.app t' ht] at hl
            cases l with
            | nil => rfl
            | cons x l => exact absurd (hl x List.mem_cons_self) (by simp)
        · exact h.app t ht
      | operators => exact h.app t ht
      | ownership => exact h.app t ht
  · exact absurd rfl hm

theorem harmless_run {b : Block} {l : List CollMsg} {w w' : World} (h : Clean w) (hm : ∀ m ∈ l, Harmless w.self m)
    (hr : runList b l w = .ok w') : Clean w' ∧ w'.vm = w.vm ∧ w'.self = w.self := by
  induction l generalizing w with
  | nil => simp only [runList, Except.ok.injEq] at hr; subst hr; exact ⟨h, rfl, rfl⟩
  | cons m l ih =>
    simp only [runList, bind_ok] at hr
    obtain ⟨⟨w1, o⟩, h1, hr⟩ := hr
    obtain ⟨i1, i2, i3⟩ := harmless_step h (hm m List.mem_cons_self) h1
    obtain ⟨j1, j2, j3⟩ := ih i1 (fun x hx => by rw [i3]; exact hm x (List.mem_cons_of_mem _ hx)) hr
    exact ⟨j1, j2.trans i2, j3.trans i3⟩

theorem clean_start (b : Block) (dao self addr : Addr) (d : Option Duration) (th : Option Active.ActiveThreshold) :
    Clean (start b dao self addr d th) :=
  ⟨fun _ => rfl, fun _ ht => by simp [start, newColl, AMap.get] at ht, rfl⟩

/-! ## Minting -/

theorem set_fresh {K V : Type} [DecidableEq K] {m : AMap K V} {k : K} {v : V} (h : m.get k = none) :
    m.set k v = m ++ [(k, v)] := by
  induction m with
  | nil => rfl
  | cons x m ih =>
    obtain ⟨k', v'⟩ := x
    by_cases hk : k' = k
    · simp [AMap.get, hk] at h
    · simp [AMap.get, hk] at h
      simp only [AMap.set, hk, if_false, List.cons_append]
      rw [ih h]

theorem get_append_none {K V : Type} [DecidableEq K] {m m' : AMap K V} {k : K} (h : AMap.get m k = none) :
    AMap.get (m ++ m') k = AMap.get m' k := by
  induction m with
  | nil => rfl
  | cons x m ih =>
    obtain ⟨k', v'⟩ := x
    by_cases hk : k' = k
    · simp [AMap.get, hk] at h
    · simp [AMap.get, hk] at h
      simp only [List.cons_append, AMap.get, hk, if_false]
      exact ih h

theorem erase_fresh {K V : Type} [DecidableEq K] (k : K) : AMap.erase ([] : AMap K V) k = [] := rfl

theorem mint_run {b : Block} {l : List (Tok × Addr)} {w w' : World} (ho : w.coll.owner.owner = some w.self)
    (ha : w.coll.approvals = []) :
    runList b (mintAll l) w = .ok w' ↔
      (l.map (·.1)).Nodup ∧ (∀ x ∈ l, w.coll.tokens.get x.1 = none) ∧
        (l ≠ [] → w.coll.tokens.length + l.length < U64) ∧
          w' = { w with coll := { w.coll with tokens := w.coll.tokens ++ l } } := by
  induction l generalizing w with
  | nil =>
    simp only [mintAll, List.map_nil, runList, Except.ok.injEq, List.append_nil]
    constructor
    · rintro rfl; exact ⟨List.nodup_nil, by simp, by simp, rfl⟩
    · rintro ⟨_, _, _, h⟩; exact h.symm
  | cons x l ih =>
    obtain ⟨t, a⟩ := x
    have hstep : ∀ r, collStep w b w.self (.mint t a) = .ok r ↔ (w.coll.tokens.get t = none ∧ w.coll.tokens.length + 1 < U64) ∧
        r = ({ w with coll := { w.coll with tokens := w.coll.tokens.set t a, approvals := w.coll.approvals.erase t } }, {}) := by
      intro r
      simp only [collStep, Coll.exec, bind_ok, Ownership.assertOwner_ok, ho, true_and, exists_const, require_ok,
        decide_eq_true_eq, Except.ok.injEq, notify]
      constructor
      · rintro ⟨c, ⟨h1, rfl⟩, h2⟩; exact ⟨h1, h2.symm⟩
      · rintro ⟨h1, rfl⟩; exact ⟨_, ⟨h1, rfl⟩, rfl⟩
    simp only [mintAll, List.map_cons, runList, bind_ok, hstep]
    have key := fun (h : w.coll.tokens.get t = none) => ih
      (w := { w with coll := { w.coll with tokens := w.coll.tokens.set t a, approvals := w.coll.approvals.erase t } }) ho
      (by simp only [ha]; rfl)
    simp only [mintAll] at key
    have hget : ∀ (h : w.coll.tokens.get t = none) (q : Tok),
        (w.coll.tokens.set t a).get q = none ↔ w.coll.tokens.get q = none ∧ q ≠ t := by
      intro h q
      rw [AMap.get_set]
      by_cases hq : t = q
      · subst hq; simp
      · simp [hq, Ne.symm hq]
    constructor
    · rintro ⟨⟨w1, o⟩, ⟨⟨h1, h2⟩, h3⟩, h4⟩
      simp only [Prod.mk.injEq] at h3
      obtain ⟨rfl, rfl⟩ := h3
      obtain ⟨k1, k2, k3, rfl⟩ := (key h1).1 h4
      have hl : (w.coll.tokens.set t a).length = w.coll.tokens.length + 1 := by rw [AMap.length_set, if_pos h1]
      refine ⟨List.nodup_cons.2 ⟨?_, k1⟩, ?_, ?_, ?_⟩
      · intro hm
        obtain ⟨y, hy, hy'⟩ := List.mem_map.1 hm
        exact ((hget h1 _).1 (k2 y hy)).2 hy'
      · intro y hy
        rcases List.mem_cons.1 hy with rfl | hy
        · exact h1
        · exact ((hget h1 _).1 (k2 y hy)).1
      · intro _
        by_cases hln : l = []
        · subst hln; simpa using h2
        · have := k3 hln
          simp only [hl] at this
          simp only [List.length_cons]; omega
      · simp only [set_fresh h1, ha, erase_fresh, List.append_assoc, List.singleton_append]
    · rintro ⟨h1, h2, h3, rfl⟩
      have hf : w.coll.tokens.get t = none := h2 (t, a) List.mem_cons_self
      have hlen := h3 (by simp)
      simp only [List.length_cons] at hlen
      have hnd := List.nodup_cons.1 h1
      refine ⟨_, ⟨⟨hf, by omega⟩, rfl⟩, (key hf).2 ⟨hnd.2, ?_, ?_, ?_⟩⟩
      · intro y hy
        exact (hget hf _).2 ⟨h2 y (List.mem_cons_of_mem _ hy), fun he => hnd.1 (List.mem_map.2 ⟨y, hy, he⟩)⟩
      · intro _
        have hl : (w.coll.tokens.set t a).length = w.coll.tokens.length + 1 := by rw [AMap.length_set, if_pos hf]
        simp only [hl]; omega
      · simp only [set_fresh hf, ha, erase_fresh, List.append_assoc, List.singleton_append]

end Verif.NftDao
