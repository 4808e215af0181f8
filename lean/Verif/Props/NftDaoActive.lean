import Verif.Props.NftDaoPower
import Verif.Props.ActiveThreshold
/-!
# C93: whether the holders of a new collection can make their DAO active
-/

namespace Verif.NftDao
open Verif Verif.Spec.NftDao
open Verif.Spec.TokenDao (Lasting Sensible)
open Verif.NftStaked (afterStake afterUnstake hookMsgs powerAt totalPowerAt)

/-! ## The threshold -/

theorem active_iff {th : Option Active.ActiveThreshold} {n staked all : Nat} (hs : Sensible th n) (hall : all < U128) :
    ∃ r, Active.isActiveNft th staked all = .ok r ∧ (r = true ↔ Met th staked all) := by
  cases th with
  | none => exact ⟨true, rfl, by simp [Met]⟩
  | some x =>
    cases x with
    | absolute k => exact ⟨decide (k ≤ staked), rfl, by simp [Met]⟩
    | percentage p =>
      unfold Active.isActiveNft
      by_cases h0 : staked = 0
      · exact ⟨false, by simp only [h0, if_true], by simp [Met, h0]⟩
      · simp only [h0, if_false]
        refine ⟨_, by simp only [Active.percentCount_eq hall hs.2, ok_bind]; rfl, ?_⟩
        rw [decide_eq_true_eq, Active.count_le]
        simp only [Met]
        rw [Nat.mul_comm p all]
        generalize all * p = y
        omega

theorem met_mono {th : Option Active.ActiveThreshold} {s s' all : Nat} (h : Met th s all) (hs : s ≤ s') : Met th s' all := by
  cases th with
  | none => trivial
  | some x =>
    cases x with
    | absolute k => simp only [Met] at *; omega
    | percentage p =>
      simp only [Met] at *
      have := Nat.mul_le_mul_right (10 ^ 18) hs
      exact ⟨by omega, Nat.lt_of_lt_of_le h.2 (Nat.add_le_add_right this _)⟩

/-! ## The start -/

theorem mintAll_harmless {l : List (Tok × Addr)} {self : Addr} : ∀ m ∈ mintAll l, Harmless self m := by
  intro m hm
  obtain ⟨x, _, rfl⟩ := List.mem_map.1 hm
  trivial

theorem minted_init {l : List (Tok × Addr)} {b : Block} {w : World} (h : Minted l b w) : plain.init b w := by
  obtain ⟨dao, self, addr, d, t, h1, h2, h3, h⟩ := h
  exact ⟨dao, self, addr, d, t, mintAll l, h1, h2, h3, mintAll_harmless, h⟩

/-- What the module and the collection look like then. -/
theorem minted_shape {l : List (Tok × Addr)} {b : Block} {w : World} (h : Minted l b w) :
    w.coll.tokens = l ∧ w.coll.approvals = [] ∧ w.coll.operators = [] ∧ (l.map (·.1)).Nodup ∧ l.length < U64 ∧
      Sensible w.vm.threshold l.length ∧ w.vm = freshVm b w.vm.dao w.coll.addr w.vm.unstakingDuration w.vm.threshold := by
  obtain ⟨dao, self, addr, d, t, _, _, _, h | h⟩ := h
  · obtain ⟨w1, h1, rfl⟩ := create_ok.1 h
    obtain ⟨⟨_, h2, _, h4, h5⟩, rfl⟩ := newModule_mint.1 h1
    exact ⟨rfl, rfl, rfl, h4, h5, h2, rfl⟩
  · obtain ⟨⟨_, h2, _, h4, h5⟩, rfl⟩ := newModule_mint.1 h
    exact ⟨rfl, rfl, rfl, h4, h5, h2, rfl⟩

/-! ## NFTs that stay where they are -/

/-- `y` gave no permissions and sends nothing. -/
structure Mute (w : World) (y : Addr) (T : List Tok) : Prop where
  ops : ∀ a, w.coll.operators.get (y, a) = none
  own : ∀ t ∈ T, w.coll.tokens.get t = some y ∧ (w.coll.approvals.get t).getD [] = []

theorem Mute.not_may {w : World} {y : Addr} {T : List Tok} (h : Mute w y T) {b : Block} {a o : Addr} {t : Tok}
    (ho : w.coll.tokens.get t = some o) (ha : a ≠ y) (hm : w.coll.May b a o t) : t ∉ T := by
  intro ht
  obtain ⟨h1, h2⟩ := h.own t ht
  rw [h1] at ho; cases ho
  rcases hm with h3 | h3 | h3
  · exact ha h3.symm
  · unfold Coll.isApproved at h3; rw [h2] at h3; simp at h3
  · unfold Coll.isOperator at h3; rw [h.ops a] at h3; cases h3

theorem mute_exec {w : World} {y : Addr} {T : List Tok} (h : Mute w y T) {c : Coll} {b : Block} {s : Addr} {m : CollMsg}
    (hs : s ≠ y) (hc : w.coll.exec b s m = .ok c) {v : NftStaked.State} : Mute { w with coll := c, vm := v } y T := by
  refine ⟨?_, ?_⟩
  · intro a
    cases exec_effect hc with
    | operators m hm ops ho =>
      simp only
      rcases ho (y, a) with h1 | ⟨h1, _⟩
      · rw [h1]; exact h.ops a
      · exact absurd h1.symm hs
    | _ => exact h.ops a
  · intro t ht
    have hne : ∀ {q : Tok}, q ∉ T → q ≠ t := by rintro q hq rfl; exact hq ht
    obtain ⟨h1, h2⟩ := h.own t ht
    cases exec_effect hc with
    | mint t' dst own fresh len =>
      have : t' ≠ t := by rintro rfl; rw [fresh] at h1; cases h1
      simp only [AMap.get_set_ne _ _ this, AMap.get_erase, if_neg this]; exact ⟨h1, h2⟩
    | burn t' o ho may =>
      have := hne (h.not_may ho hs may)
      simp only [AMap.get_erase, if_neg this]; exact ⟨h1, h2⟩
    | transfer t' dst o ho may =>
      have := hne (h.not_may ho hs may)
      simp only [AMap.get_set_ne _ _ this, AMap.get_erase, if_neg this]; exact ⟨h1, h2⟩
    | send t' dst o ho may =>
      have := hne (h.not_may ho hs may)
      simp only [AMap.get_set_ne _ _ this, AMap.get_erase, if_neg this]; exact ⟨h1, h2⟩
    | approvals m hm t' o l ho may =>
      have : t' ≠ t := by
        rintro rfl
        rw [h1] at ho; cases ho
        rcases may with h3 | h3
        · exact hs h3.symm
        · unfold Coll.isOperator at h3; rw [h.ops s] at h3; cases h3
      simp only [AMap.get_set_ne _ _ this]; exact ⟨h1, h2⟩
    | operators => exact ⟨h1, h2⟩
    | ownership => exact ⟨h1, h2⟩

theorem mute_step {w w' : World} {y : Addr} {T : List Tok} (h : Mute w y T) (hy : y ≠ w.self) {e : Env} {call : Call}
    {out : NftStaked.Out} (hi : NftStaked.Inv (proj w)) (hs : step w e call = .ok (w', out)) (hne : e.sender ≠ y) : Mute w' y T := by
  cases call with
  | coll m =>
    simp only [step, bind_ok, require_ok, decide_eq_true_eq] at hs
    obtain ⟨_, _, hs⟩ := hs
    obtain ⟨c, hc, h1⟩ := collStep_ok hs
    rcases h1 with ⟨_, rfl, _⟩ | ⟨t, rfl, _, rfl, _⟩
    · exact mute_exec h hne hc (v := w.vm)
    · exact mute_exec h hne hc
  | vm m =>
    simp only [step, bind_ok, require_ok, decide_eq_true_eq] at hs
    obtain ⟨_, ⟨hself, _⟩, ⟨c, o⟩, he, cl, hg, hs⟩ := hs
    simp only [Except.ok.injEq, Prod.mk.injEq] at hs hg he
    obtain ⟨rfl, rfl⟩ := hs
    obtain ⟨g1, g2, g3, g4, g5, g6, g7⟩ := giveBack_ok hg
    refine ⟨fun a => by simp only [g4]; exact h.ops a, fun t ht => ?_⟩
    obtain ⟨h1, h2⟩ := h.own t ht
    obtain ⟨ts, k1, k2, k3⟩ := exec_send (w := proj w) hi he
    have hn : t ∉ o.send.map (·.2) := by
      rw [k1, List.map_map]
      intro hm
      obtain ⟨q, hq, rfl⟩ := List.mem_map.1 hm
      have := hi.own _ _ (k3 q hq)
      simp only [proj] at this
      rw [show (((fun x : Addr × Tok => x.2) ∘ fun t => (e.sender, t)) q) = q from rfl] at h1
      rw [h1] at this
      exact hy (Option.some.inj this)
    simp only [g1, g5, foldl_set_get _ _ _ hn, foldl_erase_get, if_neg hn]
    exact ⟨h1, h2⟩

/-- The identifiers of the NFTs of a list that are for `a`. -/
def idsFor (a : Addr) (l : List (Tok × Addr)) : List Tok := (l.filter (fun x => x.2 = a)).map (·.1)

theorem mem_idsFor {a : Addr} {l : List (Tok × Addr)} {t : Tok} : t ∈ idsFor a l ↔ (t, a) ∈ l := by
  unfold idsFor
  simp only [List.mem_map, List.mem_filter, decide_eq_true_eq]
  constructor
  · rintro ⟨⟨q, x⟩, ⟨h1, h2⟩, h3⟩; simp only at h2 h3; subst h2; subst h3; exact h1
  · intro h; exact ⟨(t, a), ⟨h, rfl⟩, rfl⟩

/-- What stays as it was while the DAO does nothing. -/
structure Still (l : List (Tok × Addr)) (w0 w : World) (log : List Event) : Prop where
  dao : Mute w w0.vm.dao (idsFor w0.vm.dao l)
  coll : Mute w w0.coll.addr (idsFor w0.coll.addr l)
  mine : ∀ t ∈ idsFor w0.self l, owner w t = some w.self ∧ staker t log = none
  th : w.vm.threshold = w0.vm.threshold
  less : ∀ t, owner w0 t = none → owner w t = none

theorem exec_config {s s' : NftStaked.State} {b : Block} {n : Nat} {a : Addr} {m : NftStaked.Msg} {out : NftStaked.Out}
    (h : NftStaked.exec s b n a m = .ok (s', out)) (ha : a ≠ s.dao) :
    s'.threshold = s.threshold ∧ s'.unstakingDuration = s.unstakingDuration := by
  cases m with
  | receiveNft x t =>
    simp only [NftStaked.exec] at h
    obtain ⟨_, rfl, _⟩ := NftStaked.stake_inv h; exact ⟨rfl, rfl⟩
  | unstake ts =>
    simp only [NftStaked.exec] at h
    obtain ⟨_, _, _, _, m, _, ⟨_, rfl, _⟩ | ⟨d, _, _, rfl, _⟩⟩ := NftStaked.unstake_inv h <;> exact ⟨rfl, rfl⟩
  | claimNfts =>
    simp only [NftStaked.exec] at h
    obtain ⟨_, rfl, _⟩ := NftStaked.claim_inv h; exact ⟨rfl, rfl⟩
  | updateConfig d =>
    simp only [NftStaked.exec, bind_ok, require_ok, decide_eq_true_eq] at h
    obtain ⟨_, hd, _⟩ := h; exact absurd hd ha
  | addHook x =>
    simp only [NftStaked.exec, bind_ok, require_ok, decide_eq_true_eq] at h
    obtain ⟨_, hd, _⟩ := h; exact absurd hd ha
  | removeHook x =>
    simp only [NftStaked.exec, bind_ok, require_ok, decide_eq_true_eq] at h
    obtain ⟨_, hd, _⟩ := h; exact absurd hd ha
  | updateActiveThreshold t =>
    simp only [NftStaked.exec, bind_ok, require_ok, decide_eq_true_eq] at h
    obtain ⟨_, hd, _⟩ := h; exact absurd hd ha

theorem step_config {w w' : World} {e : Env} {call : Call} {out : NftStaked.Out} (hs : step w e call = .ok (w', out))
    (ha : e.sender ≠ w.vm.dao) : w'.vm.threshold = w.vm.threshold ∧ w'.vm.unstakingDuration = w.vm.unstakingDuration := by
  cases call with
  | coll m =>
    simp only [step, bind_ok, require_ok, decide_eq_true_eq] at hs
    obtain ⟨_, _, hs⟩ := hs
    obtain ⟨c, hc, ⟨_, rfl, _⟩ | ⟨t, rfl, _, rfl, _⟩⟩ := collStep_ok hs <;> exact ⟨rfl, rfl⟩
  | vm m =>
    simp only [step, bind_ok, require_ok, decide_eq_true_eq] at hs
    obtain ⟨_, _, ⟨c, o⟩, he, cl, hg, hs⟩ := hs
    simp only [Except.ok.injEq, Prod.mk.injEq] at hs
    obtain ⟨rfl, rfl⟩ := hs
    exact exec_config he ha

theorem idle_silent {dao : Addr} {log : List Event} (h : Idle dao log) : Silent dao log := fun e he hd => absurd hd (h e he)

theorem minted_any {l : List (Tok × Addr)} {b : Block} {w : World} (h : Minted l b w) : sys.init b w := by
  obtain ⟨dao, self, addr, d, t, h1, h2, h3, h⟩ := h
  exact ⟨dao, self, addr, d, t, mintAll l, h1, h2, h3, trivial, h⟩

/-- The rules do not depend on how the history began. -/
theorem run_any {ok ok' : Addr → List CollMsg → Prop} {w w' : World} {b b' : Block} {log : List Event}
    (h : (sysOf ok).Run w b log w' b') : (sysOf ok').Run w b log w' b' := by
  induction h with
  | refl => exact .refl
  | @step s1 s2 b1 l env call out _ hb hs ih => exact Sys.Run.step (M := sysOf ok') (env := env) (call := call) (out := out) ih hb hs

theorem still_run {l : List (Tok × Addr)} {b0 b : Block} {w0 w : World} {log : List Event} (h0 : Minted l b0 w0)
    (hr : plain.Run w0 b0 log w b) (hi : Idle w0.vm.dao log) : Still l w0 w log := by
  obtain ⟨s1, s2, s3, s4, s5, s6, s7⟩ := minted_shape h0
  obtain ⟨_, n1, n2, n3, _⟩ := init_shape (minted_init h0)
  have hmem : ∀ {t a}, t ∈ idsFor a l → w0.coll.tokens.get t = some a := by
    intro t a ht
    rw [s1]
    exact AMap.get_of_mem s4 (mem_idsFor.1 ht)
  have hstart : ∀ y, Mute w0 y (idsFor y l) := fun y =>
    ⟨fun a => by rw [s3]; rfl, fun t ht => ⟨hmem ht, by rw [s2]; rfl⟩⟩
  have hless := (C91_silent (minted_any h0) (run_any hr) (idle_silent hi)).2
  induction hr with
  | refl => exact ⟨hstart _, hstart _, fun t ht => ⟨hmem ht, rfl⟩, rfl, hless⟩
  | @step w1 w2 b1 lg env call out hr hb hs ih =>
    have hs' : step w1 env call = .ok (w2, out) := hs
    have hi' : Idle w0.vm.dao lg := fun e he => hi e (List.mem_cons_of_mem _ he)
    have ih := ih hi' (C91_silent (minted_any h0) (run_any hr) (idle_silent hi')).2
    have hreach : plain.Reach w1 b1 lg := ⟨b0, w0, minted_init h0, hr⟩
    have hinv := inv_plain hreach
    obtain ⟨k1, k2, k3, k4⟩ := run_keeps (ok := fun self l => ∀ m ∈ l, Harmless self m) hr
    have hdao : env.sender ≠ w0.vm.dao := hi _ List.mem_cons_self
    have hcol : env.sender ≠ w0.coll.addr ∧ env.sender ≠ w1.self := by
      have : env.sender ≠ w1.self ∧ env.sender ≠ w1.coll.addr := by
        cases call with
        | coll m =>
          simp only [step, bind_ok, require_ok, decide_eq_true_eq] at hs'
          obtain ⟨_, h, _⟩ := hs'; exact h
        | vm m =>
          simp only [step, bind_ok, require_ok, decide_eq_true_eq] at hs'
          obtain ⟨_, h, _⟩ := hs'; exact h
      exact ⟨by rw [← k2]; exact this.2, this.1⟩
    refine ⟨mute_step ih.dao (by rw [k1]; exact n1) hinv hs' hdao, mute_step ih.coll (by rw [k1]; exact Ne.symm n3) hinv hs' hcol.1,
      ?_, (step_config hs' (by rw [k4]; exact hdao)).1.trans ih.th, hless⟩
    intro t ht
    obtain ⟨m1, m2⟩ := ih.mine t ht
    have hself := (step_keeps hs').1
    have hkeep : owner w2 t = some w2.self := by
      by_contra hne
      have := (C92_returned hreach hs m1 hne).1
      rw [m2] at this; cases this
    refine ⟨hkeep, ?_⟩
    have hc := (reach_image hreach).1
    unfold staker
    rw [if_neg, if_neg]
    · exact m2
    · rintro ⟨_, g⟩; exact g hkeep
    · intro hcall
      simp only at hcall
      subst hcall
      simp only [step, bind_ok, require_ok, decide_eq_true_eq] at hs'
      obtain ⟨_, _, hs'⟩ := hs'
      obtain ⟨c, hce, _⟩ := collStep_ok hs'
      have he := exec_effect hce
      generalize hm : CollMsg.send w1.self t = m at he
      cases he with
      | send t' dst o ho may =>
        cases hm
        exact hc.not_may ho hcol.2 may (by
          have : w1.coll.tokens.get t = some w1.self := m1
          rw [this] at ho; exact (Option.some.inj ho).symm)
      | approvals m hp => subst hm; exact absurd hp id
      | operators m hp => subst hm; exact absurd hp id
      | _ => cases hm

/-! ## How much can be staked -/

theorem staked_nodup {w : NftStaked.World} (h : NftStaked.Inv w) : (w.c.staked.map (fun e => e.1.2)).Nodup := by
  have hwf := h.wf
  unfold AMap.WF at hwf
  have e : w.c.staked.map (fun e => e.1.2) = (w.c.staked.map Prod.fst).map Prod.snd := by rw [List.map_map]; rfl
  rw [e]
  refine List.Nodup.map_on ?_ hwf
  rintro ⟨a, t⟩ h1 ⟨a', t'⟩ h2 rfl
  have g : ∀ {a t}, (a, t) ∈ w.c.staked.map Prod.fst → w.c.staked.get (a, t) = some () := by
    intro a t hm
    have := (AMap.mem_keys_iff w.c.staked (a, t)).1 hm
    cases hg : w.c.staked.get (a, t) with
    | none => rw [hg] at this; cases this
    | some u => rfl
  rw [h.uniq a a' t (Or.inl (g h1)) (Or.inl (g h2))]

theorem idlers_ids {l : List (Tok × Addr)} {who : List Addr} :
    ((l.filter (fun x => x.2 ∈ who)).map (·.1)).length = forThem who l := by
  rw [List.length_map]; rfl

theorem split_count (l : List (Tok × Addr)) (who : List Addr) : notFor who l + forThem who l = l.length := by
  unfold notFor forThem
  induction l with
  | nil => rfl
  | cons x l ih =>
    by_cases h : x.2 ∈ who
    · simp only [List.filter_cons, h, not_true_eq_false, decide_false, decide_true, if_true, List.length_cons]
      simp only [Bool.false_eq_true, if_false]; omega
    · simp only [List.filter_cons, h, not_false_eq_true, decide_false, decide_true, if_true, List.length_cons]
      simp only [Bool.false_eq_true, if_false]; omega

/-- **C93.** As long as the DAO does nothing, no more can be staked than the NFTs there are without those minted for the DAO, the
module itself or the collection: these stay where they are. -/
theorem C93_ceiling {l : List (Tok × Addr)} {b0 b : Block} {w0 w : World} {log : List Event} (h0 : Minted l b0 w0)
    (hr : plain.Run w0 b0 log w b) (hi : Idle w0.vm.dao log) :
    w.vm.total + forThem (idlers w0) l ≤ supply w ∧ supply w ≤ l.length := by
  have hst := still_run h0 hr hi
  have hreach : plain.Reach w b log := ⟨b0, w0, minted_init h0, hr⟩
  have hinv := inv_plain hreach
  obtain ⟨s1, s2, s3, s4, s5, s6, s7⟩ := minted_shape h0
  obtain ⟨k1, k2, k3, k4⟩ := run_keeps (ok := fun self l => ∀ m ∈ l, Harmless self m) hr
  obtain ⟨_, n1, n2, n3, _⟩ := init_shape (minted_init h0)
  have hin : ∀ t a, owner w t = some a → t ∈ w.coll.tokens.map Prod.fst := fun t a ht =>
    (AMap.mem_keys_iff _ _).2 (by rw [show w.coll.tokens.get t = some a from ht]; rfl)
  constructor
  · have hlen : w.vm.total = (w.vm.staked.map (fun e => e.1.2)).length := by rw [List.length_map]; exact hinv.len
    rw [hlen, ← idlers_ids, ← List.length_append]
    have hmine : ∀ {t : Tok}, t ∈ (l.filter (fun x => x.2 ∈ idlers w0)).map (·.1) →
        ∃ a, owner w t = some a ∧ (∀ x, w.vm.staked.get (x, t) ≠ some ()) := by
      intro t ht
      obtain ⟨⟨q, a⟩, hx, rfl⟩ := List.mem_map.1 ht
      obtain ⟨hx1, hx2⟩ := List.mem_filter.1 hx
      simp only [idlers, List.mem_cons, List.not_mem_nil, or_false, decide_eq_true_eq] at hx2
      rcases hx2 with rfl | rfl | rfl
      · have := (hst.dao.own q (mem_idsFor.2 hx1)).1
        refine ⟨_, this, fun x hx' => ?_⟩
        have h2 : w.coll.tokens.get q = some w.self := hinv.own x q (Or.inl hx')
        rw [this] at h2
        exact n1 (by rw [← k1]; exact Option.some.inj h2)
      · obtain ⟨m1, m2⟩ := hst.mine q (mem_idsFor.2 hx1)
        refine ⟨_, m1, fun x hx' => ?_⟩
        have := (C92_custody hreach x q).2 (Or.inl (NftStaked.mem_stakedNfts.2 hx'))
        rw [m2] at this; cases this
      · have := (hst.coll.own q (mem_idsFor.2 hx1)).1
        refine ⟨_, this, fun x hx' => ?_⟩
        have h2 : w.coll.tokens.get q = some w.self := hinv.own x q (Or.inl hx')
        rw [this] at h2
        exact n3 (by rw [← k1]; exact (Option.some.inj h2).symm)
    have hg : ∀ {t : Tok}, t ∈ w.vm.staked.map (fun e => e.1.2) → ∃ x, w.vm.staked.get (x, t) = some () := by
      intro t ht
      obtain ⟨⟨⟨x, q⟩, u⟩, he, rfl⟩ := List.mem_map.1 ht
      have := (AMap.mem_keys_iff w.vm.staked (x, q)).1 (List.mem_map.2 ⟨_, he, rfl⟩)
      refine ⟨x, ?_⟩
      cases hq : w.vm.staked.get (x, q) with
      | none => rw [hq] at this; cases this
      | some u => rfl
    have hnd : (w.vm.staked.map (fun e => e.1.2) ++ (l.filter (fun x => x.2 ∈ idlers w0)).map (·.1)).Nodup := by
      rw [List.nodup_append]
      refine ⟨staked_nodup hinv, List.Nodup.sublist (List.Sublist.map _ List.filter_sublist) s4, ?_⟩
      rintro t h1 t' h2 rfl
      obtain ⟨x, hx⟩ := hg h1
      obtain ⟨_, _, h3⟩ := hmine h2
      exact h3 x hx
    have hsub : w.vm.staked.map (fun e => e.1.2) ++ (l.filter (fun x => x.2 ∈ idlers w0)).map (·.1) ⊆ w.coll.tokens.map Prod.fst := by
      intro t ht
      rcases List.mem_append.1 ht with ht | ht
      · obtain ⟨x, hx⟩ := hg ht
        exact hin t _ (hinv.own x t (Or.inl hx))
      · obtain ⟨a, ha, _⟩ := hmine ht
        exact hin t a ha
    have := (hnd.subperm hsub).length_le
    rw [List.length_map] at this
    exact this
  · have hsub : w.coll.tokens.map Prod.fst ⊆ l.map (·.1) := by
      intro t ht
      have h1 := (AMap.mem_keys_iff _ _).1 ht
      by_contra hne
      have h2 : owner w0 t = none := by
        unfold owner
        rw [s1]
        cases hg : AMap.get l t with
        | none => rfl
        | some a => exact absurd (List.mem_map.2 ⟨_, AMap.mem_of_get hg, rfl⟩) hne
      rw [show w.coll.tokens.get t = none from hst.less t h2] at h1
      cases h1
    have hwf : (w.coll.tokens.map Prod.fst).Nodup := hinv.wfo
    have := (hwf.subperm hsub).length_le
    simp only [List.length_map] at this
    exact this

theorem supply_step {w w' : World} {e : Env} {call : Call} {out : NftStaked.Out} (hs : step w e call = .ok (w', out))
    (hwf : w.coll.tokens.WF) :
    (supply w' ≤ supply w ∨ ∃ t a, call = .coll (.mint t a) ∧ w.coll.tokens.get t = none) ∧
      ((∀ t, call ≠ .coll (.burn t)) → supply w ≤ supply w') := by
  cases call with
  | coll m =>
    simp only [step, bind_ok, require_ok, decide_eq_true_eq] at hs
    obtain ⟨_, _, hs⟩ := hs
    obtain ⟨c, hc, h1⟩ := collStep_ok hs
    have hw : supply w' = c.tokens.length := by rcases h1 with ⟨_, rfl, _⟩ | ⟨t, rfl, _, rfl, _⟩ <;> rfl
    rw [hw]
    unfold supply
    cases exec_effect hc with
    | mint t dst own fresh len =>
      exact ⟨Or.inr ⟨t, dst, rfl, fresh⟩, fun _ => by simp only [AMap.length_set]; omega⟩
    | burn t o ho may =>
      have := AMap.length_erase hwf t
      exact ⟨Or.inl (by simp only; omega), fun h => absurd rfl (h t)⟩
    | transfer t dst o ho may =>
      have e : (w.coll.tokens.set t dst).length = w.coll.tokens.length := by rw [AMap.length_set, ho]; simp
      exact ⟨Or.inl (by simp only [e]; omega), fun _ => by simp only [e]; omega⟩
    | send t dst o ho may =>
      have e : (w.coll.tokens.set t dst).length = w.coll.tokens.length := by rw [AMap.length_set, ho]; simp
      exact ⟨Or.inl (by simp only [e]; omega), fun _ => by simp only [e]; omega⟩
    | approvals => exact ⟨Or.inl (Nat.le_refl _), fun _ => Nat.le_refl _⟩
    | operators => exact ⟨Or.inl (Nat.le_refl _), fun _ => Nat.le_refl _⟩
    | ownership => exact ⟨Or.inl (Nat.le_refl _), fun _ => Nat.le_refl _⟩
  | vm m =>
    simp only [step, bind_ok, require_ok, decide_eq_true_eq] at hs
    obtain ⟨_, _, ⟨c, o⟩, he, cl, hg, hs⟩ := hs
    simp only [Except.ok.injEq, Prod.mk.injEq] at hs hg
    obtain ⟨rfl, rfl⟩ := hs
    have e : supply { w with vm := c, coll := cl } = supply w := (giveBack_ok hg).2.2.2.2.2.1
    exact ⟨Or.inl (Nat.le_of_eq e), fun _ => Nat.le_of_eq e.symm⟩

/-- From some point of an idle history on: the supply does not grow, it stays if nobody burns, and what the module answers for
heights above that point is within what could be staked there. -/
theorem later_run {l : List (Tok × Addr)} {b0 b b' : Block} {w0 w w' : World} {log log' : List Event} (h0 : Minted l b0 w0)
    (hr : plain.Run w0 b0 log w b) (hi : Idle w0.vm.dao log) (hr' : plain.Run w b log' w' b') (hi' : Idle w0.vm.dao log') :
    supply w' ≤ supply w ∧ (NoBurns log' → supply w' = supply w) ∧
      ∀ x, b.height < x → totalPowerAt w'.vm x + forThem (idlers w0) l ≤ supply w := by
  have hsnap := (snapshotted (fun self l => ∀ m ∈ l, Harmless self m)).2
  induction hr' with
  | refl =>
    refine ⟨Nat.le_refl _, fun _ => rfl, fun x hx => ?_⟩
    have hreach : plain.Reach w b log := ⟨b0, w0, minted_init h0, hr⟩
    have f2 : totalPowerAt w.vm x = w.vm.total :=
      congrArg (Option.getD · 0) (Snap.atHeight_future (hsnap.upTo hreach) hx ())
    rw [f2]; exact (C93_ceiling h0 hr hi).1
  | @step w1 w2 b1 lg env call out hr1 hb hs ih =>
    have hi1 : Idle w0.vm.dao lg := fun e he => hi' e (List.mem_cons_of_mem _ he)
    obtain ⟨i1, i2, i3⟩ := ih hi1
    have hall : plain.Run w0 b0 (lg ++ log) w1 b1 := hr.append hr1
    have hidle : Idle w0.vm.dao (lg ++ log) := by
      intro e he
      rcases List.mem_append.1 he with he | he
      · exact hi1 e he
      · exact hi e he
    have hreach : plain.Reach w1 b1 (lg ++ log) := ⟨b0, w0, minted_init h0, hall⟩
    have hinv := inv_plain hreach
    have hall2 : plain.Run w0 b0 (⟨w1, env, call, out, w2⟩ :: (lg ++ log)) w2 env.block :=
      Sys.Run.step (M := plain) (env := env) (call := call) (out := out) hall hb hs
    have hidle2 : Idle w0.vm.dao (⟨w1, env, call, out, w2⟩ :: (lg ++ log)) := by
      intro e he
      rcases List.mem_cons.1 he with rfl | he
      · exact hi' _ List.mem_cons_self
      · exact hidle e he
    obtain ⟨c1, c2⟩ := C93_ceiling h0 hall2 hidle2
    obtain ⟨u1, u2⟩ := supply_step hs hinv.wfo
    have hu : supply w2 ≤ supply w1 := by
      rcases u1 with u1 | ⟨t, a, rfl, hf⟩
      · exact u1
      · exfalso
        obtain ⟨s1, s2, s3, s4, s5, s6, s7⟩ := minted_shape h0
        have hst := still_run h0 hall hidle
        have hown := (C91_silent (minted_any h0) (run_any hall) (idle_silent hidle)).1
        obtain ⟨k1, k2, k3, k4⟩ := run_keeps (ok := fun self l => ∀ m ∈ l, Harmless self m) hall
        obtain ⟨hsh, _⟩ := init_shape (minted_init h0)
        have hs' : step w1 env (.coll (.mint t a)) = .ok (w2, out) := hs
        simp only [step, bind_ok, collStep, Coll.exec, Ownership.assertOwner_ok] at hs'
        obtain ⟨_, hreq, c, ⟨_, hmint, _⟩, _⟩ := hs'
        have m3 : env.sender ≠ w1.self := (of_decide_eq_true ((require_ok _ _ _).1 hreq)).1
        rw [hown] at hmint
        rcases hsh with h | h
        · rw [h] at hmint
          exact hi' _ List.mem_cons_self (Option.some.inj hmint).symm
        · rw [h] at hmint
          exact m3 (by rw [k1]; exact (Option.some.inj hmint).symm)
    refine ⟨Nat.le_trans hu i1, fun hn => ?_, fun x hx => ?_⟩
    · have hn1 : NoBurns lg := fun e he => hn e (List.mem_cons_of_mem _ he)
      have hn2 := hn _ List.mem_cons_self
      have := u2 hn2
      have := i2 hn1
      omega
    · by_cases hle : x ≤ env.block.height
      · have e2 : totalPowerAt w2.vm x = totalPowerAt w1.vm x := congrArg (Option.getD · 0)
          ((step_writes hs).2.1.atHeight (hsnap.upTo hreach) hb.1 hle ())
        rw [e2]; exact i3 x hx
      · have hreach2 : plain.Reach w2 env.block (⟨w1, env, call, out, w2⟩ :: (lg ++ log)) := ⟨b0, w0, minted_init h0, hall2⟩
        have f2 : totalPowerAt w2.vm x = w2.vm.total :=
          congrArg (Option.getD · 0) (Snap.atHeight_future (hsnap.upTo hreach2) (Nat.not_le.1 hle) ())
        rw [f2]; omega

theorem minted_power {l : List (Tok × Addr)} {b0 : Block} {w0 : World} (h0 : Minted l b0 w0) (x : Nat) :
    totalPowerAt w0.vm x = 0 := by
  obtain ⟨s1, s2, s3, s4, s5, s6, s7⟩ := minted_shape h0
  rw [s7]
  unfold totalPowerAt freshVm
  by_cases hx : x ≤ b0.height
  · rw [Snap.atHeight_save (Snap.upTo_empty b0.height) hx]; rfl
  · have hu : (Snap.empty.save () 0 b0.height : Snap Unit Nat).UpTo b0.height := Snap.upTo_save (Snap.upTo_empty _) (Nat.le_refl _)
    rw [Snap.atHeight_future hu (Nat.not_le.1 hx), Snap.get_save]
    rfl

/-- **C93.** Once there are too few NFTs for the count, besides those of the DAO, the module and the collection, the DAO is
inactive from the next height on in every history in which it does nothing itself. That is so from the beginning if too few were
minted for others, or later if holders burn theirs. -/
theorem C93_locked {l : List (Tok × Addr)} {b0 b b' b'' : Block} {w0 w w' : World} {log log' : List Event} {n : Nat}
    (h0 : Minted l b0 w0) (hth : w0.vm.threshold = some (.absolute n)) (hr : plain.Run w0 b0 log w b) (hi : Idle w0.vm.dao log)
    (hn : supply w < n + forThem (idlers w0) l) (hr' : plain.Run w b log' w' b') (hi' : Idle w0.vm.dao log')
    (hb : b.height < b''.height) : active w' b'' = .ok false := by
  obtain ⟨_, _, h3⟩ := later_run h0 hr hi hr' hi'
  have hall : plain.Run w0 b0 (log' ++ log) w' b' := hr.append hr'
  have hidle : Idle w0.vm.dao (log' ++ log) := by
    intro e he
    rcases List.mem_append.1 he with he | he
    · exact hi' e he
    · exact hi e he
  have hth' := (still_run h0 hall hidle).th
  have := h3 b''.height hb
  unfold active NftStaked.active
  rw [hth', hth]
  simp only [Active.isActiveNft]
  congr 1
  rw [decide_eq_false_iff_not]
  omega

/-- **C93.** If the NFTs for others do not meet a percentage of all NFTs, the DAO is inactive from the next height on in every
history in which it does nothing and nobody burns an NFT. -/
theorem C93_locked_percentage {l : List (Tok × Addr)} {b0 b b' b'' : Block} {w0 w w' : World} {log log' : List Event}
    (h0 : Minted l b0 w0) (hr : plain.Run w0 b0 log w b) (hi : Idle w0.vm.dao log)
    (hn : ¬ Met w0.vm.threshold (supply w - forThem (idlers w0) l) (supply w)) (hr' : plain.Run w b log' w' b')
    (hi' : Idle w0.vm.dao log') (hnb : NoBurns log') (hb : b.height < b''.height) : active w' b'' = .ok false := by
  obtain ⟨_, h2, h3⟩ := later_run h0 hr hi hr' hi'
  have hall : plain.Run w0 b0 (log' ++ log) w' b' := hr.append hr'
  have hidle : Idle w0.vm.dao (log' ++ log) := by
    intro e he
    rcases List.mem_append.1 he with he | he
    · exact hi' e he
    · exact hi e he
  have hth' := (still_run h0 hall hidle).th
  have hs := (minted_shape h0).2.2.2.2.2.1
  have hsm : w'.coll.tokens.length < U128 :=
    Nat.lt_trans (inv_plain ⟨b0, w0, minted_init h0, hall⟩).small NftStaked.U64_lt_U128
  have := h3 b''.height hb
  have hsup := h2 hnb
  unfold active NftStaked.active
  rw [hth']
  obtain ⟨r, hr, hiff⟩ := active_iff (staked := totalPowerAt w'.vm b''.height) hs hsm
  rw [hr]
  cases r with
  | false => rfl
  | true =>
    exfalso
    have hm := hiff.1 rfl
    rw [show w'.coll.tokens.length = supply w from hsup] at hm
    exact hn (met_mono hm (by omega))

/-! ## Staking everything -/

theorem stake_list {l0 : List (Tok × Addr)} {b0 b : Block} {w0 : World} (h0 : Minted l0 b0 w0) :
    ∀ (l : List (Tok × Addr)) {w : World} {b1 : Block} {log : List Event}, plain.Run w0 b0 log w b1 → b1.le b →
    Idle w0.vm.dao log → NoBurns log → (l.map (·.1)).Nodup → (∀ x ∈ l, owner w x.1 = some x.2 ∧ x.2 ∉ idlers w0) →
    ∃ w' b2 log', plain.Run w0 b0 log' w' b2 ∧ b2.le b ∧ Idle w0.vm.dao log' ∧ NoBurns log' ∧
      w'.vm.total = w.vm.total + l.length := by
  intro l
  induction l with
  | nil => intro w b1 log hr hle hi hn _ _; exact ⟨w, b1, log, hr, hle, hi, hn, rfl⟩
  | cons x l ih =>
    intro w b1 log hr hle hi hn hnd hown
    obtain ⟨t, a⟩ := x
    obtain ⟨ho, ha⟩ := hown _ List.mem_cons_self
    simp only [idlers, List.mem_cons, List.not_mem_nil, or_false, not_or] at ha ho
    obtain ⟨k1, k2, k3, k4⟩ := run_keeps (ok := fun self l => ∀ m ∈ l, Harmless self m) hr
    have hreach : plain.Reach w b1 log := ⟨b0, w0, minted_init h0, hr⟩
    obtain ⟨w1, out, s1, s2, s3, s4, s5⟩ := C92_stakeable (b' := b) hreach (a := a) (t := t) (by rw [k1]; exact ha.2.1)
      (by rw [k2]; exact ha.2.2) ⟨a, ho, Or.inl rfl⟩
    have hnd' := List.nodup_cons.1 hnd
    have hr1 : plain.Run w0 b0 (⟨w, ⟨b, a⟩, .coll (.send w.self t), out, w1⟩ :: log) w1 b :=
      Sys.Run.step (M := plain) (env := ⟨b, a⟩) (call := .coll (.send w.self t)) (out := out) hr hle s1
    obtain ⟨w2, b2, log', r1, r2, r3, r4, r5⟩ := ih hr1 (Block.le_refl _) (by
        intro e he
        rcases List.mem_cons.1 he with rfl | he
        · exact ha.1
        · exact hi e he) (by
        intro e he
        rcases List.mem_cons.1 he with rfl | he
        · intro q; simp
        · exact hn e he) hnd'.2 (by
        intro x hx
        obtain ⟨g1, g2⟩ := hown x (List.mem_cons_of_mem _ hx)
        have hne : t ≠ x.1 := fun hh => hnd'.1 (List.mem_map.2 ⟨x, hx, hh.symm⟩)
        exact ⟨(send_other s1 hne).1.trans g1, g2⟩)
    exact ⟨w2, b2, log', r1, r2, r3, r4, by rw [r5, s5, List.length_cons]; omega⟩

/-- **C93.** If the NFTs for others meet the threshold out of all NFTs, their holders can make the DAO active: they stake all of
them in one block, without any doing of the DAO, and it is active from the next height on. -/
theorem C93_can_activate_partial {l : List (Tok × Addr)} {b0 b : Block} {w0 : World} (h0 : Minted l b0 w0) (hb : b0.le b)
    (hm : Met w0.vm.threshold (notFor (idlers w0) l) l.length) :
    ∃ w b' log, plain.Run w0 b0 log w b' ∧ b'.le b ∧ Idle w0.vm.dao log ∧ NoBurns log ∧
      w.vm.total = notFor (idlers w0) l ∧ ∀ b'', b.height < b''.height → active w b'' = .ok true := by
  obtain ⟨s1, s2, s3, s4, s5, s6, s7⟩ := minted_shape h0
  obtain ⟨w, b', log, h1, h2, h3, h4, h5⟩ := stake_list h0 (l.filter (fun x => x.2 ∉ idlers w0)) .refl hb
    (fun e he => by cases he) (fun e he => by cases he) (List.Nodup.sublist (List.Sublist.map _ List.filter_sublist) s4) (by
      rintro ⟨t, a⟩ hx
      obtain ⟨h1, h2⟩ := List.mem_filter.1 hx
      refine ⟨?_, by simpa using h2⟩
      unfold owner; rw [s1]; exact AMap.get_of_mem s4 h1)
  have ht0 : w0.vm.total = 0 := by rw [s7]; exact NftStaked.total_save _ _ _
  have htot : w.vm.total = notFor (idlers w0) l := by rw [h5, ht0, Nat.zero_add]; rfl
  refine ⟨w, b', log, h1, h2, h3, h4, htot, fun b'' hlt => ?_⟩
  have hreach : plain.Reach w b' log := ⟨b0, w0, minted_init h0, h1⟩
  have hsnap := (snapshotted (fun self l => ∀ m ∈ l, Harmless self m)).2
  have f2 : totalPowerAt w.vm b''.height = w.vm.total :=
    congrArg (Option.getD · 0) (Snap.atHeight_future (hsnap.upTo hreach) (Nat.lt_of_le_of_lt h2.1 hlt) ())
  have hsup := (later_run h0 .refl (fun e he => by cases he) h1 h3).2.1 h4
  have hl : supply w0 = l.length := by unfold supply; rw [s1]
  have hsm : w.coll.tokens.length < U128 := Nat.lt_trans (inv_plain hreach).small NftStaked.U64_lt_U128
  unfold active NftStaked.active
  rw [(still_run h0 h1 h3).th, f2, htot]
  obtain ⟨r, hr, hiff⟩ := active_iff (staked := notFor (idlers w0) l) s6 hsm
  rw [hr]
  rw [show w.coll.tokens.length = l.length from hsup.trans hl] at hiff
  rw [hiff.2 hm]

/-- **C93.** With a count, the holders can make the DAO active exactly if the NFTs for others reach it. -/
theorem C93_count {l : List (Tok × Addr)} {b0 : Block} {w0 : World} {n : Nat} (h0 : Minted l b0 w0)
    (hth : w0.vm.threshold = some (.absolute n)) :
    (∃ w b log b'', plain.Run w0 b0 log w b ∧ Idle w0.vm.dao log ∧ b.le b'' ∧ active w b'' = .ok true) ↔
      n ≤ notFor (idlers w0) l := by
  have hl := split_count l (idlers w0)
  obtain ⟨s1, s2, s3, s4, s5, s6, s7⟩ := minted_shape h0
  have hsup : supply w0 = l.length := by unfold supply; rw [s1]
  constructor
  · rintro ⟨w, b, log, b'', h1, h2, h3, h4⟩
    by_contra hn
    by_cases hlt : b0.height < b''.height
    · have := C93_locked h0 hth .refl (fun e he => by cases he) (by omega) h1 h2 hlt
      rw [h4] at this; cases this
    · have hreach : plain.Reach w0 b0 [] := ⟨b0, w0, minted_init h0, .refl⟩
      have hle : b''.height ≤ b0.height := Nat.not_lt.1 hlt
      have hst := (snapshotted (fun self l => ∀ m ∈ l, Harmless self m)).2.stable hreach h1 (x := b''.height) (by
        intro e he
        obtain ⟨_, _, b1, _, r1, r2, _⟩ := h1.event e he
        exact Nat.le_trans hle (Nat.le_trans r1.block_le.1 r2.1)) ()
      have hz : totalPowerAt w.vm b''.height = 0 :=
        (congrArg (Option.getD · 0) hst).trans (minted_power h0 _)
      unfold active NftStaked.active at h4
      rw [(still_run h0 h1 h2).th, hth, hz] at h4
      simp only [Active.isActiveNft, Except.ok.injEq, decide_eq_true_eq] at h4
      have hs := s6
      rw [hth] at hs
      have : 0 < n := hs.1
      omega
  · intro hn
    obtain ⟨w, b', log, h1, h2, h3, _, _, h5⟩ := C93_can_activate_partial h0 (Block.le_refl b0) (by rw [hth]; exact hn)
    exact ⟨w, b', log, ⟨b0.height + 1, b0.time⟩, h1, h3, ⟨by have := h2.1; simp only; omega, h2.2⟩, h5 _ (by simp)⟩

end Verif.NftDao
