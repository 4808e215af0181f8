import Verif.Proofs.DaoRewards
/-!
# Histories of dao-rewards-distributor
-/

namespace Verif.DaoRewards
open ExternalRewards (SCALE SCALE_pos mul256 add256 subN to128)
open Spec.DaoRewards

/-- A hook caller is registered for a distribution. -/
def Reg (m : AMap Addr (List Nat)) (c : Addr) (id : Nat) : Prop := ∃ l, m.get c = some l ∧ id ∈ l

theorem Reg.subscribe {m : AMap Addr (List Nat)} {c h : Addr} {i id : Nat} (hr : Reg m c id) :
    Reg (subscribe m i h) c id := by
  obtain ⟨l, h1, h2⟩ := hr
  unfold DaoRewards.subscribe
  by_cases hc : h = c
  · subst hc
    refine ⟨_, AMap.get_set_self _ _ _, ?_⟩
    rw [h1]
    exact List.mem_append_left _ h2
  · exact ⟨l, by rw [AMap.get_set_ne _ _ hc]; exact h1, h2⟩

theorem reg_subscribe (m : AMap Addr (List Nat)) (h : Addr) (id : Nat) : Reg (subscribe m id h) h id :=
  ⟨_, AMap.get_set_self _ _ _, List.mem_append_right _ (List.mem_singleton.2 rfl)⟩

theorem Reg.unsubscribe {m : AMap Addr (List Nat)} {c h : Addr} {i id : Nat} (hr : Reg m c id) (hi : i ≠ id) :
    Reg (unsubscribe m i h) c id := by
  obtain ⟨l, h1, h2⟩ := hr
  unfold DaoRewards.unsubscribe
  have hm : ∀ l : List Nat, id ∈ l → id ∈ l.filter (fun j => decide (j ≠ i)) := by
    intro l hl
    rw [List.mem_filter]
    exact ⟨hl, decide_eq_true (Ne.symm hi)⟩
  split
  · rename_i he
    by_cases hc : h = c
    · subst hc
      rw [h1] at he
      have := hm l h2
      simp only [Option.getD_some] at he
      rw [he] at this
      cases this
    · exact ⟨l, by rw [AMap.get_erase, if_neg hc]; exact h1, h2⟩
  · by_cases hc : h = c
    · subst hc
      refine ⟨_, AMap.get_set_self _ _ _, ?_⟩
      rw [h1]
      exact hm l h2
    · exact ⟨l, by rw [AMap.get_set_ne _ _ hc]; exact h1, h2⟩

/-! ### What operations leave alone -/

theorem fundDist_same {d d' : Dist} {b : Block} {t n : Nat} (h : fundDist d b t n = .ok d') : Same d d' := by
  unfold fundDist at h
  split at h
  · obtain ⟨_, _, h1⟩ := (bind_ok _ _ _).mp h
    simp only [Except.ok.injEq] at h1; subst h1; exact ⟨rfl, rfl, rfl⟩
  · obtain ⟨_, _, h1⟩ := (bind_ok _ _ _).mp h
    obtain ⟨_, _, h2⟩ := (bind_ok _ _ _).mp h1
    simp only [Except.ok.injEq] at h2; subst h2; exact ⟨rfl, rfl, rfl⟩
  · rename_i amount dur c _
    unfold fundLinear at h
    obtain ⟨d1, h1, h2⟩ := (bind_ok _ _ _).mp h
    obtain ⟨p, _, h3⟩ := (bind_ok _ _ _).mp h2
    obtain ⟨e, _, h4⟩ := (bind_ok _ _ _).mp h3
    have hs : Same d d1 := by
      unfold fundLinearStart at h1
      split at h1
      · simp only [Except.ok.injEq] at h1; subst h1; exact ⟨rfl, rfl, rfl⟩
      · split at h1
        · obtain ⟨_, _, g1⟩ := (bind_ok _ _ _).mp h1
          obtain ⟨_, _, g2⟩ := (bind_ok _ _ _).mp g1
          simp only [Except.ok.injEq] at g2; subst g2; exact ⟨rfl, rfl, rfl⟩
        · obtain ⟨_, _, g1⟩ := (bind_ok _ _ _).mp h1
          simp only [Except.ok.injEq] at g1; subst g1; exact ⟨rfl, rfl, rfl⟩
    split at h4
    · obtain ⟨_, _, g1⟩ := (bind_ok _ _ _).mp h4
      simp only [Except.ok.injEq] at g1; subst g1; exact hs
    · simp only [Except.ok.injEq] at h4; subst h4; exact hs

theorem withdrawDist_same {d d' : Dist} {b : Block} {n : Nat} (h : withdrawDist d b = .ok (d', n)) : Same d d' := by
  unfold withdrawDist at h
  obtain ⟨_, _, h1⟩ := (bind_ok _ _ _).mp h
  obtain ⟨_, _, h2⟩ := (bind_ok _ _ _).mp h1
  obtain ⟨_, _, h3⟩ := (bind_ok _ _ _).mp h2
  simp only [Except.ok.injEq, Prod.mk.injEq] at h3
  obtain ⟨rfl, _⟩ := h3
  exact ⟨rfl, rfl, rfl⟩

theorem updateRate_same {d d' : Dist} {b : Block} {t : Nat} {r : Option Rate} (h : updateRate d b t r = .ok d') :
    Same d d' := by
  unfold updateRate at h
  split at h
  · simp only [Except.ok.injEq] at h; subst h; exact ⟨rfl, rfl, rfl⟩
  · obtain ⟨_, _, h1⟩ := (bind_ok _ _ _).mp h
    unfold transition at h1
    split at h1
    · simp only [Except.ok.injEq] at h1; subst h1; exact ⟨rfl, rfl, rfl⟩
    · obtain ⟨_, _, h2⟩ := (bind_ok _ _ _).mp h1
      obtain ⟨_, _, h3⟩ := (bind_ok _ _ _).mp h2
      obtain ⟨_, _, h4⟩ := (bind_ok _ _ _).mp h3
      obtain ⟨_, _, h5⟩ := (bind_ok _ _ _).mp h4
      obtain ⟨_, _, h6⟩ := (bind_ok _ _ _).mp h5
      simp only [Except.ok.injEq] at h6; subst h6; exact ⟨rfl, rfl, rfl⟩

/-! ### What a transaction does to a distribution -/

/-- The flows of a transaction. -/
def Flow (id : Nat) (e : Event) (n k c : Nat) : Prop := fundedIn id e = n ∧ claimedIn id e = k ∧ clawedIn id e = c

/-- The distribution is the only thing that changes. -/
structure OnlyDist (id : Nat) (w w' : World) : Prop where
  acc : accOf w'.c id = accOf w.c id
  pend : pendOf w'.c id = pendOf w.c id
  votes : w'.votes = w.votes

/-- A transaction funds the distribution. -/
def IsFund (id : Nat) (w : World) : Call → Prop
  | .exec _ _ (.fund i) => target w i = id
  | .send _ _ _ i => target w i = id
  | _ => False

/-- What a transaction does to a distribution. -/
inductive Eff (id : Nat) (w w' : World) (b : Block) (call : Call) (out : List Pay) : Prop where
  | quiet (hd : w'.c.dists.get id = w.c.dists.get id) (ho : OnlyDist id w w')
      (hr : ∀ c, Reg w.c.hooks c id → Reg w'.c.hooks c id) (hf : Flow id ⟨w, b, call, out, w'⟩ 0 0 0)
  | hook (ids : List Nat) (as : List Addr) (h : updateMembers b (w.answers b) ids as w.c = .ok w'.c)
      (hv : w'.votes = w.votes) (hf : Flow id ⟨w, b, call, out, w'⟩ 0 0 0)
  | change (vp : Addr) (diffs : List (Addr × Nat)) (via : List Addr) (hc : call = .change vp diffs via)
      (hne : diffs ≠ []) (h : announce b (w'.answers b) (diffs.map Prod.fst) via w.c = .ok w'.c)
      (hv : w'.votes = w.votes.set vp ((w.vote vp).change b.height diffs)) (hf : Flow id ⟨w, b, call, out, w'⟩ 0 0 0)
  | fund (d d' : Dist) (n : Nat) (hd : w.c.dists.get id = some d) (hd' : w'.c.dists.get id = some d')
      (h : fundDist d b (w.answers b d.vp).total n = .ok d') (ho : OnlyDist id w w') (hk : w'.c.hooks = w.c.hooks)
      (hc : IsFund id w call) (hf : Flow id ⟨w, b, call, out, w'⟩ n 0 0)
  | claim (a : Addr) (coins : List (Nat × Nat)) (hc : call = .exec a coins (.claim id)) (s1 : State) (h : updateRewards w.c b (w.answers b) a id = .ok s1)
      (hs : w'.c = { s1 with pending := s1.pending.set (id, a) 0 }) (hv : w'.votes = w.votes)
      (hf : Flow id ⟨w, b, call, out, w'⟩ 0 (pendOf s1 id a) 0)
  | withdraw (a : Addr) (coins : List (Nat × Nat)) (hc : call = .exec a coins (.withdraw id)) (d d' : Dist) (n : Nat)
      (hd : w.c.dists.get id = some d) (hd' : w'.c.dists.get id = some d')
      (h : withdrawDist d b = .ok (d', n)) (ho : OnlyDist id w w') (hk : w'.c.hooks = w.c.hooks)
      (hf : Flow id ⟨w, b, call, out, w'⟩ 0 0 n)
  | update (a : Addr) (coins : List (Nat × Nat)) (rate : Option Rate) (vp hk : Option Addr) (o : Option Bool)
      (dest : Option Addr) (hc : call = .exec a coins (.update id rate vp hk o dest)) (d d1 d' : Dist)
      (hd : w.c.dists.get id = some d) (hd' : w'.c.dists.get id = some d')
      (h : updateRate d b (w.answers b d.vp).total rate = .ok d1)
      (he : d'.epoch = d1.epoch ∧ d'.funded = d1.funded ∧ d'.hist = d1.hist ∧ d'.vp = vp.getD d1.vp ∧ d'.token = d1.token)
      (ho : OnlyDist id w w') (hr : Reg w.c.hooks d.hookCaller id → Reg w'.c.hooks d'.hookCaller id)
      (hf : Flow id ⟨w, b, call, out, w'⟩ 0 0 0)
  | create (a : Addr) (coins : List (Nat × Nat)) (token : Token) (rate : Rate) (vp hk : Addr) (o : Option Bool)
      (dest : Option Addr) (hc : call = .exec a coins (.create token rate vp hk o dest)) (d0 d : Dist) (n : Nat)
      (hi : w.c.count + 1 = id)
      (hd : w.c.dists.get id = none) (hd' : w'.c.dists.get id = some d) (hv : validate rate = .ok ())
      (h0 : d0.vp = vp ∧ d0.hookCaller = hk ∧ d0.hist = 0 ∧ d0.funded = 0 ∧ d0.token = token ∧
        d0.epoch = { rate := rate, started := .never, ends := .never, earned := 0, updated := .never })
      (h : (coins = [] ∧ n = 0 ∧ d = d0) ∨ (coins ≠ [] ∧ fundDist d0 b (w.answers b vp).total n = .ok d))
      (ho : OnlyDist id w w') (hr : Reg w'.c.hooks hk id) (hf : Flow id ⟨w, b, call, out, w'⟩ n 0 0)

theorem execFund_ok {s s' : State} {b : Block} {ans : Addr → Answer} {a : Addr} {i n : Nat} {d : Dist}
    (h : execFund s b ans a i d n = .ok s') :
    ∃ d', fundDist d b (ans d.vp).total n = .ok d' ∧ s' = { s with dists := s.dists.set i d' } := by
  unfold execFund at h
  obtain ⟨_, _, h1⟩ := (bind_ok _ _ _).mp h
  obtain ⟨d', h2, h3⟩ := (bind_ok _ _ _).mp h1
  simp only [Except.ok.injEq] at h3
  exact ⟨d', h2, h3.symm⟩

theorem nativeFunds_ok {t : Token} {coins : List (Nat × Nat)} {n : Nat} (h : nativeFunds t coins = .ok n) :
    n = coinCount coins ∧ coins ≠ [] ∧ ∃ d, t = .native d ∧ coins = [(d, n)] := by
  unfold nativeFunds at h
  split at h
  · unfold mustPay at h
    split at h
    · split at h
      · rename_i hc
        simp only [Except.ok.injEq] at h; subst h
        refine ⟨by simp [coinCount], by simp, _, rfl, ?_⟩
        rw [hc.1]
      · simp at h
    · simp at h
  · simp at h

/-- A funding, by coins or by tokens, as seen by any distribution. -/
theorem eff_fund {id i n : Nat} {w w' : World} {b : Block} {call : Call} {out : List Pay} {d : Dist} {a : Addr}
    (hd : w.c.dists.get i = some d) (h : execFund w.c b (w.answers b) a i d n = .ok w'.c) (hv : w'.votes = w.votes)
    (hc : ∀ j, IsFund j w call ↔ i = j) (hf : Flow id ⟨w, b, call, out, w'⟩ (if i = id then n else 0) 0 0) :
    Eff id w w' b call out := by
  obtain ⟨d', h1, h2⟩ := execFund_ok h
  have ho : OnlyDist id w w' := ⟨by rw [h2]; rfl, by rw [h2]; rfl, hv⟩
  by_cases hi : i = id
  · subst hi
    rw [if_pos rfl] at hf
    exact .fund d d' n hd (by rw [h2]; exact AMap.get_set_self _ _ _) h1 ho (by rw [h2]) ((hc _).2 rfl) hf
  · rw [if_neg hi] at hf
    exact .quiet (by rw [h2]; exact AMap.get_set_ne _ _ hi) ho (by rw [h2]; exact fun _ hh => hh) hf

theorem step_eff (id : Nat) {w w' : World} {b : Block} {call : Call} {out : List Pay}
    (h : step w b call = .ok (w', out)) :
    Eff id w w' b call out ∧ w'.now = b ∧ w'.me = w.me ∧ (w.now.height < b.height ∨ w.now = b) ∧ b.height < U64 := by
  unfold step at h
  obtain ⟨_, hb, h⟩ := (bind_ok _ _ _).mp h
  obtain ⟨_, hb2, h⟩ := (bind_ok _ _ _).mp h
  simp only [require_ok, decide_eq_true_eq] at hb hb2
  suffices hs : Eff id w w' b call out ∧ w'.now = b ∧ w'.me = w.me from ⟨hs.1, hs.2.1, hs.2.2, hb, hb2⟩
  cases call with
  | exec a coins m =>
    obtain ⟨_, ha, h1⟩ := (bind_ok _ _ _).mp h
    obtain ⟨l1, hl1, h2⟩ := (bind_ok _ _ _).mp h1
    obtain ⟨r, hr, h3⟩ := (bind_ok _ _ _).mp h2
    obtain ⟨l2, hl2, h4⟩ := (bind_ok _ _ _).mp h3
    simp only [Except.ok.injEq, Prod.mk.injEq] at h4
    obtain ⟨rfl, rfl⟩ := h4
    refine ⟨?_, rfl, rfl⟩
    clear h h1 h2 h3 hl1 hl2
    unfold exec at hr
    cases m with
    | hook as =>
      obtain ⟨s, h1, h2⟩ := (bind_ok _ _ _).mp hr
      simp only [Except.ok.injEq] at h2; subst h2
      obtain ⟨ids, _, h1⟩ := execHook_ok h1
      exact .hook ids as h1 rfl ⟨rfl, rfl, rfl⟩
    | updateOwnership x =>
      obtain ⟨_, _, h1⟩ := (bind_ok _ _ _).mp hr
      obtain ⟨s, _, h2⟩ := (bind_ok _ _ _).mp h1
      simp only [Except.ok.injEq] at h2; subst h2
      exact .quiet rfl ⟨rfl, rfl, rfl⟩ (fun _ hh => hh) ⟨rfl, rfl, rfl⟩
    | create token rate vp hk o dest =>
      obtain ⟨s, h1, h2⟩ := (bind_ok _ _ _).mp hr
      simp only [Except.ok.injEq] at h2; subst h2
      unfold execCreate at h1
      obtain ⟨_, _, g1⟩ := (bind_ok _ _ _).mp h1
      obtain ⟨i, hi, g2⟩ := (bind_ok _ _ _).mp g1
      obtain ⟨_, hval, g3⟩ := (bind_ok _ _ _).mp g2
      obtain ⟨_, hnone, g4⟩ := (bind_ok _ _ _).mp g3
      obtain ⟨_, hi⟩ := (add64_ok _ _ _).mp hi
      simp only [require_ok, decide_eq_true_eq] at hnone
      clear hr h1 g1 g2 g3
      by_cases hid : i = id
      · subst hid
        split at g4
        · rename_i hc0
          simp only [Except.ok.injEq] at g4; subst g4
          refine .create a coins token rate vp hk o dest rfl _ _ 0 hi hnone (AMap.get_set_self _ _ _) hval
            ⟨rfl, rfl, rfl, rfl, rfl, rfl⟩ (Or.inl ⟨hc0, rfl, rfl⟩) ⟨rfl, rfl, rfl⟩ (reg_subscribe _ _ _) ⟨?_, rfl, rfl⟩
          simp only [fundedIn, hi, if_true, hc0]; rfl
        · rename_i hc0
          obtain ⟨n, hn, g5⟩ := (bind_ok _ _ _).mp g4
          obtain ⟨d', f1, f2⟩ := execFund_ok g5
          obtain ⟨hn, _, _⟩ := nativeFunds_ok hn
          subst f2
          refine .create a coins token rate vp hk o dest rfl _ d' n hi hnone (AMap.get_set_self _ _ _) hval
            ⟨rfl, rfl, rfl, rfl, rfl, rfl⟩ (Or.inr ⟨hc0, f1⟩) ⟨rfl, rfl, rfl⟩ (reg_subscribe _ _ _) ⟨?_, rfl, rfl⟩
          simp only [fundedIn, hi, if_true, hn]
      · have hflow : ∀ x w2, Flow id ⟨w, b, .exec a coins (.create token rate vp hk o dest), x, w2⟩ 0 0 0 := by
          intro x w2
          refine ⟨?_, rfl, rfl⟩
          simp only [fundedIn, hi, if_neg hid]
        split at g4
        · simp only [Except.ok.injEq] at g4; subst g4
          exact .quiet (AMap.get_set_ne _ _ hid) ⟨rfl, rfl, rfl⟩ (fun _ hh => hh.subscribe) (hflow _ _)
        · obtain ⟨n, hn, g5⟩ := (bind_ok _ _ _).mp g4
          obtain ⟨d', f1, f2⟩ := execFund_ok g5
          subst f2
          refine .quiet ?_ ⟨rfl, rfl, rfl⟩ (fun _ hh => hh.subscribe) (hflow _ _)
          simp only
          rw [AMap.get_set_ne _ _ hid, AMap.get_set_ne _ _ hid]
    | update i rate vp hk o dest =>
      obtain ⟨_, _, h1⟩ := (bind_ok _ _ _).mp hr
      obtain ⟨s, h2, h3⟩ := (bind_ok _ _ _).mp h1
      simp only [Except.ok.injEq] at h3; subst h3
      unfold execUpdate at h2
      obtain ⟨_, _, g1⟩ := (bind_ok _ _ _).mp h2
      obtain ⟨d, hd, g2⟩ := (bind_ok _ _ _).mp g1
      obtain ⟨d1, hd1, g3⟩ := (bind_ok _ _ _).mp g2
      have hd := (orErr_ok _ _ _).mp hd
      have hsame := updateRate_same hd1
      simp only [Except.ok.injEq] at g3
      subst g3
      clear hr h1 h2 g1 g2
      by_cases hid : i = id
      · subst hid
        cases hk with
        | none =>
          refine .update a coins rate vp none o dest rfl d d1 _ hd (AMap.get_set_self _ _ _) hd1
            ⟨rfl, rfl, rfl, rfl, rfl⟩ ⟨rfl, rfl, rfl⟩ ?_ ⟨rfl, rfl, rfl⟩
          intro hh
          simp only [updateHook]
          rw [hsame.2.2]; exact hh
        | some hkc =>
          refine .update a coins rate vp (some hkc) o dest rfl d d1 _ hd (AMap.get_set_self _ _ _) hd1
            ⟨rfl, rfl, rfl, rfl, rfl⟩ ⟨rfl, rfl, rfl⟩ ?_ ⟨rfl, rfl, rfl⟩
          intro _
          exact reg_subscribe _ _ _
      · cases hk with
        | none =>
          refine .quiet ?_ ⟨rfl, rfl, rfl⟩ (fun _ hh => hh) ⟨rfl, rfl, rfl⟩
          exact AMap.get_set_ne _ _ hid
        | some hkc =>
          refine .quiet ?_ ⟨rfl, rfl, rfl⟩ (fun _ hh => (hh.unsubscribe hid).subscribe) ⟨rfl, rfl, rfl⟩
          exact AMap.get_set_ne _ _ hid
    | fund i =>
      obtain ⟨s, h1, h2⟩ := (bind_ok _ _ _).mp hr
      simp only [Except.ok.injEq] at h2; subst h2
      unfold execFundNative at h1
      obtain ⟨d, hd, g1⟩ := (bind_ok _ _ _).mp h1
      obtain ⟨n, hn, g2⟩ := (bind_ok _ _ _).mp g1
      obtain ⟨hn, _, _⟩ := nativeFunds_ok hn
      refine eff_fund ((orErr_ok _ _ _).mp hd) g2 rfl (fun j => Iff.rfl) ⟨?_, rfl, rfl⟩
      subst hn
      rfl
    | claim i =>
      obtain ⟨_, _, h1⟩ := (bind_ok _ _ _).mp hr
      unfold execClaim at h1
      obtain ⟨s1, g1, h2⟩ := (bind_ok _ _ _).mp h1
      obtain ⟨d, hd, h3⟩ := (bind_ok _ _ _).mp h2
      obtain ⟨_, _, h4⟩ := (bind_ok _ _ _).mp h3
      simp only [Except.ok.injEq] at h4; subst h4
      by_cases hid : i = id
      · subst hid
        refine .claim a coins rfl s1 g1 rfl rfl ⟨rfl, ?_, rfl⟩
        simp only [claimedIn, if_true, paidOut, List.map_cons, List.map_nil, List.sum_cons, List.sum_nil, Nat.add_zero]
        rfl
      · obtain ⟨d2, r2, n2, u1, u2, u3, rfl⟩ := updateRewards_ok g1
        refine .quiet (AMap.get_set_ne _ _ hid) ⟨?_, ?_, rfl⟩ (fun _ hh => hh) ⟨rfl, ?_, rfl⟩
        · funext q; exact set_other _ _ _ hid
        · funext q
          show getD0 (AMap.set (AMap.set w.c.pending (i, a) _) (i, a) 0) (id, q) = _
          rw [set_other _ _ _ hid, set_other _ _ _ hid]; rfl
        · simp only [claimedIn, if_neg hid]
    | withdraw i =>
      obtain ⟨_, _, h1⟩ := (bind_ok _ _ _).mp hr
      unfold execWithdraw at h1
      obtain ⟨_, _, h2⟩ := (bind_ok _ _ _).mp h1
      obtain ⟨d, hd, h3⟩ := (bind_ok _ _ _).mp h2
      obtain ⟨x, hx, h4⟩ := (bind_ok _ _ _).mp h3
      simp only [Except.ok.injEq] at h4; subst h4
      have hd := (orErr_ok _ _ _).mp hd
      by_cases hid : i = id
      · subst hid
        refine .withdraw a coins rfl d x.1 x.2 hd (AMap.get_set_self _ _ _) hx ⟨rfl, rfl, rfl⟩ rfl ⟨rfl, rfl, ?_⟩
        simp only [clawedIn, if_true, paidOut, List.map_cons, List.map_nil, List.sum_cons, List.sum_nil, Nat.add_zero]
      · refine .quiet (AMap.get_set_ne _ _ hid) ⟨rfl, rfl, rfl⟩ (fun _ hh => hh) ⟨rfl, rfl, ?_⟩
        simp only [clawedIn, if_neg hid]
  | send t a n i =>
    obtain ⟨_, ha, h1⟩ := (bind_ok _ _ _).mp h
    obtain ⟨l1, hl1, h2⟩ := (bind_ok _ _ _).mp h1
    obtain ⟨r, hr, h3⟩ := (bind_ok _ _ _).mp h2
    simp only [Except.ok.injEq, Prod.mk.injEq] at h3
    obtain ⟨rfl, rfl⟩ := h3
    refine ⟨?_, rfl, rfl⟩
    unfold execReceive at hr
    obtain ⟨d, hd, g1⟩ := (bind_ok _ _ _).mp hr
    obtain ⟨_, _, g2⟩ := (bind_ok _ _ _).mp g1
    exact eff_fund ((orErr_ok _ _ _).mp hd) g2 rfl (fun j => Iff.rfl) ⟨rfl, rfl, rfl⟩
  | change vp diffs via =>
    obtain ⟨_, hne, h1⟩ := (bind_ok _ _ _).mp h
    obtain ⟨s, hs, h2⟩ := (bind_ok _ _ _).mp h1
    simp only [Except.ok.injEq, Prod.mk.injEq] at h2
    obtain ⟨rfl, rfl⟩ := h2
    simp only [require_ok, decide_eq_true_eq] at hne
    exact ⟨.change vp diffs via rfl hne hs rfl ⟨rfl, rfl, rfl⟩, rfl, rfl⟩
  | transfer t a dst n =>
    obtain ⟨_, _, h1⟩ := (bind_ok _ _ _).mp h
    obtain ⟨l, _, h2⟩ := (bind_ok _ _ _).mp h1
    simp only [Except.ok.injEq, Prod.mk.injEq] at h2
    obtain ⟨rfl, rfl⟩ := h2
    exact ⟨.quiet rfl ⟨rfl, rfl, rfl⟩ (fun _ hh => hh) ⟨rfl, rfl, rfl⟩, rfl, rfl⟩

/-! ### What is true of every history -/

/-- What is known of a distribution without any assumption. -/
def II (id : Nat) (w : World) (log : List Event) : Prop :=
  (w.c.dists.get id = none → (∀ a, accOf w.c id a = 0) ∧ (∀ a, pendOf w.c id a = 0) ∧ fundedTotal id log = 0 ∧
    claimedTotal id log = 0 ∧ clawedTotal id log = 0) ∧
  ∀ d, w.c.dists.get id = some d → Reg w.c.hooks d.hookCaller id

/-- What is known of the world. -/
structure WInv (w : World) (b : Block) : Prop where
  now : w.now = b
  votes : ∀ a, VInv (w.vote a) b

theorem VInv.mono {v : Votes} {b b' : Block} (h : VInv v b) (hb : b.le b') : VInv v b' :=
  ⟨h.cur, h.start, Nat.le_trans h.since hb.1⟩

theorem vote_of {w w' : World} (h : w'.votes = w.votes) (a : Addr) : w'.vote a = w.vote a := by
  unfold World.vote; rw [h]

theorem vote_set {w w' : World} {vp : Addr} {v : Votes} (h : w'.votes = w.votes.set vp v) (a : Addr) :
    w'.vote a = if vp = a then v else w.vote a := by
  unfold World.vote
  rw [h, AMap.get_set]
  by_cases hc : vp = a
  · rw [if_pos hc, if_pos hc]; rfl
  · rw [if_neg hc, if_neg hc]

theorem flow_total {id : Nat} {e : Event} {log : List Event} {n k c : Nat} (h : Flow id e n k c) :
    fundedTotal id (e :: log) = fundedTotal id log + n ∧ claimedTotal id (e :: log) = claimedTotal id log + k ∧
      clawedTotal id (e :: log) = clawedTotal id log + c := by
  obtain ⟨h1, h2, h3⟩ := h
  refine ⟨?_, ?_, ?_⟩
  · simp only [fundedTotal, List.map_cons, List.sum_cons, h1]; omega
  · simp only [claimedTotal, List.map_cons, List.sum_cons, h2]; omega
  · simp only [clawedTotal, List.map_cons, List.sum_cons, h3]; omega

theorem winv_init {b : Block} {w : World} (h : sys.init b w) : WInv w b :=
  ⟨h.1, fun a => ⟨(h.2.2 a).1, (h.2.2 a).2.1, (h.2.2 a).2.2⟩⟩

theorem winv_step {w w' : World} {b b' : Block} {call : Call} {out : List Pay} (h : WInv w b) (hb : b.le b')
    (hs : step w b' call = .ok (w', out)) : WInv w' b' := by
  obtain ⟨he, h1, _, _, _⟩ := step_eff 0 hs
  refine ⟨h1, ?_⟩
  intro a
  have hv := (h.votes a).mono hb
  have key : w'.votes = w.votes → VInv (w'.vote a) b' := by
    intro e; rw [vote_of e]; exact hv
  cases he with
  | quiet _ ho _ _ => exact key ho.votes
  | hook _ _ _ hv _ => exact key hv
  | change vp diffs via _ _ _ hvv _ =>
    rw [vote_set hvv]
    by_cases hc : vp = a
    · rw [if_pos hc]; subst hc; exact hv.change diffs
    · rw [if_neg hc]; exact hv
  | fund _ _ _ _ _ _ ho _ _ _ => exact key ho.votes
  | claim _ _ _ _ _ _ hv _ => exact key hv
  | withdraw _ _ _ _ _ _ _ _ _ ho _ _ => exact key ho.votes
  | update _ _ _ _ _ _ _ _ _ _ _ _ _ _ _ ho _ _ => exact key ho.votes
  | create _ _ _ _ _ _ _ _ _ _ _ _ _ _ _ _ _ _ ho _ _ => exact key ho.votes

theorem winv_run {w0 w : World} {b0 b : Block} {log : List Event} (h0 : sys.init b0 w0)
    (hr : sys.Run w0 b0 log w b) : WInv w b := by
  induction hr with
  | refl => exact winv_init h0
  | step _ hb hs ih => exact winv_step ih hb hs

theorem frame_ii {id : Nat} {w w' : World} {b : Block} {call : Call} {out : List Pay} {log : List Event}
    (h : II id w log) (hf : Frame w.c w'.c) (hw : Flow id ⟨w, b, call, out, w'⟩ 0 0 0) :
    II id w' (⟨w, b, call, out, w'⟩ :: log) := by
  obtain ⟨t1, t2, t3⟩ := flow_total (log := log) hw
  refine ⟨?_, ?_⟩
  · intro hn
    have hn0 : w.c.dists.get id = none := by
      rcases hg : w.c.dists.get id with _ | d
      · rfl
      · obtain ⟨d', h1, _⟩ := hf.some id d hg
        rw [h1] at hn; cases hn
    obtain ⟨_, f2, f3⟩ := hf.none id hn0
    obtain ⟨i1, i2, i3, i4, i5⟩ := h.1 hn0
    rw [f2, f3, t1, t2, t3]
    exact ⟨i1, i2, i3, i4, i5⟩
  · intro d' hd'
    rcases hg : w.c.dists.get id with _ | d
    · have := (hf.none id hg).1
      rw [this] at hd'; cases hd'
    · obtain ⟨d1, h1, h2⟩ := hf.some id d hg
      rw [h1] at hd'; cases hd'
      rw [hf.hooks, h2.2.2]
      exact h.2 d hg

theorem ii_step {id : Nat} {w w' : World} {b : Block} {call : Call} {out : List Pay} {log : List Event}
    (h : II id w log) (hs : step w b call = .ok (w', out)) : II id w' (⟨w, b, call, out, w'⟩ :: log) := by
  obtain ⟨he, _⟩ := step_eff id hs
  cases he with
  | quiet hd ho hr hf =>
    obtain ⟨t1, t2, t3⟩ := flow_total (log := log) hf
    unfold II
    rw [hd, ho.acc, ho.pend, t1, t2, t3]
    exact ⟨h.1, fun d hd => hr _ (h.2 d hd)⟩
  | hook ids as hu hv hf => exact frame_ii h (updateMembers_frame hu) hf
  | change vp diffs via hc hne hu hv hf => exact frame_ii h (announce_frame hu) hf
  | fund d d' n hd hd' hu ho hk hc hf =>
    refine ⟨fun hn => (by rw [hd'] at hn; cases hn), ?_⟩
    intro d1 h1
    rw [hd'] at h1; cases h1
    rw [hk, (fundDist_same hu).2.2]
    exact h.2 d hd
  | claim a coins hc s1 hu hs1 hv hf =>
    have hfr := updateRewards_frame hu
    obtain ⟨d, r, n, hd, _, _, _⟩ := updateRewards_ok hu
    obtain ⟨d1, h1, h2⟩ := hfr.some id d hd
    refine ⟨fun hn => (by rw [hs1] at hn; simp only [h1] at hn; cases hn), ?_⟩
    intro d2 g1
    rw [hs1] at g1 ⊢
    simp only [h1] at g1
    cases g1
    show Reg s1.hooks _ _
    rw [hfr.hooks, h2.2.2]
    exact h.2 d hd
  | withdraw a coins hc d d' n hd hd' hu ho hk hf =>
    refine ⟨fun hn => (by rw [hd'] at hn; cases hn), ?_⟩
    intro d1 h1
    rw [hd'] at h1; cases h1
    rw [hk, (withdrawDist_same hu).2.2]
    exact h.2 d hd
  | update a coins rate vp hk o dest hc d d1 d' hd hd' hu he ho hr hf =>
    refine ⟨fun hn => (by rw [hd'] at hn; cases hn), ?_⟩
    intro d2 h2
    rw [hd'] at h2; cases h2
    exact hr (h.2 d hd)
  | create a coins token rate vp hk o dest hc d0 d n hi hd hd' hval h0 hu ho hr hf =>
    refine ⟨fun hn => (by rw [hd'] at hn; cases hn), ?_⟩
    intro d2 h2
    rw [hd'] at h2; cases h2
    rcases hu with ⟨_, _, rfl⟩ | ⟨_, hu⟩
    · rw [h0.2.1]; exact hr
    · rw [(fundDist_same hu).2.2, h0.2.1]; exact hr

theorem ii_run {id : Nat} {w0 w : World} {b0 b : Block} {log : List Event} (h0 : sys.init b0 w0)
    (hr : sys.Run w0 b0 log w b) : II id w log := by
  induction hr with
  | refl =>
    have hc := h0.2.1
    refine ⟨fun _ => ⟨?_, ?_, rfl, rfl, rfl⟩, ?_⟩
    · intro a; unfold accOf; rw [hc]; rfl
    · intro a; unfold pendOf; rw [hc]; rfl
    · intro d hd; rw [hc] at hd; cases hd
  | step _ _ hs ih => exact ii_step ih hs

/-! ### Histories in which changes are announced -/

/-- What is known of a distribution. -/
def DI (id : Nat) (w : World) (b : Block) (log : List Event) : Prop :=
  ∀ d, w.c.dists.get id = some d → ∃ k, DInv d (accOf w.c id) (pendOf w.c id) (w.vote d.vp) b
    (fundedTotal id log) (claimedTotal id log + clawedTotal id log) k

theorem answers_self (w : World) (b : Block) (vp : Addr) : Answers (w.answers b) vp (w.vote vp) b :=
  ⟨rfl, fun _ => rfl⟩

theorem DInv.congr {d d' : Dist} {acc pend : Addr → Nat} {v : Votes} {b : Block} {f x k : Nat}
    (h : DInv d acc pend v b f x k) (h1 : d'.epoch = d.epoch) (h2 : d'.funded = d.funded) (h3 : d'.hist = d.hist) :
    DInv d' acc pend v b f x k := by
  refine ⟨?_, ?_, ?_, ?_⟩
  · rw [h1, h3]; exact h.accLe
  · rw [h1, h2, h3]; exact h.sum
  · rw [h1, h3]; exact h.calm
  · rw [h1, h2]; exact h.shape

/-- A new distribution. -/
theorem DInv.start {d : Dist} {acc pend : Addr → Nat} {v : Votes} {b : Block} {rate : Rate}
    (hval : validate rate = .ok ()) (h1 : d.hist = 0) (h2 : d.funded = 0)
    (h3 : d.epoch = { rate := rate, started := .never, ends := .never, earned := 0, updated := .never })
    (ha : ∀ a, acc a = 0) (hp : ∀ a, pend a = 0) : DInv d acc pend v b 0 0 0 := by
  refine ⟨?_, ?_, ?_, ?_⟩
  · intro a; rw [ha]; exact Nat.zero_le _
  · intro as _
    have hr : rest d.epoch d.funded 0 = 0 := by
      unfold rest; rw [h2, h3]; cases rate <;> simp
    rw [hr]
    have : (as.map (owed (d.epoch.earned + d.hist) acc pend v.cur)).sum = 0 := by
      rw [h3, h1]
      induction as with
      | nil => rfl
      | cons a as ih =>
        rename_i hn
        rw [List.map_cons, List.sum_cons, ih (List.nodup_cons.1 hn).2]
        simp [owed, hp]
    rw [this]
    exact Nat.le_refl _
  · right; intro a _; rw [ha, h3, h1]
  · unfold Shape
    rw [h3]
    cases rate with
    | paused => exact ⟨rfl, rfl, rfl⟩
    | immediate => exact ⟨rfl, rfl⟩
    | linear amount dur c =>
      unfold validate at hval
      obtain ⟨_, ha, hz⟩ := (bind_ok _ _ _).mp hval
      simp only [require_ok, Bool.not_eq_true', decide_eq_true_eq] at hz ha
      refine ⟨Nat.pos_of_ne_zero ha, ?_, fun _ => rfl, Or.inl ⟨rfl, rfl, rfl, h2, rfl⟩⟩
      cases dur <;> simp [isZero, len] at hz ⊢ <;> omega

theorem di_step {id : Nat} {w w' : World} {b b' : Block} {call : Call} {out : List Pay} {log : List Event}
    (h : DI id w b log) (hw : WInv w b) (hi : II id w log) (hb : b.le b') (hs : step w b' call = .ok (w', out))
    (han : ∀ vp diffs via, call = .change vp diffs via → ∀ d, w.c.dists.get id = some d → d.vp = vp → d.hookCaller ∈ via)
    (hsv : ∀ a coins rate vp hook o dest, call ≠ .exec a coins (.update id rate (some vp) hook o dest))
    (hca : (∀ d, w.c.dists.get id = some d → AtOnce id ⟨w, b', call, out, w'⟩ d → (w.vote d.vp).since < b'.height) ∧
      (∀ a coins token vp hook o dest, call = .exec a coins (.create token .immediate vp hook o dest) →
        w.c.count + 1 = id → coins ≠ [] → (w.vote vp).since < b'.height)) :
    DI id w' b' (⟨w, b', call, out, w'⟩ :: log) := by
  obtain ⟨he, _, _, hbb, hbu⟩ := step_eff id hs
  rw [hw.now] at hbb
  have h : DI id w b' log := by
    intro d hd
    obtain ⟨k, hk⟩ := h d hd
    exact ⟨k, hk.mono (hw.votes _) hb hbb⟩
  have hv : ∀ a, VInv (w.vote a) b' := fun a => (hw.votes a).mono hb
  have known : ∀ d, w.c.dists.get id = some d → Known id d.vp (w.vote d.vp) b' (fundedTotal id log)
      (claimedTotal id log + clawedTotal id log) (fun _ => False) w.c := by
    intro d hd
    obtain ⟨k, hk⟩ := h d hd
    exact ⟨d, k, hd, rfl, hk, fun _ hf => hf.elim, fun ⟨_, hf⟩ => hf.elim⟩
  cases he with
  | quiet hd ho hr hf =>
    obtain ⟨t1, t2, t3⟩ := flow_total (log := log) hf
    intro d hd'
    rw [hd] at hd'
    rw [ho.acc, ho.pend, vote_of ho.votes, t1, t2, t3]
    exact h d hd'
  | hook ids as hu hvv hf =>
    obtain ⟨t1, t2, t3⟩ := flow_total (log := log) hf
    intro d' hd'
    rw [vote_of hvv, t1, t2, t3]
    rcases hg : w.c.dists.get id with _ | d
    · have := ((updateMembers_frame hu).none id hg).1
      rw [this] at hd'; cases hd'
    · obtain ⟨d1, k, k1, k2, k3, _⟩ := (known d hg).members (hv _) (answers_self w b' d.vp) hu
      rw [k1] at hd'; cases hd'
      rw [k2]
      exact ⟨k, k3⟩
  | change vp diffs via hc hne hu hvv hf =>
    obtain ⟨t1, t2, t3⟩ := flow_total (log := log) hf
    intro d' hd'
    rw [vote_set hvv, t1, t2, t3]
    rcases hg : w.c.dists.get id with _ | d
    · have := ((announce_frame hu).none id hg).1
      rw [this] at hd'; cases hd'
    · have hans : Answers (w'.answers b') d.vp (w.vote d.vp) b' := by
        have e : (w'.vote d.vp).atHeight b'.height = (w.vote d.vp).atHeight b'.height := by
          rw [vote_set hvv]
          by_cases hvp : vp = d.vp
          · rw [if_pos hvp, hvp, change_atHeight]
          · rw [if_neg hvp]
        refine ⟨?_, fun a => ?_⟩
        · show total ((w'.vote d.vp).atHeight b'.height) = _
          rw [e]
        · show getD0 ((w'.vote d.vp).atHeight b'.height) a = _
          rw [e]
      obtain ⟨d1, k, k1, k2, k3, k4, k5⟩ := (known d hg).announce (hv _) hans hu
      rw [k1] at hd'; cases hd'
      rw [k2]
      by_cases hvp : vp = d.vp
      · rw [if_pos hvp]
        subst hvp
        have hmem := han _ _ _ hc d hg rfl
        obtain ⟨l, hl1, hl2⟩ := hi.2 d hg
        have hcred : ∀ a ∈ diffs.map Prod.fst, (fun q => False ∨ ((∃ c ∈ via, ∃ l, w.c.hooks.get c = some l ∧ id ∈ l) ∧
            q ∈ diffs.map Prod.fst)) a := fun a ha => Or.inr ⟨⟨_, hmem, l, hl1, hl2⟩, ha⟩
        refine ⟨k, k3.change diffs (fun a ha => k4 a (hcred a ha)) (k5 ?_)⟩
        rcases diffs with _ | ⟨p, ps⟩
        · exact absurd rfl hne
        · exact ⟨p.1, hcred p.1 (List.mem_cons_self ..)⟩
      · rw [if_neg hvp]
        exact ⟨k, k3⟩
  | fund d d' n hd hd' hu ho hk hc hf =>
    obtain ⟨t1, t2, t3⟩ := flow_total (log := log) hf
    obtain ⟨k, hk⟩ := h d hd
    obtain ⟨k', g1, g2⟩ := hk.fund (hv _) hu (by
      intro hr
      refine hca.1 d hd ?_
      unfold IsFund at hc
      unfold AtOnce
      cases call with
      | exec a coins m =>
        cases m <;> first | exact hc.elim | exact ⟨hc, hr⟩
      | send t a n i => exact ⟨hc, hr⟩
      | change => exact hc.elim
      | transfer => exact hc.elim)
    intro d2 h2
    rw [hd'] at h2; cases h2
    rw [ho.acc, ho.pend, vote_of ho.votes, t1, t2, t3, g2.1]
    exact ⟨k', g1⟩
  | claim a coins hc s1 hu hs1 hvv hf =>
    obtain ⟨t1, t2, t3⟩ := flow_total (log := log) hf
    obtain ⟨d, _, _, hd, _, _, _⟩ := updateRewards_ok hu
    obtain ⟨d1, k, k1, k2, k3, _⟩ := (known d hd).update (hv _) (answers_self w b' d.vp) hu
    intro d2 h2
    rw [hs1] at h2
    simp only [k1, Option.some.injEq] at h2
    subst h2
    have e1 : accOf w'.c id = accOf s1 id := by rw [hs1]; rfl
    have e2 : pendOf w'.c id = upd (pendOf s1 id) a 0 := by
      funext q
      rw [hs1]
      show getD0 (AMap.set s1.pending (id, a) 0) (id, q) = _
      rw [set_same]
      unfold upd
      by_cases hq : a = q
      · rw [if_pos hq, if_pos hq]
      · rw [if_neg hq, if_neg hq]; rfl
    rw [e1, e2, vote_of hvv, t1, t2, t3, k2]
    have := k3.claim a
    refine ⟨k, ?_⟩
    have e3 : claimedTotal id log + pendOf s1 id a + (clawedTotal id log + 0) =
        claimedTotal id log + clawedTotal id log + pendOf s1 id a := by omega
    rw [e3]
    exact this
  | withdraw a coins hc d d' n hd hd' hu ho hk hf =>
    obtain ⟨t1, t2, t3⟩ := flow_total (log := log) hf
    obtain ⟨k, hk⟩ := h d hd
    obtain ⟨g1, g2⟩ := hk.withdraw hu
    intro d2 h2
    rw [hd'] at h2; cases h2
    rw [ho.acc, ho.pend, vote_of ho.votes, t1, t2, t3, g2.1]
    refine ⟨k, ?_⟩
    have e3 : claimedTotal id log + 0 + (clawedTotal id log + n) =
        claimedTotal id log + clawedTotal id log + n := by omega
    rw [e3]
    exact g1
  | update a coins rate vp hk o dest hc d d1 d' hd hd' hu he ho hr hf =>
    obtain ⟨t1, t2, t3⟩ := flow_total (log := log) hf
    obtain ⟨k, hkk⟩ := h d hd
    have hsame := updateRate_same hu
    have hvp : d'.vp = d.vp := by
      rw [he.2.2.2.1]
      cases vp with
      | none => exact hsame.1
      | some x => exact absurd hc (hsv _ _ _ _ _ _ _)
    intro d2 h2
    rw [hd'] at h2; cases h2
    rw [ho.acc, ho.pend, vote_of ho.votes, t1, t2, t3, hvp]
    unfold updateRate at hu
    cases rate with
    | none =>
      simp only [Except.ok.injEq] at hu; subst hu
      exact ⟨k, hkk.congr he.1 he.2.1 he.2.2.1⟩
    | some rt =>
      obtain ⟨_, g1, g2⟩ := (bind_ok _ _ _).mp hu
      obtain ⟨k', g3, _⟩ := hkk.transition (hv _) hbu g1 g2 (by
        intro hrt
        refine hca.1 d hd ?_
        subst hrt
        rw [hc]
        unfold AtOnce
        rfl)
      exact ⟨k', g3.congr he.1 he.2.1 he.2.2.1⟩
  | create a coins token rate vp hk o dest hc d0 d n hid hd hd' hval h0 hu ho hr hf =>
    obtain ⟨t1, t2, t3⟩ := flow_total (log := log) hf
    obtain ⟨i1, i2, i3, i4, i5⟩ := hi.1 hd
    obtain ⟨z1, z2, z3, z4, z5, z6⟩ := h0
    have hst := DInv.start (v := w.vote vp) (b := b') hval z3 z4 z6 i1 i2
    intro d2 h2
    rw [hd'] at h2; cases h2
    rw [ho.acc, ho.pend, vote_of ho.votes, t1, t2, t3, i3, i4, i5]
    rcases hu with ⟨_, hn, hdd⟩ | ⟨hne, hu⟩
    · subst hn; subst hdd
      rw [z1]
      exact ⟨0, hst⟩
    · obtain ⟨k', g1, g2⟩ := hst.fund (hv _) hu (by
        rw [z6]
        intro hr
        cases rate with
        | paused => exact hr.elim
        | immediate => exact hca.2 _ _ _ _ _ _ _ hc hid hne
        | linear amount dur c => exact absurd hr.2 (by simp [Expiration.isExpired]))
      rw [g2.1, z1]
      exact ⟨k', g1⟩

theorem di_run {id : Nat} {w0 w : World} {b0 b : Block} {log : List Event} (h0 : sys.init b0 w0)
    (hr : sys.Run w0 b0 log w b) (han : Announced id log) (hsv : SameVotes id log) (hca : Calm id log) :
    DI id w b log := by
  induction hr with
  | refl =>
    intro d hd
    rw [h0.2.1] at hd
    cases hd
  | step hr hb hs ih =>
    have hm : ∀ e l, ∀ x ∈ l, x ∈ (e :: l : List Event) := fun e l x hx => List.mem_cons_of_mem e hx
    have ih := ih (fun e he => han e (hm _ _ e he)) (fun e he => hsv e (hm _ _ e he)) (fun e he => hca e (hm _ _ e he))
    exact di_step ih (winv_run h0 hr) (ii_run h0 hr) hb hs (han _ (List.mem_cons_self ..)) (hsv _ (List.mem_cons_self ..))
      (hca _ (List.mem_cons_self ..))

/-! ### What can be claimed -/

theorem DInv.accrued_le {d : Dist} {acc pend : Addr → Nat} {v : Votes} {b : Block} {f x k n : Nat} {a : Addr}
    (h : DInv d acc pend v b f x k)
    (hn : accrued (getD0 (v.atHeight b.height) a) (d.epoch.earned + d.hist) (acc a) = .ok n) :
    (n + pend a) * SCALE ≤ owed (d.epoch.earned + d.hist) acc pend v.cur a := by
  unfold accrued at hn
  obtain ⟨y, hy, hn⟩ := (bind_ok _ _ _).mp hn
  obtain ⟨z, hz, hn⟩ := (bind_ok _ _ _).mp hn
  obtain ⟨_, rfl⟩ := subN_ok hy
  have hz := mul256_ok hz; subst hz
  obtain ⟨rfl, _⟩ := to128_ok hn
  unfold owed
  rw [Nat.add_mul]
  have e : getD0 (v.atHeight b.height) a * (d.epoch.earned + d.hist - acc a) =
      (d.epoch.earned + d.hist - acc a) * getD0 v.cur a := by
    rcases h.calm with hc | hc
    · rw [atHeight_fresh hc, Nat.mul_comm]
    · by_cases hne : getD0 v.cur a = getD0 v.start a
      · unfold Votes.atHeight; split
        · rw [Nat.mul_comm]
        · rw [hne, Nat.mul_comm]
      · rw [hc a hne]; simp
  have := Nat.div_mul_le_self (getD0 (v.atHeight b.height) a * (d.epoch.earned + d.hist - acc a)) SCALE
  rw [e] at this ⊢
  omega

theorem queryPending_ok {s : State} {b : Block} {ans : Addr → Answer} {a : Addr} {id n : Nat}
    (h : queryPending s b ans a id = .ok n) :
    ∃ d r y, s.dists.get id = some d ∧ activeEarned d.epoch b (ans d.vp).total = .ok r ∧
      accrued ((ans d.vp).of a) (r + d.hist) (accOf s id a) = .ok y ∧ n = y + pendOf s id a := by
  unfold queryPending at h
  obtain ⟨d, hd, h1⟩ := (bind_ok _ _ _).mp h
  obtain ⟨r, hr, h2⟩ := (bind_ok _ _ _).mp h1
  obtain ⟨t, ht, h3⟩ := (bind_ok _ _ _).mp h2
  obtain ⟨y, hy, h4⟩ := (bind_ok _ _ _).mp h3
  have ht := add256_ok ht; subst ht
  obtain ⟨_, rfl⟩ := (add128_ok _ _ _).mp h4
  exact ⟨d, r, y, (orErr_ok _ _ _).mp hd, hr, hy, rfl⟩

theorem sum_scale {as : List Addr} {g h : Addr → Nat} (hg : ∀ a ∈ as, g a * SCALE ≤ h a) :
    (as.map g).sum * SCALE ≤ (as.map h).sum := by
  induction as with
  | nil => simp
  | cons a as ih =>
    simp only [List.map_cons, List.sum_cons, Nat.add_mul]
    have h1 := hg a (List.mem_cons_self ..)
    have h2 := ih (fun q hq => hg q (List.mem_cons_of_mem _ hq))
    omega

theorem claimable_bound {id : Nat} {w : World} {b b' : Block} {log : List Event} (h : DI id w b log) (hw : WInv w b)
    (hi : II id w log) (hb : b.le b') (hs : b.height < b'.height ∨ b = b') (as : List Addr) (has : as.Nodup) :
    claimedTotal id log + clawedTotal id log + (as.map (claimable w b' id)).sum ≤ fundedTotal id log := by
  rcases hg : w.c.dists.get id with _ | d
  · obtain ⟨_, _, h3, h4, h5⟩ := hi.1 hg
    have hz : ∀ a, claimable w b' id a = 0 := by
      intro a
      unfold claimable queryPending
      rw [hg]; rfl
    have : (as.map (claimable w b' id)).sum = 0 := by
      clear has
      induction as with
      | nil => rfl
      | cons a as ih => rw [List.map_cons, List.sum_cons, ih, hz]
    omega
  · obtain ⟨k, hk⟩ := h d hg
    have hk := hk.mono (hw.votes _) hb hs
    have hv := (hw.votes d.vp).mono hb
    rcases hr : activeEarned d.epoch b' (total ((w.vote d.vp).atHeight b'.height)) with e | r
    · have hz : ∀ a, claimable w b' id a = 0 := by
        intro a
        unfold claimable
        split
        · rename_i n hn
          obtain ⟨d1, r, y, g1, g2, _⟩ := queryPending_ok hn
          rw [hg] at g1; cases g1
          simp only [World.answers] at g2
          rw [hr] at g2; cases g2
        · rfl
      have hsum : (as.map (claimable w b' id)).sum = 0 := by
        clear has
        induction as with
        | nil => rfl
        | cons a as ih => rw [List.map_cons, List.sum_cons, ih, hz]
      have := hk.sum [] List.nodup_nil
      simp only [List.map_nil, List.sum_nil, Nat.zero_add] at this
      have := Nat.le_of_mul_le_mul_left this SCALE_pos
      omega
    · obtain ⟨k', hk', _⟩ := hk.sync hv hr
      have hle : ∀ a ∈ as, claimable w b' id a * SCALE ≤
          owed (r + d.hist) (accOf w.c id) (pendOf w.c id) (w.vote d.vp).cur a := by
        intro a _
        unfold claimable
        split
        · rename_i n hn
          obtain ⟨d1, r1, y, g1, g2, g3, rfl⟩ := queryPending_ok hn
          rw [hg] at g1; cases g1
          simp only [World.answers] at g2 g3
          rw [hr] at g2; cases g2
          exact hk'.accrued_le g3
        · simp
      have h1 := sum_scale hle
      have h2 := hk'.sum as has
      have h3 : SCALE * (claimedTotal id log + clawedTotal id log + (as.map (claimable w b' id)).sum) ≤
          SCALE * fundedTotal id log := by
        rw [Nat.mul_add SCALE (_ + _), Nat.mul_comm SCALE (List.sum _)]
        simp only [Nat.mul_add] at h2 ⊢
        have e : (as.map (owed (r + d.hist) (accOf w.c id) (pendOf w.c id) (w.vote d.vp).cur)).sum +
            (SCALE * claimedTotal id log + SCALE * clawedTotal id log) ≤ SCALE * fundedTotal id log := by
          refine Nat.le_trans ?_ h2
          exact Nat.add_le_add_left (Nat.le_add_right _ _) _
        omega
      exact Nat.le_of_mul_le_mul_left h3 SCALE_pos

/-! ### The balance -/

/-- What comes in with a transaction, in a token. -/
def inflow (t : Token) : Call → Nat
  | .exec _ coins _ => coinsOf t coins
  | .send tk _ n _ => if Token.cw20 tk = t then n else 0
  | _ => 0

theorem payAll_ge {me : Addr} {ps : List Pay} {l l' : Balances} (h : payAll me ps l = .ok l') (t : Token) :
    getD0 l (t, me) ≤ getD0 l' (t, me) + payOf t ps := by
  induction ps generalizing l with
  | nil => simp only [payAll, Except.ok.injEq] at h; subst h; exact Nat.le_add_right _ _
  | cons p ps ih =>
    unfold payAll at h
    obtain ⟨l1, h1, h2⟩ := (bind_ok _ _ _).mp h
    have := ih h2
    rw [payOf_cons]
    have key : getD0 l (t, me) ≤ getD0 l1 (t, me) + (if p.token = t then p.amount else 0) := by
      unfold Ledger.move at h1
      obtain ⟨l2, g1, g2⟩ := (bind_ok _ _ _).mp h1
      have hle := (Ledger.debit_ok.1 g1).1
      have e1 := Ledger.debit_get g1 (t, me)
      have e2 := Ledger.credit_get g2 (t, me)
      have e3 : getD0 l2 (t, me) ≤ getD0 l1 (t, me) := by
        rw [e2]; split
        · rename_i hh; rw [hh]; exact Nat.le_add_right _ _
        · exact Nat.le_refl _
      by_cases ht : p.token = t
      · subst ht
        rw [if_pos rfl] at e1
        rw [if_pos rfl]
        omega
      · rw [if_neg (by intro e; simp only [Prod.mk.injEq] at e; exact ht e.1)] at e1
        omega
    omega

theorem step_bal {w w' : World} {b : Block} {call : Call} {out : List Pay} (h : step w b call = .ok (w', out))
    (t : Token) : getD0 w.bal (t, w.me) + inflow t call ≤ getD0 w'.bal (t, w.me) + payOf t out := by
  unfold step at h
  obtain ⟨_, _, h⟩ := (bind_ok _ _ _).mp h
  obtain ⟨_, _, h⟩ := (bind_ok _ _ _).mp h
  cases call with
  | exec a coins m =>
    obtain ⟨_, ha, h1⟩ := (bind_ok _ _ _).mp h
    obtain ⟨l1, hl1, h2⟩ := (bind_ok _ _ _).mp h1
    obtain ⟨r, hr, h3⟩ := (bind_ok _ _ _).mp h2
    obtain ⟨l2, hl2, h4⟩ := (bind_ok _ _ _).mp h3
    simp only [Except.ok.injEq, Prod.mk.injEq] at h4
    obtain ⟨rfl, rfl⟩ := h4
    simp only [require_ok, decide_eq_true_eq] at ha
    have g1 := (pullCoins_get hl1 ha t).1
    have g2 := payAll_ge hl2 t
    simp only [inflow]
    omega
  | send tk a n i =>
    obtain ⟨_, ha, h1⟩ := (bind_ok _ _ _).mp h
    obtain ⟨l1, hl1, h2⟩ := (bind_ok _ _ _).mp h1
    obtain ⟨r, hr, h3⟩ := (bind_ok _ _ _).mp h2
    simp only [Except.ok.injEq, Prod.mk.injEq] at h3
    obtain ⟨rfl, rfl⟩ := h3
    simp only [require_ok, decide_eq_true_eq] at ha
    have g1 := Ledger.move_other hl1 (q := (t, w.me)) (by
      intro e; simp only [Prod.mk.injEq] at e; exact ha e.2.symm)
    simp only [inflow, payOf_nil, g1]
    by_cases ht : Token.cw20 tk = t
    · subst ht; simp
    · rw [if_neg ht, if_neg (by intro e; simp only [Prod.mk.injEq] at e; exact ht e.1)]
  | change vp diffs via =>
    obtain ⟨_, hne, h1⟩ := (bind_ok _ _ _).mp h
    obtain ⟨s, hs, h2⟩ := (bind_ok _ _ _).mp h1
    simp only [Except.ok.injEq, Prod.mk.injEq] at h2
    obtain ⟨rfl, rfl⟩ := h2
    exact Nat.le_refl _
  | transfer tk a dst n =>
    obtain ⟨_, ha, h1⟩ := (bind_ok _ _ _).mp h
    obtain ⟨l, hl, h2⟩ := (bind_ok _ _ _).mp h1
    simp only [Except.ok.injEq, Prod.mk.injEq] at h2
    obtain ⟨rfl, rfl⟩ := h2
    simp only [require_ok, decide_eq_true_eq] at ha
    have g1 := Ledger.move_other hl (q := (t, w.me)) (by
      intro e; simp only [Prod.mk.injEq] at e; exact ha e.2.symm)
    simp only [inflow, payOf_nil, g1]
    omega

theorem nativeFunds_coins {t : Token} {coins : List (Nat × Nat)} {n : Nat} (h : nativeFunds t coins = .ok n) :
    coinsOf t coins = coinCount coins := by
  obtain ⟨h1, _, d, rfl, rfl⟩ := nativeFunds_ok h
  rw [← h1]
  simp [coinsOf]

/-- Where the funds of a transaction go. -/
theorem step_funds {w w' : World} {b : Block} {call : Call} {out : List Pay} (h : step w b call = .ok (w', out)) :
    ∃ i, (∀ id, id ≠ i → fundedIn id ⟨w, b, call, out, w'⟩ = 0) ∧
      (fundedIn i ⟨w, b, call, out, w'⟩ = 0 ∨
        ∃ d, w'.c.dists.get i = some d ∧ fundedIn i ⟨w, b, call, out, w'⟩ = inflow d.token call) := by
  unfold step at h
  obtain ⟨_, _, h⟩ := (bind_ok _ _ _).mp h
  obtain ⟨_, _, h⟩ := (bind_ok _ _ _).mp h
  cases call with
  | exec a coins m =>
    obtain ⟨_, ha, h1⟩ := (bind_ok _ _ _).mp h
    obtain ⟨l1, hl1, h2⟩ := (bind_ok _ _ _).mp h1
    obtain ⟨r, hr, h3⟩ := (bind_ok _ _ _).mp h2
    obtain ⟨l2, hl2, h4⟩ := (bind_ok _ _ _).mp h3
    simp only [Except.ok.injEq, Prod.mk.injEq] at h4
    obtain ⟨rfl, rfl⟩ := h4
    clear h h1 h2 h3 hl1 hl2
    unfold exec at hr
    cases m with
    | create token rate vp hk o dest =>
      obtain ⟨s, h1, h2⟩ := (bind_ok _ _ _).mp hr
      simp only [Except.ok.injEq] at h2; subst h2
      unfold execCreate at h1
      obtain ⟨_, _, g1⟩ := (bind_ok _ _ _).mp h1
      obtain ⟨i, hi, g2⟩ := (bind_ok _ _ _).mp g1
      obtain ⟨_, hval, g3⟩ := (bind_ok _ _ _).mp g2
      obtain ⟨_, hnone, g4⟩ := (bind_ok _ _ _).mp g3
      obtain ⟨_, hi⟩ := (add64_ok _ _ _).mp hi
      refine ⟨w.c.count + 1, fun id hid => if_neg (Ne.symm hid), ?_⟩
      simp only [fundedIn, if_true, inflow]
      split at g4
      · rename_i hc0; subst hc0; exact Or.inl rfl
      · obtain ⟨n, hn, g5⟩ := (bind_ok _ _ _).mp g4
        obtain ⟨d', f1, f2⟩ := execFund_ok g5
        right
        subst f2
        rw [hi]
        refine ⟨d', AMap.get_set_self _ _ _, ?_⟩
        rw [(fundDist_same f1).2.1]
        exact (nativeFunds_coins hn).symm
    | fund i =>
      obtain ⟨s, h1, h2⟩ := (bind_ok _ _ _).mp hr
      simp only [Except.ok.injEq] at h2; subst h2
      unfold execFundNative at h1
      obtain ⟨d, hd, g1⟩ := (bind_ok _ _ _).mp h1
      obtain ⟨n, hn, g2⟩ := (bind_ok _ _ _).mp g1
      obtain ⟨d', f1, f2⟩ := execFund_ok g2
      refine ⟨target w i, fun id hid => if_neg (Ne.symm hid), Or.inr ?_⟩
      simp only [fundedIn, if_true, inflow]
      subst f2
      refine ⟨d', AMap.get_set_self _ _ _, ?_⟩
      rw [(fundDist_same f1).2.1]
      exact (nativeFunds_coins hn).symm
    | hook => exact ⟨0, fun _ _ => rfl, Or.inl rfl⟩
    | updateOwnership => exact ⟨0, fun _ _ => rfl, Or.inl rfl⟩
    | update => exact ⟨0, fun _ _ => rfl, Or.inl rfl⟩
    | claim => exact ⟨0, fun _ _ => rfl, Or.inl rfl⟩
    | withdraw => exact ⟨0, fun _ _ => rfl, Or.inl rfl⟩
  | send tk a n i =>
    obtain ⟨_, ha, h1⟩ := (bind_ok _ _ _).mp h
    obtain ⟨l1, hl1, h2⟩ := (bind_ok _ _ _).mp h1
    obtain ⟨r, hr, h3⟩ := (bind_ok _ _ _).mp h2
    simp only [Except.ok.injEq, Prod.mk.injEq] at h3
    obtain ⟨rfl, rfl⟩ := h3
    unfold execReceive at hr
    obtain ⟨d, hd, g1⟩ := (bind_ok _ _ _).mp hr
    obtain ⟨_, ht, g2⟩ := (bind_ok _ _ _).mp g1
    obtain ⟨d', f1, f2⟩ := execFund_ok g2
    simp only [require_ok, decide_eq_true_eq] at ht
    refine ⟨target w i, fun id hid => if_neg (Ne.symm hid), Or.inr ?_⟩
    simp only [fundedIn, if_true, inflow]
    subst f2
    refine ⟨d', AMap.get_set_self _ _ _, ?_⟩
    rw [(fundDist_same f1).2.1, ht, if_pos rfl]
  | change => exact ⟨0, fun _ _ => rfl, Or.inl rfl⟩
  | transfer => exact ⟨0, fun _ _ => rfl, Or.inl rfl⟩

/-- Where payments come from. -/
theorem step_pays {w w' : World} {b : Block} {call : Call} {out : List Pay} (h : step w b call = .ok (w', out)) :
    out = [] ∨ ∃ i d, w'.c.dists.get i = some d ∧ ∀ t, payOf t out =
      if d.token = t then claimedIn i ⟨w, b, call, out, w'⟩ + clawedIn i ⟨w, b, call, out, w'⟩ else 0 := by
  unfold step at h
  obtain ⟨_, _, h⟩ := (bind_ok _ _ _).mp h
  obtain ⟨_, _, h⟩ := (bind_ok _ _ _).mp h
  cases call with
  | exec a coins m =>
    obtain ⟨_, ha, h1⟩ := (bind_ok _ _ _).mp h
    obtain ⟨l1, hl1, h2⟩ := (bind_ok _ _ _).mp h1
    obtain ⟨r, hr, h3⟩ := (bind_ok _ _ _).mp h2
    obtain ⟨l2, hl2, h4⟩ := (bind_ok _ _ _).mp h3
    simp only [Except.ok.injEq, Prod.mk.injEq] at h4
    obtain ⟨rfl, rfl⟩ := h4
    clear h h1 h2 h3 hl1 hl2
    unfold exec at hr
    cases m with
    | create =>
      obtain ⟨s, h1, h2⟩ := (bind_ok _ _ _).mp hr
      simp only [Except.ok.injEq] at h2; subst h2; exact Or.inl rfl
    | fund i =>
      obtain ⟨s, h1, h2⟩ := (bind_ok _ _ _).mp hr
      simp only [Except.ok.injEq] at h2; subst h2; exact Or.inl rfl
    | hook =>
      obtain ⟨s, h1, h2⟩ := (bind_ok _ _ _).mp hr
      simp only [Except.ok.injEq] at h2; subst h2; exact Or.inl rfl
    | updateOwnership =>
      obtain ⟨_, _, h0⟩ := (bind_ok _ _ _).mp hr
      obtain ⟨s, h1, h2⟩ := (bind_ok _ _ _).mp h0
      simp only [Except.ok.injEq] at h2; subst h2; exact Or.inl rfl
    | update =>
      obtain ⟨_, _, h0⟩ := (bind_ok _ _ _).mp hr
      obtain ⟨s, h1, h2⟩ := (bind_ok _ _ _).mp h0
      simp only [Except.ok.injEq] at h2; subst h2; exact Or.inl rfl
    | claim i =>
      obtain ⟨_, _, h1⟩ := (bind_ok _ _ _).mp hr
      unfold execClaim at h1
      obtain ⟨s1, g1, h2⟩ := (bind_ok _ _ _).mp h1
      obtain ⟨d, hd, h3⟩ := (bind_ok _ _ _).mp h2
      obtain ⟨_, _, h4⟩ := (bind_ok _ _ _).mp h3
      simp only [Except.ok.injEq] at h4; subst h4
      refine Or.inr ⟨i, d, (orErr_ok _ _ _).mp hd, fun t => ?_⟩
      simp only [claimedIn, clawedIn, if_true, paidOut, payOf_one, List.map_cons, List.map_nil, List.sum_cons, List.sum_nil, Nat.add_zero]
    | withdraw i =>
      obtain ⟨_, _, h1⟩ := (bind_ok _ _ _).mp hr
      unfold execWithdraw at h1
      obtain ⟨_, _, h2⟩ := (bind_ok _ _ _).mp h1
      obtain ⟨d, hd, h3⟩ := (bind_ok _ _ _).mp h2
      obtain ⟨x, hx, h4⟩ := (bind_ok _ _ _).mp h3
      simp only [Except.ok.injEq] at h4; subst h4
      refine Or.inr ⟨i, x.1, AMap.get_set_self _ _ _, fun t => ?_⟩
      rw [(withdrawDist_same hx).2.1]
      simp only [claimedIn, clawedIn, if_true, paidOut, payOf_one, List.map_cons, List.map_nil, List.sum_cons, List.sum_nil, Nat.add_zero, Nat.zero_add]
  | send tk a n i =>
    obtain ⟨_, ha, h1⟩ := (bind_ok _ _ _).mp h
    obtain ⟨l1, hl1, h2⟩ := (bind_ok _ _ _).mp h1
    obtain ⟨r, hr, h3⟩ := (bind_ok _ _ _).mp h2
    simp only [Except.ok.injEq, Prod.mk.injEq] at h3
    exact Or.inl h3.2.symm
  | change =>
    obtain ⟨_, hne, h1⟩ := (bind_ok _ _ _).mp h
    obtain ⟨s, hs, h2⟩ := (bind_ok _ _ _).mp h1
    simp only [Except.ok.injEq, Prod.mk.injEq] at h2
    exact Or.inl h2.2.symm
  | transfer =>
    obtain ⟨_, ha, h1⟩ := (bind_ok _ _ _).mp h
    obtain ⟨l, hl, h2⟩ := (bind_ok _ _ _).mp h1
    simp only [Except.ok.injEq, Prod.mk.injEq] at h2
    exact Or.inl h2.2.symm

/-- Distributions stay, with their token. -/
theorem step_token {w w' : World} {b : Block} {call : Call} {out : List Pay} {id : Nat} {d : Dist}
    (h : step w b call = .ok (w', out)) (hd : w.c.dists.get id = some d) :
    ∃ d', w'.c.dists.get id = some d' ∧ d'.token = d.token := by
  obtain ⟨he, _⟩ := step_eff id h
  cases he with
  | quiet h1 ho hr hf => exact ⟨d, by rw [h1]; exact hd, rfl⟩
  | hook ids as hu hv hf =>
    obtain ⟨d', h1, h2⟩ := (updateMembers_frame hu).some id d hd
    exact ⟨d', h1, h2.2.1⟩
  | change vp diffs via hc hne hu hv hf =>
    obtain ⟨d', h1, h2⟩ := (announce_frame hu).some id d hd
    exact ⟨d', h1, h2.2.1⟩
  | fund d0 d' n hd0 hd' hu ho hk hc hf =>
    rw [hd] at hd0; cases hd0
    exact ⟨d', hd', (fundDist_same hu).2.1⟩
  | claim a coins hc s1 hu hs1 hv hf =>
    obtain ⟨d', h1, h2⟩ := (updateRewards_frame hu).some id d hd
    exact ⟨d', by rw [hs1]; exact h1, h2.2.1⟩
  | withdraw a coins hc d0 d' n hd0 hd' hu ho hk hf =>
    rw [hd] at hd0; cases hd0
    exact ⟨d', hd', (withdrawDist_same hu).2.1⟩
  | update a coins rate vp hk o dest hc d0 d1 d' hd0 hd' hu he ho hr hf =>
    rw [hd] at hd0; cases hd0
    exact ⟨d', hd', he.2.2.2.2.trans (updateRate_same hu).2.1⟩
  | create a coins token rate vp hk o dest hc d0 d n hi hd0 hd' hval h0 hu ho hr hf =>
    rw [hd] at hd0; cases hd0

theorem sum_single {ids : List Nat} (hn : ids.Nodup) {f : Nat → Nat} {i : Nat} (hf : ∀ id, id ≠ i → f id = 0) :
    (ids.map f).sum = if i ∈ ids then f i else 0 := by
  induction ids with
  | nil => rfl
  | cons a ids ih =>
    obtain ⟨h1, h2⟩ := List.nodup_cons.1 hn
    rw [List.map_cons, List.sum_cons, ih h2]
    by_cases ha : a = i
    · subst ha
      rw [if_neg h1, if_pos (List.mem_cons_self ..)]; rfl
    · rw [hf a ha, Nat.zero_add]
      simp only [List.mem_cons, Ne.symm ha, false_or]

theorem sum_mem_le {ids : List Nat} {f : Nat → Nat} {i : Nat} (hi : i ∈ ids) : f i ≤ (ids.map f).sum := by
  induction ids with
  | nil => cases hi
  | cons a ids ih =>
    rw [List.map_cons, List.sum_cons]
    rcases List.mem_cons.1 hi with h | h
    · subst h; exact Nat.le_add_right _ _
    · exact Nat.le_trans (ih h) (Nat.le_add_left _ _)

/-- The contract's balance covers the funds of all distributions in a token that were not paid out. -/
theorem bal_run {w0 w : World} {b0 b : Block} {log : List Event} (h0 : sys.init b0 w0) (hr : sys.Run w0 b0 log w b)
    (t : Token) (ids : List Nat) (hn : ids.Nodup)
    (hin : ∀ id ∈ ids, ∀ d, w.c.dists.get id = some d → d.token = t)
    (hall : ∀ id d, w.c.dists.get id = some d → d.token = t → id ∈ ids) :
    (ids.map (fun id => fundedTotal id log)).sum ≤
      getD0 w.bal (t, w.me) + (ids.map (fun id => claimedTotal id log + clawedTotal id log)).sum := by
  induction hr with
  | refl =>
    have : (ids.map (fun id => fundedTotal id [])).sum = 0 := by
      clear hn hin hall
      induction ids with
      | nil => rfl
      | cons a ids ih => rw [List.map_cons, List.sum_cons, ih]; rfl
    rw [this]; exact Nat.zero_le _
  | step hr hb hs ih =>
    rename_i s1 s2 b1 log env call out
    have hs' : step s1 env call = .ok (s2, out) := hs
    have hme := (step_eff 0 hs').2.2.1
    have ih := ih (by
      intro id hid d hd
      obtain ⟨d', h1, h2⟩ := step_token hs' hd
      rw [← h2]; exact hin id hid d' h1) (by
      intro id d hd ht
      obtain ⟨d', h1, h2⟩ := step_token hs' hd
      exact hall id d' h1 (h2.trans ht))
    have hbal := step_bal hs' t
    rw [hme]
    -- what comes in
    have hfund : (ids.map (fun id => fundedIn id ⟨s1, env, call, out, s2⟩)).sum ≤ inflow t call := by
      obtain ⟨i, f1, f2⟩ := step_funds hs'
      rw [sum_single hn f1]
      split
      · rename_i hi
        rcases f2 with f2 | ⟨d, f2, f3⟩
        · rw [f2]; exact Nat.zero_le _
        · rw [f3, hin i hi d f2]
      · exact Nat.zero_le _
    -- what goes out
    have hpay : payOf t out ≤ (ids.map (fun id => claimedIn id ⟨s1, env, call, out, s2⟩ +
        clawedIn id ⟨s1, env, call, out, s2⟩)).sum := by
      rcases step_pays hs' with h | ⟨i, d, h1, h2⟩
      · rw [h]; exact Nat.zero_le _
      · rw [h2 t]
        split
        · rename_i ht
          exact sum_mem_le (f := fun id => claimedIn id ⟨s1, env, call, out, s2⟩ +
            clawedIn id ⟨s1, env, call, out, s2⟩) (hall i d h1 ht)
        · exact Nat.zero_le _
    have e1 : (ids.map (fun id => fundedTotal id (⟨s1, env, call, out, s2⟩ :: log))).sum =
        (ids.map (fun id => fundedIn id ⟨s1, env, call, out, s2⟩)).sum + (ids.map (fun id => fundedTotal id log)).sum := by
      rw [← mapsum_add]; rfl
    have e2 : (ids.map (fun id => claimedTotal id (⟨s1, env, call, out, s2⟩ :: log) +
        clawedTotal id (⟨s1, env, call, out, s2⟩ :: log))).sum =
        (ids.map (fun id => claimedIn id ⟨s1, env, call, out, s2⟩ + clawedIn id ⟨s1, env, call, out, s2⟩)).sum +
        (ids.map (fun id => claimedTotal id log + clawedTotal id log)).sum := by
      rw [← mapsum_add]
      congr 1
      apply List.map_congr_left
      intro id _
      simp only [claimedTotal, clawedTotal, List.map_cons, List.sum_cons]
      omega
    rw [e1, e2]
    omega

end Verif.DaoRewards
