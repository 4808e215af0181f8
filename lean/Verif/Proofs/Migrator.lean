import Verif.Spec.Migrator
import Verif.Props.SingleUpgrade
import Verif.Proofs.DaoCore
import Verif.Props.Paginate
/-!
# Proofs about the upgrade of a whole DAO
-/

namespace Verif.Migrator
open Verif Verif.Voting Verif.SingleUpgrade Verif.Spec.SingleUpgrade Verif.Spec.Migrator

/-! ### The plan -/

theorem stakingOrder_ok {p : Params} {v : View} {o : Order} :
    stakingOrder p v = .ok o ↔ p.confirm = some true ∧ ∃ s, v.staking = some s ∧ v.codeOf s = some p.v1.stake ∧
      o = ⟨s, p.v2.stake, .cw20Stake⟩ := by
  simp only [stakingOrder, bind_ok, require_ok, orErr_ok, decide_eq_true_eq, Except.ok.injEq]
  constructor
  · rintro ⟨_, hc, s, hs, code, hcode, _, rfl, rfl⟩
    refine ⟨?_, s, hs, hcode, rfl⟩
    cases h : p.confirm <;> rw [h] at hc <;> simp_all
  · rintro ⟨hc, s, hs, hcode, rfl⟩
    exact ⟨(), by rw [hc]; rfl, s, hs, _, hcode, (), rfl, rfl⟩

theorem votingOrders_ok {p : Params} {v : View} {a : Addr} {os : List Order} :
    votingOrders p v = .ok (a, os) ↔ v.voting = some a ∧
      ((v.codeOf a = some p.v1.cw4 ∧ os = [⟨a, p.v2.cw4, .cw4⟩]) ∨
        (p.v1.cw4 ≠ p.v1.cw20Voting ∧ v.codeOf a = some p.v1.cw20Voting ∧ p.confirm = some true ∧ ∃ s, v.staking = some s ∧
          v.codeOf s = some p.v1.stake ∧ os = [⟨a, p.v2.cw20Voting, .cw20Voting⟩, ⟨s, p.v2.stake, .cw20Stake⟩])) := by
  simp only [votingOrders, bind_ok, orErr_ok]
  constructor
  · rintro ⟨a', ha, code, hcode, h⟩
    split at h
    · rename_i h4
      simp only [Except.ok.injEq, Prod.mk.injEq] at h
      obtain ⟨rfl, rfl⟩ := h
      exact ⟨ha, .inl ⟨by rw [h4]; exact hcode, rfl⟩⟩
    · rename_i h4
      split at h
      · rename_i h20
        simp only [bind_ok, stakingOrder_ok, Except.ok.injEq, Prod.mk.injEq] at h
        obtain ⟨o, ⟨hc, s, hs, hs', rfl⟩, rfl, rfl⟩ := h
        exact ⟨ha, .inr ⟨fun h => h4 (h.trans h20), by rw [h20]; exact hcode, hc, s, hs, hs', rfl⟩⟩
      · cases h
  · rintro ⟨ha, ⟨hc, rfl⟩ | ⟨hne, hc, hconf, s, hs, hs', rfl⟩⟩
    · exact ⟨a, ha, _, hc, by rw [if_pos rfl]⟩
    · refine ⟨a, ha, _, hc, ?_⟩
      rw [if_neg hne, if_pos rfl]
      simp only [bind_ok, stakingOrder_ok, Except.ok.injEq]
      exact ⟨_, ⟨hconf, s, hs, hs', rfl⟩, rfl⟩

theorem moduleOrder_ok {p : Params} {v : View} {a : Addr} {o : Order} :
    moduleOrder p v a = .ok o ↔ ∃ x, (p.proposals.find? fun x => decide (x.1 = a)) = some x ∧
      v.codeOf a = some p.v1.single ∧ o = ⟨a, p.v2.single, .single x.2⟩ := by
  simp only [moduleOrder, bind_ok, require_ok, orErr_ok, decide_eq_true_eq, Except.ok.injEq]
  constructor
  · rintro ⟨x, hx, code, hcode, _, rfl, rfl⟩
    exact ⟨x, hx, hcode, rfl⟩
  · rintro ⟨x, hx, hcode, rfl⟩
    exact ⟨x, hx, _, hcode, (), rfl, rfl⟩

theorem moduleOrders_ok {p : Params} {v : View} {m : Addr} {l : List Addr} {os : List Order} :
    moduleOrders p v m l = .ok os ↔
      List.Forall₂ (fun a o => moduleOrder p v a = .ok o) (l.filter fun a => decide (a ≠ m)) os := by
  induction l generalizing os with
  | nil => simp [moduleOrders, eq_comm]
  | cons a l ih =>
    by_cases ha : a = m
    · simp only [moduleOrders, if_pos ha, List.filter_cons]
      simp [ha, ih]
    · simp only [moduleOrders, if_neg ha, List.filter_cons, bind_ok, ih, Except.ok.injEq]
      simp only [ne_eq, ha, not_false_eq_true, decide_true, if_true]
      constructor
      · rintro ⟨o, ho, os', hos, rfl⟩
        exact .cons ho hos
      · intro h
        cases h with
        | cons ho hos => exact ⟨_, ho, _, hos, rfl⟩

theorem plan_ok {core m sender : Addr} {p : Params} {v : View} {a : Addr} {vos mos : List Order} :
    plan core m sender p v = .ok (a, vos, mos) ↔ sender = core ∧ (p.proposals.map Prod.fst).Nodup ∧
      votingOrders p v = .ok (a, vos) ∧ 1 ≤ v.modules.length ∧ v.modules.length - 1 = p.proposals.length ∧
      List.Forall₂ (fun a o => moduleOrder p v a = .ok o) (v.modules.filter fun a => decide (a ≠ m)) mos ∧ mos ≠ [] := by
  simp only [plan, bind_ok, require_ok, decide_eq_true_eq, Except.ok.injEq, Prod.mk.injEq, moduleOrders_ok]
  constructor
  · rintro ⟨_, h1, _, h2, ⟨a', vos'⟩, h3, _, h4, _, h5, os, h6, _, h7, rfl, rfl, rfl⟩
    exact ⟨h1, h2, h3, h4, h5, h6, by simpa using h7⟩
  · rintro ⟨h1, h2, h3, h4, h5, h6, h7⟩
    exact ⟨(), h1, (), h2, (a, vos), h3, (), h4, (), h5, mos, h6, (), by simpa using h7, rfl, rfl, rfl⟩

theorem orders_contracts {p : Params} {v : View} {l : List Addr} {os : List Order}
    (h : List.Forall₂ (fun a o => moduleOrder p v a = .ok o) l os) : os.map (·.contract) = l := by
  induction h with
  | nil => rfl
  | cons h _ ih =>
    obtain ⟨x, _, _, rfl⟩ := moduleOrder_ok.1 h
    rw [List.map_cons, ih]

theorem orders_mem {p : Params} {v : View} {l : List Addr} {os : List Order}
    (h : List.Forall₂ (fun a o => moduleOrder p v a = .ok o) l os) {o : Order} (ho : o ∈ os) :
    ∃ a ∈ l, moduleOrder p v a = .ok o := by
  induction h with
  | nil => cases ho
  | cons h _ ih =>
    rcases List.mem_cons.1 ho with rfl | ho
    · exact ⟨_, List.mem_cons_self .., h⟩
    · obtain ⟨a, ha, h'⟩ := ih ho
      exact ⟨a, List.mem_cons_of_mem _ ha, h'⟩

theorem orders_of {p : Params} {v : View} {l : List Addr} {os : List Order}
    (h : List.Forall₂ (fun a o => moduleOrder p v a = .ok o) l os) {a : Addr} (ha : a ∈ l) :
    ∃ o ∈ os, moduleOrder p v a = .ok o := by
  induction h with
  | nil => cases ha
  | cons h _ ih =>
    rcases List.mem_cons.1 ha with rfl | ha
    · exact ⟨_, List.mem_cons_self .., h⟩
    · obtain ⟨o, ho, h'⟩ := ih ha
      exact ⟨o, List.mem_cons_of_mem _ ho, h'⟩

theorem find_param {l : List (Addr × ProposalParams)} {a : Addr} {x : Addr × ProposalParams}
    (h : (l.find? fun x => decide (x.1 = a)) = some x) : x ∈ l ∧ x.1 = a := by
  refine ⟨List.mem_of_find?_eq_some h, ?_⟩
  simpa using List.find?_some h

theorem find_param_of {l : List (Addr × ProposalParams)} (hn : (l.map Prod.fst).Nodup) {x : Addr × ProposalParams}
    (h : x ∈ l) : (l.find? fun y => decide (y.1 = x.1)) = some x := by
  induction l with
  | nil => cases h
  | cons y l ih =>
    simp only [List.map_cons, List.nodup_cons] at hn
    rcases List.mem_cons.1 h with rfl | h
    · simp
    · have hne : y.1 ≠ x.1 := fun he => hn.1 (by rw [he]; exact List.mem_map_of_mem h)
      rw [List.find?_cons]
      simp only [hne, decide_false]
      exact ih hn.2 h

/-! ### Orders carried out -/

/-- What an order does. -/
structure Did (w : World) (e : Env) (o : Order) (w' : World) : Prop where
  admin : w.admins.get o.contract = some w.core.me
  ver : ∃ ver, e.ver o.newCode = some ver ∧
    (∀ p, o.kind = .single p → ∃ st r, w.storages.get o.contract = some st ∧
      SingleUpgrade.migrate ver st (.fromV1 p.close p.info p.veto) = .ok r ∧
      w'.storages.get o.contract = some (preReply r.1 e o.contract p))
  other : (∀ p, o.kind ≠ .single p) → w'.storages = w.storages
  stake : o.kind = .cw20Stake → e.stakeOk = true
  rest : ∀ a, a ≠ o.contract → w'.storages.get a = w.storages.get a
  code : w'.code = w.code.set o.contract o.newCode
  core : w'.core = w.core
  admins : w'.admins = w.admins
  same : w'.coreVersion = w.coreVersion ∧ w'.keys = w.keys ∧ w'.staking = w.staking

theorem applyOrder_did {w w' : World} {e : Env} {o : Order} (h : applyOrder w e o = .ok w') : Did w e o w' := by
  simp only [applyOrder, bind_ok, require_ok, orErr_ok, decide_eq_true_eq, Except.ok.injEq] at h
  obtain ⟨_, ha, ver, hv, w1, hw, rfl⟩ := h
  unfold applyKind at hw
  cases hk : o.kind with
  | single p =>
    rw [hk] at hw
    simp only [bind_ok, orErr_ok, Except.ok.injEq] at hw
    obtain ⟨st, hst, r, hr, rfl⟩ := hw
    refine ⟨ha, ⟨ver, hv, ?_⟩, fun hn => absurd hk (hn p), by simp [hk], ?_, rfl, rfl, rfl, rfl, rfl, rfl⟩
    · intro p' hp'
      rw [hk] at hp'; injection hp' with hp'; subst hp'
      exact ⟨st, r, hst, hr, AMap.get_set_self _ _ _⟩
    · intro a hne
      exact AMap.get_set_ne _ _ (Ne.symm hne)
  | cw20Stake =>
    rw [hk] at hw
    simp only [bind_ok, require_ok, Except.ok.injEq] at hw
    obtain ⟨_, hs, rfl⟩ := hw
    exact ⟨ha, ⟨ver, hv, by intro p hp; rw [hk] at hp; cases hp⟩, fun _ => rfl, fun _ => hs, fun _ _ => rfl, rfl, rfl, rfl, rfl, rfl, rfl⟩
  | cw4 =>
    rw [hk] at hw
    simp only [Except.ok.injEq] at hw
    subst hw
    exact ⟨ha, ⟨ver, hv, by intro p hp; rw [hk] at hp; cases hp⟩, fun _ => rfl, by simp [hk], fun _ _ => rfl, rfl, rfl, rfl, rfl, rfl, rfl⟩
  | cw20Voting =>
    rw [hk] at hw
    simp only [Except.ok.injEq] at hw
    subst hw
    exact ⟨ha, ⟨ver, hv, by intro p hp; rw [hk] at hp; cases hp⟩, fun _ => rfl, by simp [hk], fun _ _ => rfl, rfl, rfl, rfl, rfl, rfl, rfl⟩

/-- What orders for different contracts do. -/
structure DidAll (w : World) (e : Env) (os : List Order) (w' : World) : Prop where
  admin : ∀ o ∈ os, w.admins.get o.contract = some w.core.me
  ver : ∀ o ∈ os, ∃ ver, e.ver o.newCode = some ver ∧
    (∀ p, o.kind = .single p → ∃ st r, w.storages.get o.contract = some st ∧
      SingleUpgrade.migrate ver st (.fromV1 p.close p.info p.veto) = .ok r ∧
      w'.storages.get o.contract = some (preReply r.1 e o.contract p))
  stake : ∀ o ∈ os, o.kind = .cw20Stake → e.stakeOk = true
  rest : ∀ a, (∀ o ∈ os, ∀ p, o.kind = .single p → o.contract ≠ a) → w'.storages.get a = w.storages.get a
  code : ∀ o ∈ os, w'.code.get o.contract = some o.newCode
  codes : ∀ a, a ∉ os.map (·.contract) → w'.code.get a = w.code.get a
  core : w'.core = w.core
  admins : w'.admins = w.admins
  same : w'.coreVersion = w.coreVersion ∧ w'.keys = w.keys ∧ w'.staking = w.staking

theorem applyOrders_did {w w' : World} {e : Env} {os : List Order} (h : applyOrders w e os = .ok w')
    (hn : (os.map (·.contract)).Nodup) : DidAll w e os w' := by
  induction os generalizing w with
  | nil =>
    simp only [applyOrders, Except.ok.injEq] at h
    subst h
    exact ⟨by simp, by simp, by simp, fun _ _ => rfl, by simp, fun _ _ => rfl, rfl, rfl, rfl, rfl, rfl⟩
  | cons o os ih =>
    simp only [applyOrders, bind_ok] at h
    obtain ⟨w1, h1, h2⟩ := h
    simp only [List.map_cons, List.nodup_cons] at hn
    have d := applyOrder_did h1
    have D := ih h2 hn.2
    have hne : ∀ o' ∈ os, o'.contract ≠ o.contract := fun o' ho' he => hn.1 (by rw [← he]; exact List.mem_map_of_mem ho')
    refine ⟨?_, ?_, ?_, ?_, ?_, ?_, D.core.trans d.core, D.admins.trans d.admins, D.same.1.trans d.same.1, D.same.2.1.trans d.same.2.1, D.same.2.2.trans d.same.2.2⟩
    · intro o' ho'
      rcases List.mem_cons.1 ho' with rfl | ho'
      · exact d.admin
      · have := D.admin o' ho'
        rwa [d.admins, d.core] at this
    · intro o' ho'
      rcases List.mem_cons.1 ho' with rfl | ho'
      · obtain ⟨ver, hv, hp⟩ := d.ver
        refine ⟨ver, hv, fun p hk => ?_⟩
        obtain ⟨st, r, hst, hr, hst'⟩ := hp p hk
        exact ⟨st, r, hst, hr, by rw [D.rest _ (fun o'' ho'' _ _ => hne o'' ho'')]; exact hst'⟩
      · obtain ⟨ver, hv, hp⟩ := D.ver o' ho'
        refine ⟨ver, hv, fun p hk => ?_⟩
        obtain ⟨st, r, hst, hr, hst'⟩ := hp p hk
        exact ⟨st, r, by rw [← d.rest _ (hne o' ho')]; exact hst, hr, hst'⟩
    · intro o' ho' hk
      rcases List.mem_cons.1 ho' with rfl | ho'
      · exact d.stake hk
      · exact D.stake o' ho' hk
    · intro a ha
      rw [D.rest a (fun o' ho' => ha o' (List.mem_cons_of_mem _ ho'))]
      by_cases hc : o.contract = a
      · rw [d.other (fun p hp => ha o (List.mem_cons_self ..) p hp hc)]
      · exact d.rest a (Ne.symm hc)
    · intro o' ho'
      rcases List.mem_cons.1 ho' with rfl | ho'
      · rw [D.codes _ hn.1, d.code, AMap.get_set_self]
      · exact D.code o' ho'
    · intro a ha
      simp only [List.map_cons, List.mem_cons, not_or] at ha
      rw [D.codes a ha.2, d.code, AMap.get_set_ne _ _ (Ne.symm ha.1)]

/-! ### The core contract -/

theorem migrateModules_keys (n : Nat) (keys : List Addr) : (DaoCore.migrateModules n keys).map Prod.fst = keys := by
  induction keys generalizing n with
  | nil => rfl
  | cons a l ih => rw [DaoCore.migrateModules, List.map_cons, ih]

theorem migrateModules_enabled {n : Nat} {keys : List Addr} {a : Addr} {m : DaoCore.Module}
    (h : AMap.get (DaoCore.migrateModules n keys) a = some m) : m.enabled = true := by
  induction keys generalizing n with
  | nil => cases h
  | cons b l ih =>
    simp only [DaoCore.migrateModules, AMap.get] at h
    split at h
    · injection h with h; subst h; rfl
    · exact ih h

theorem insert_perm {V : Type} (p : Nat × V) (l : List (Nat × V)) : (Paginate.insert p l).Perm (p :: l) := by
  induction l with
  | nil => exact .refl _
  | cons q l ih =>
    unfold Paginate.insert
    split
    · exact .refl _
    · exact (List.Perm.cons q ih).trans (List.Perm.swap p q l)

theorem sorted_perm {V : Type} (m : AMap Nat V) : (Paginate.sorted m).Perm m := by
  induction m with
  | nil => exact .refl _
  | cons p m ih => exact (insert_perm p _).trans (List.Perm.cons p ih)

theorem view_modules (w : World) : w.view.modules.Perm (w.core.modules.map Prod.fst) := by
  have h : w.view.modules = (Paginate.sorted w.core.modules).map Prod.fst := by
    simp [World.view, Paginate.paginateKeys, Paginate.range, Paginate.within]
  rw [h]
  exact (sorted_perm _).map _

end Verif.Migrator
