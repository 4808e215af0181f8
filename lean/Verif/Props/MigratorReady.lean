import Verif.Props.Migrator
/-!
# When a whole DAO can be upgraded (C83)
-/

namespace Verif.Migrator
open Verif Verif.Voting Verif.SingleUpgrade Verif.Spec.SingleUpgrade Verif.Spec.Migrator

/-! ### Listings -/

theorem insert_map {V W : Type} (f : V → W) (p : Nat × V) (l : List (Nat × V)) :
    Paginate.insert (p.1, f p.2) (l.map fun x => (x.1, f x.2)) = (Paginate.insert p l).map fun x => (x.1, f x.2) := by
  induction l with
  | nil => rfl
  | cons q l ih =>
    simp only [List.map_cons, Paginate.insert, ih]
    split <;> rfl

theorem sorted_map {V W : Type} (f : V → W) (m : AMap Nat V) :
    Paginate.sorted (m.map fun x => (x.1, f x.2) : AMap Nat W) = (Paginate.sorted m).map fun x => (x.1, f x.2) := by
  induction m with
  | nil => rfl
  | cons p m ih =>
    show Paginate.insert _ (Paginate.sorted (List.map _ m : AMap Nat W)) = _
    rw [ih, insert_map f p]; rfl

theorem reverse_eq {V : Type} (m : AMap Nat V) : reverse m = (Paginate.sorted m).reverse.take 30 := by
  simp [reverse, Paginate.listing, Paginate.range, Paginate.within]

theorem reverse_map {V W : Type} (f : V → W) (m : AMap Nat V) :
    reverse (m.map fun x => (x.1, f x.2) : AMap Nat W) = (reverse m).map fun x => (x.1, f x.2) := by
  rw [reverse_eq, reverse_eq, sorted_map, ← List.map_reverse, List.map_take]

theorem reverse_head {V : Type} {m : AMap Nat V} (hm : m.WF) {x : Nat × V} {rest : List (Nat × V)}
    (h : reverse m = x :: rest) : m.get x.1 = some x.2 ∧ ∀ id v, m.get id = some v → id ≤ x.1 := by
  rw [reverse_eq] at h
  have hhead : (Paginate.sorted m).reverse.head? = some x := by
    cases hr : (Paginate.sorted m).reverse with
    | nil => rw [hr] at h; cases h
    | cons y l => rw [hr] at h; simp at h; rw [h.1]; rfl
  have hlast : (Paginate.sorted m).getLast? = some x := by rw [← List.head?_reverse]; exact hhead
  obtain ⟨l, hl⟩ := List.getLast?_eq_some_iff.1 hlast
  have hs := Paginate.sorted_sorted hm
  rw [hl, List.pairwise_append] at hs
  have hmem : x ∈ Paginate.sorted m := by rw [hl]; simp
  refine ⟨AMap.get_of_mem hm (Paginate.mem_sorted.1 hmem), fun id v hv => ?_⟩
  have hin : (id, v) ∈ Paginate.sorted m := Paginate.mem_sorted.2 (AMap.mem_of_get hv)
  rw [hl, List.mem_append] at hin
  rcases hin with hin | hin
  · exact Nat.le_of_lt (hs.2.2 _ hin x (List.mem_singleton.2 rfl))
  · rw [List.mem_singleton] at hin; rw [← hin]; exact Nat.le_refl _

theorem newest_head {st : Storage} (hm : st.v1Proposals.WF) {id : Nat} {v : V1.Proposal} :
    Newest st id v ↔ ∃ rest, reverse st.v1Proposals = (id, v) :: rest := by
  constructor
  · rintro ⟨hg, hmax⟩
    cases hr : reverse st.v1Proposals with
    | nil =>
      rw [reverse_eq] at hr
      have hin : (id, v) ∈ Paginate.sorted st.v1Proposals := Paginate.mem_sorted.2 (AMap.mem_of_get hg)
      cases hs : (Paginate.sorted st.v1Proposals).reverse with
      | nil => rw [List.reverse_eq_nil_iff] at hs; rw [hs] at hin; cases hin
      | cons y l => rw [hs] at hr; cases hr
    | cons x rest =>
      obtain ⟨h1, h2⟩ := reverse_head hm hr
      have he : id = x.1 := Nat.le_antisymm (h2 id v hg) (hmax x.1 x.2 h1)
      subst he
      rw [h1] at hg; injection hg with hg; subst hg
      exact ⟨rest, rfl⟩
  · rintro ⟨rest, hr⟩
    exact reverse_head hm hr

theorem reported_ok {b : Block} {l : List (Nat × Single.Proposal)} {ps : List Single.Proposal} :
    reported b l = .ok ps ↔ List.Forall₂ (fun x q => Single.Proposal.updateStatus x.2 b = .ok q) l ps := by
  induction l generalizing ps with
  | nil => simp [reported, eq_comm]
  | cons x l ih =>
    obtain ⟨i, p⟩ := x
    simp only [reported, bind_ok, ih, Except.ok.injEq]
    constructor
    · rintro ⟨q, hq, qs, hqs, rfl⟩; exact .cons hq hqs
    · intro h
      cases h with
      | cons hq hqs => exact ⟨_, hq, _, hqs, rfl⟩

theorem forall2_exists {α β : Type} {R : α → β → Prop} {l : List α} (h : ∀ a ∈ l, ∃ b, R a b) :
    ∃ m, List.Forall₂ R l m := by
  induction l with
  | nil => exact ⟨[], .nil⟩
  | cons a l ih =>
    obtain ⟨b, hb⟩ := h a (List.mem_cons_self ..)
    obtain ⟨m, hm⟩ := ih fun a ha => h a (List.mem_cons_of_mem _ ha)
    exact ⟨b :: m, .cons hb hm⟩

theorem updateStatus_ok {p q : Single.Proposal} {b : Block} :
    p.updateStatus b = .ok q ↔ ∃ s, p.currentStatus b = .ok s ∧ q = { p with status := s } := by
  simp only [Single.Proposal.updateStatus, bind_ok, Except.ok.injEq]
  constructor
  · rintro ⟨s, hs, rfl⟩; exact ⟨s, hs, rfl⟩
  · rintro ⟨s, hs, rfl⟩; exact ⟨s, hs, rfl⟩

/-- The new code's answer about the newest proposal of an upgraded module. -/
theorem reported_head {b : Block} {l : List (Nat × V1.Proposal)} {q : Single.Proposal} :
    (∃ ps, reported b (l.map fun x => (x.1, proposalToV2 x.2)) = .ok ps ∧ ps.head? = some q) ↔
      (∀ y ∈ l, ∃ s, (proposalToV2 y.2).currentStatus b = .ok s) ∧
        ∃ x rest s, l = x :: rest ∧ (proposalToV2 x.2).currentStatus b = .ok s ∧ q = { proposalToV2 x.2 with status := s } := by
  simp only [reported_ok, List.forall₂_map_left_iff, updateStatus_ok]
  constructor
  · rintro ⟨ps, h, hq⟩
    refine ⟨?_, ?_⟩
    · clear hq
      induction h with
      | nil => simp
      | cons h _ ih =>
        obtain ⟨s, hs, _⟩ := h
        intro y hy
        rcases List.mem_cons.1 hy with rfl | hy
        · exact ⟨s, hs⟩
        · exact ih y hy
    · cases h with
      | nil => cases hq
      | cons h _ =>
        obtain ⟨s, hs, rfl⟩ := h
        simp only [List.head?_cons, Option.some.injEq] at hq
        exact ⟨_, _, s, rfl, hs, hq.symm⟩
  · rintro ⟨hall, x, rest, s, rfl, hs, rfl⟩
    obtain ⟨m, hm⟩ := forall2_exists (R := fun (x : Nat × V1.Proposal) q =>
      ∃ s, (proposalToV2 x.2).currentStatus b = .ok s ∧ q = { proposalToV2 x.2 with status := s }) (l := rest)
      fun y hy => by
        obtain ⟨s, hs⟩ := hall y (List.mem_cons_of_mem _ hy)
        exact ⟨_, s, hs, rfl⟩
    exact ⟨_, .cons ⟨s, hs, rfl⟩ hm, rfl⟩

/-! ### The states compared -/

theorem newestsV1_ok {w : World} {e : Env} {l : List Addr} {ps : List Single.Proposal} :
    newestsV1 w e l = .ok ps ↔
      List.Forall₂ (fun a q => ∃ st, w.storages.get a = some st ∧ newestV1 st (e.v1Status a) = .ok q) l ps := by
  induction l generalizing ps with
  | nil => simp [newestsV1, eq_comm]
  | cons a l ih =>
    simp only [newestsV1, bind_ok, orErr_ok, ih, Except.ok.injEq]
    constructor
    · rintro ⟨st, hst, q, hq, qs, hqs, rfl⟩; exact .cons ⟨st, hst, hq⟩ hqs
    · intro h
      cases h with
      | cons hq hqs => obtain ⟨st, hst, hq⟩ := hq; exact ⟨st, hst, _, hq, _, hqs, rfl⟩

theorem newestsV2_ok {w : World} {e : Env} {l : List Addr} {ps : List Single.Proposal} :
    newestsV2 w e l = .ok ps ↔
      List.Forall₂ (fun a q => ∃ st, w.storages.get a = some st ∧ newestV2 e.core.block st = .ok q) l ps := by
  induction l generalizing ps with
  | nil => simp [newestsV2, eq_comm]
  | cons a l ih =>
    simp only [newestsV2, bind_ok, orErr_ok, ih, Except.ok.injEq]
    constructor
    · rintro ⟨st, hst, q, hq, qs, hqs, rfl⟩; exact .cons ⟨st, hst, hq⟩ hqs
    · intro h
      cases h with
      | cons hq hqs => obtain ⟨st, hst, hq⟩ := hq; exact ⟨st, hst, _, hq, _, hqs, rfl⟩

theorem counts_ok {w : World} {l : List Addr} {cs : List Nat} :
    counts w l = .ok cs ↔ List.Forall₂ (fun a c => ∃ st, w.storages.get a = some st ∧ c = st.count) l cs := by
  induction l generalizing cs with
  | nil => simp [counts, eq_comm]
  | cons a l ih =>
    simp only [counts, bind_ok, orErr_ok, ih, Except.ok.injEq]
    constructor
    · rintro ⟨st, hst, qs, hqs, rfl⟩; exact .cons ⟨st, hst, rfl⟩ hqs
    · intro h
      cases h with
      | cons hq hqs => obtain ⟨st, hst, rfl⟩ := hq; exact ⟨st, hst, _, hqs, rfl⟩

theorem newestV1_ok {st : Storage} {s : V1.Status} {q : Single.Proposal} (hm : st.v1Proposals.WF) :
    newestV1 st s = .ok q ↔ ∃ id v, Newest st id v ∧ q = { proposalToV2 v with status := statusToV2 s } := by
  simp only [newest_head hm, newestV1]
  cases hr : reverse st.v1Proposals with
  | nil => simp
  | cons x rest =>
    obtain ⟨id, v⟩ := x
    simp only [Except.ok.injEq, List.cons.injEq, Prod.mk.injEq]
    constructor
    · rintro rfl; exact ⟨id, v, ⟨rest, ⟨rfl, rfl⟩, rfl⟩, rfl⟩
    · rintro ⟨id', v', ⟨_, ⟨rfl, rfl⟩, _⟩, rfl⟩; rfl

/-- An upgraded module of version 1 is asked for its newest proposal. -/
theorem newestV2_ok {ver : Nat} {st : Storage} {x : ProposalParams} {r : Storage × Single.Out} {e : Env} {a : Addr}
    {q : Single.Proposal} (h : SingleUpgrade.migrate ver st (.fromV1 x.close x.info x.veto) = .ok r)
    (hm : st.v1Proposals.WF) (h0 : st.proposals = []) :
    newestV2 e.core.block (preReply r.1 e a x) = .ok q ↔
      (∀ y ∈ reverse st.v1Proposals, ∃ s, (proposalToV2 y.2).currentStatus e.core.block = .ok s) ∧
        ∃ id v s, Newest st id v ∧ (proposalToV2 v).currentStatus e.core.block = .ok s ∧ q = { proposalToV2 v with status := s } := by
  obtain ⟨st', out⟩ := r
  have hps : ∃ s, (preReply st' e a x).view = some s ∧ s.proposals = st.v1Proposals.map fun x => (x.1, proposalToV2 x.2) := by
    obtain ⟨c, _, _, rfl, _⟩ := migrate_fromV1 h
    have hfold : st.v1Proposals.foldl (fun m x => m.set x.1 (proposalToV2 x.2)) st.proposals = st.v1Proposals.map fun x => (x.1, proposalToV2 x.2) := by
      rw [h0, fold_new _ hm _ (by simp)]; rfl
    cases hi : x.info with
    | anyoneMayPropose => exact ⟨_, by simp only [preReply, hi]; rfl, hfold⟩
    | moduleMayPropose => exact ⟨_, by simp only [preReply, hi]; rfl, hfold⟩
  obtain ⟨s, hs, hps⟩ := hps
  simp only [newestV2, bind_ok, orErr_ok, hs, Option.some.injEq, exists_eq_left', hps]
  rw [reverse_map proposalToV2 st.v1Proposals, reported_head]
  simp only [newest_head hm]
  refine and_congr_right fun _ => ?_
  constructor
  · rintro ⟨⟨id, v⟩, rest, s, hr, hs, rfl⟩; exact ⟨id, v, s, ⟨rest, hr⟩, hs, rfl⟩
  · rintro ⟨id, v, s, ⟨rest, hr⟩, hs, rfl⟩; exact ⟨(id, v), rest, s, hr, hs, rfl⟩

theorem testState_ok {w : World} {e : Env} {v : Addr} {l : List Addr} {ps : List Single.Proposal} {t : TestState} :
    testState w e v l ps = .ok t ↔ ∃ cs q code, counts w l = .ok cs ∧ ps.head? = some q ∧ w.code.get v = some code ∧
      t = ⟨cs, ps, e.total code q.startHeight, e.power code q.proposer q.startHeight⟩ := by
  simp only [testState, bind_ok, orErr_ok, Except.ok.injEq]
  constructor
  · rintro ⟨cs, h1, q, h2, code, h3, rfl⟩; exact ⟨cs, q, code, h1, h2, h3, rfl⟩
  · rintro ⟨cs, q, code, h1, h2, h3, rfl⟩; exact ⟨cs, h1, q, h2, code, h3, rfl⟩

theorem forall2_both {α β : Type} {R S : α → β → Prop} {l : List α} {m : List β} (h : List.Forall₂ R l m)
    (h' : List.Forall₂ S l m) : ∀ a ∈ l, ∃ b, R a b ∧ S a b := by
  induction h with
  | nil => simp
  | cons h _ ih =>
    cases h' with
    | cons h1 h2 =>
      intro a ha
      rcases List.mem_cons.1 ha with rfl | ha
      · exact ⟨_, h, h1⟩
      · exact ih h2 a ha

theorem forall2_imp {α β : Type} {R S : α → β → Prop} {l : List α} {m : List β} (h : List.Forall₂ R l m)
    (hi : ∀ a ∈ l, ∀ b, R a b → S a b) : List.Forall₂ S l m := by
  induction h with
  | nil => exact .nil
  | cons h _ ih =>
    exact .cons (hi _ (List.mem_cons_self ..) _ h) (ih fun a ha => hi a (List.mem_cons_of_mem _ ha))

/-! ### Orders that can be carried out -/

/-- An order can be carried out. -/
def Can (w : World) (e : Env) (o : Order) : Prop :=
  w.admins.get o.contract = some w.core.me ∧ ∃ ver, e.ver o.newCode = some ver ∧
    (o.kind = .cw20Stake → e.stakeOk = true) ∧
    ∀ p, o.kind = .single p → ∃ st r, w.storages.get o.contract = some st ∧
      SingleUpgrade.migrate ver st (.fromV1 p.close p.info p.veto) = .ok r

theorem applyOrder_can {w : World} {e : Env} {o : Order} (h : Can w e o) : ∃ w', applyOrder w e o = .ok w' := by
  obtain ⟨ha, ver, hv, hs, hp⟩ := h
  have hk : ∃ w1, applyKind w e ver o = .ok w1 := by
    unfold applyKind
    cases hk : o.kind with
    | single p =>
      obtain ⟨st, r, hst, hr⟩ := hp p hk
      exact ⟨_, by simp only [bind_ok, orErr_ok, Except.ok.injEq]; exact ⟨st, hst, r, hr, rfl⟩⟩
    | cw20Stake => exact ⟨w, by simp only [bind_ok, require_ok]; exact ⟨(), hs hk, trivial⟩⟩
    | cw4 => exact ⟨w, rfl⟩
    | cw20Voting => exact ⟨w, rfl⟩
  obtain ⟨w1, hw1⟩ := hk
  exact ⟨_, by simp only [applyOrder, bind_ok, require_ok, orErr_ok, decide_eq_true_eq, Except.ok.injEq]; exact ⟨(), ha, ver, hv, w1, hw1, rfl⟩⟩

theorem applyOrders_can {w : World} {e : Env} {os : List Order} (h : ∀ o ∈ os, Can w e o)
    (hn : (os.map (·.contract)).Nodup) : ∃ w', applyOrders w e os = .ok w' := by
  induction os generalizing w with
  | nil => exact ⟨w, rfl⟩
  | cons o os ih =>
    obtain ⟨w1, hw1⟩ := applyOrder_can (h o (List.mem_cons_self ..))
    have d := applyOrder_did hw1
    simp only [List.map_cons, List.nodup_cons] at hn
    have hcan : ∀ o' ∈ os, Can w1 e o' := by
      intro o' ho'
      obtain ⟨ha, ver, hv, hs, hp⟩ := h o' (List.mem_cons_of_mem _ ho')
      have hne : o'.contract ≠ o.contract := fun he => hn.1 (by rw [← he]; exact List.mem_map_of_mem ho')
      refine ⟨by rw [d.admins, d.core]; exact ha, ver, hv, hs, fun p hk => ?_⟩
      obtain ⟨st, r, hst, hr⟩ := hp p hk
      exact ⟨st, r, by rw [d.rest _ hne]; exact hst, hr⟩
    obtain ⟨w', hw'⟩ := ih hcan hn.2
    exact ⟨w', by simp only [applyOrders, bind_ok]; exact ⟨w1, hw1, hw'⟩⟩

theorem seen_ordered {w : World} {e : Env} {ver : Nat} (hn : New w e) (ho : OldDao w) :
    ((worldAfter w e ver).view.modules.filter fun a => decide (a ≠ e.migrator)).Pairwise (fun a b : Nat => a < b) := by
  refine List.Pairwise.filter _ ?_
  have h : (worldAfter w e ver).view.modules = (Paginate.sorted (coreAfter w e).modules).map Prod.fst := by
    simp [World.view, Paginate.paginateKeys, Paginate.range, Paginate.within, worldAfter]
  rw [h, List.pairwise_map]
  refine Paginate.sorted_sorted ?_
  unfold AMap.WF
  rw [keys_after hn]
  exact List.nodup_append.2 ⟨ho.keys, by simp, fun a ha b hb => by
    rw [List.mem_singleton] at hb; subst hb; exact fun he => hn.notKey (he ▸ ha)⟩

/-- The least of the modules is asked first. -/
theorem least {w : World} {e : Env} {ver : Nat} (hn : New w e) (ho : OldDao w) {a : Addr} {l : List Addr}
    (h : ((worldAfter w e ver).view.modules.filter fun a => decide (a ≠ e.migrator)) = a :: l) :
    a ∈ w.keys ∧ ∀ b ∈ w.keys, a ≤ b := by
  have hp := (modules_seen (ver := ver) hn).1
  have hs := seen_ordered (ver := ver) hn ho
  rw [h] at hp hs
  refine ⟨hp.mem_iff.1 (List.mem_cons_self ..), fun b hb => ?_⟩
  rcases List.mem_cons.1 (hp.mem_iff.2 hb) with rfl | hb
  · exact Nat.le_refl _
  · exact Nat.le_of_lt (List.rel_of_pairwise_cons hs hb)

theorem newest_unique {st : Storage} {id id' : Nat} {v v' : V1.Proposal} (h : Newest st id v) (h' : Newest st id' v') :
    v = v' := by
  have he : id = id' := Nat.le_antisymm (h'.2 _ _ h.1) (h.2 _ _ h'.1)
  subst he
  have := h.1.symm.trans h'.1
  injection this

theorem paused_open {w : World} {e : Env} (hn : New w e) :
    Open w e ↔ ¬ Spec.DaoCore.Paused w.core e.core.block := by
  rw [← DaoCore.paused_iff]
  unfold Open
  simp [hn.notMe, hn.notAdmin]

/-- What an upgrade that goes through shows. -/
theorem ready_of_upgrade {w w' : World} {e : Env} {ver : Nat} {p : Params} (h : upgrade w e ver p = .ok w')
    (hd : Different p.v1) (hn : New w e) (ho : OldDao w) : Ready w e ver p := by
  have hup := C83_complete h hd hn ho
  obtain ⟨hver, hfew, hopen, v, vos, mos, before, w1, hp, hbef, hap, haft, hk1, _⟩ := (upgrade_ok ho.few).1 h
  have hnd := orders_distinct hd hn ho hp
  have D := applyOrders_did hap hnd
  obtain ⟨_, hpn, hv, _, _, hm, _⟩ := plan_ok.1 hp
  obtain ⟨hperm, _⟩ := modules_seen (ver := ver) hn
  have hlist := orders_contracts hm
  have hadm : ∀ a c, w.code.get a = some c → (worldAfter w e ver).admins.get a = w.admins.get a := by
    intro a c hc
    refine AMap.get_set_ne _ _ fun he => ?_
    rw [← he, hn.fresh] at hc; cases hc
  simp only [stateV1, bind_ok, newestsV1_ok, testState_ok] at hbef
  simp only [stateV2, bind_ok, newestsV2_ok, testState_ok] at haft
  obtain ⟨ps, hps, cs, q, code, _, hq, hcode, rfl⟩ := hbef
  obtain ⟨ps', hps', cs', q', code', _, hq', hcode', heq⟩ := haft
  simp only [TestState.mk.injEq] at heq
  obtain ⟨_, rfl, ht, hpw⟩ := heq
  rw [hq] at hq'; injection hq' with hq'; subst hq'
  refine ⟨hver, hfew, (paused_open hn).1 hopen, fun hnil => ?_, hpn, hup.named, ?_, ?_⟩
  · rw [hnil] at hk1; simp at hk1
  · intro a x hx
    have ha : a ∈ w.keys := (hup.named a).1 (List.mem_map_of_mem (f := Prod.fst) hx)
    obtain ⟨o, ho', h'⟩ := orders_of hm (hperm.mem_iff.2 ha)
    obtain ⟨x', hx', hc, rfl⟩ := moduleOrder_ok.1 h'
    have hxx : x' = (a, x) := by
      have := find_param_of hpn hx
      rw [this] at hx'; injection hx' with hx'; exact hx'.symm
    subst hxx
    have hin := List.mem_append_right vos ho'
    obtain ⟨ver', hver', hs⟩ := D.ver _ hin
    obtain ⟨st, r, hst, hr, hst'⟩ := hs x rfl
    have hst : w.storages.get a = some st := hst
    obtain ⟨hwf, h0⟩ := ho.proposals a st hst
    obtain ⟨hv1, hv2, c, hv3, hv4⟩ := C82_accepted.1 ⟨r, hr⟩
    obtain ⟨q1, ⟨st1, hst1, hq1⟩, st2, hst2, hq2⟩ := forall2_both hps hps' a (by rw [hlist]; exact hperm.mem_iff.2 ha)
    have hst1 : w.storages.get a = some st1 := hst1
    rw [hst] at hst1; injection hst1 with hst1; subst hst1
    rw [hst'] at hst2; injection hst2 with hst2; subst hst2
    obtain ⟨id, vv, hnew, rfl⟩ := (newestV1_ok hwf).1 hq1
    obtain ⟨hall, id', vv', s, hnew', hcs, hqe⟩ := (newestV2_ok hr hwf h0).1 hq2
    have hvv := newest_unique hnew hnew'
    subst hvv
    have hse : statusToV2 (e.v1Status a) = s := congrArg Single.Proposal.status hqe
    exact ⟨hc, by have := D.admin _ hin; rw [hadm a _ hc] at this; exact this,
      ⟨ver', hver', fun st' hst' => by rw [hst] at hst'; injection hst' with hst'; subst hst'; exact hv1⟩,
      st, c, hst, hv3, hv4, hv2, hall, id, vv, hnew, by rw [hse]; exact hcs⟩
  · obtain ⟨hvot, hvc⟩ := voting_code hv
    refine ⟨v, code, code', hvot, ?_, ?_⟩
    · have hcode : w.code.get v = some code := hcode
      rcases hvc with ⟨h4, rfl⟩ | ⟨_, h20, hcf, s, hs, hsc, rfl⟩
      · have hin : (⟨v, p.v2.cw4, .cw4⟩ : Order) ∈ [⟨v, p.v2.cw4, .cw4⟩] ++ mos := by simp
        have e1 := D.code _ hin
        rw [hcode'] at e1; injection e1 with e1
        rw [h4] at hcode; injection hcode with hcode
        obtain ⟨vr, hvr, _⟩ := D.ver _ hin
        refine ⟨by rw [← hcode]; exact h4, by have := D.admin _ hin; rw [hadm v _ h4] at this; exact this, ?_, .inl ⟨hcode.symm, e1⟩⟩
        rw [e1]; show (e.ver p.v2.cw4).isSome = true
        rw [show e.ver p.v2.cw4 = some vr from hvr]; rfl
      · have hin : (⟨v, p.v2.cw20Voting, .cw20Voting⟩ : Order) ∈ [⟨v, p.v2.cw20Voting, .cw20Voting⟩, ⟨s, p.v2.stake, .cw20Stake⟩] ++ mos := by simp
        have hin' : (⟨s, p.v2.stake, .cw20Stake⟩ : Order) ∈ [⟨v, p.v2.cw20Voting, .cw20Voting⟩, ⟨s, p.v2.stake, .cw20Stake⟩] ++ mos := by simp
        have e1 := D.code _ hin
        rw [hcode'] at e1; injection e1 with e1
        rw [h20] at hcode; injection hcode with hcode
        obtain ⟨vr, hvr, _⟩ := D.ver _ hin
        obtain ⟨vr', hvr', _⟩ := D.ver _ hin'
        refine ⟨by rw [← hcode]; exact h20, by have := D.admin _ hin; rw [hadm v _ h20] at this; exact this, ?_,
          .inr ⟨hcode.symm, e1, hcf, D.stake _ hin' rfl, ?_, s, hs, by have := D.admin _ hin'; rw [hadm s _ hsc] at this; exact this, hsc⟩⟩
        · rw [e1]; show (e.ver p.v2.cw20Voting).isSome = true
          rw [show e.ver p.v2.cw20Voting = some vr from hvr]; rfl
        · rw [show e.ver p.v2.stake = some vr' from hvr']; rfl
    · cases hl : mos.map (·.contract) with
      | nil => rw [hl] at hps; cases hps; cases hq
      | cons a l =>
        rw [hl] at hps
        cases hps with
        | cons hqa _ =>
          simp only [List.head?_cons, Option.some.injEq] at hq
          subst hq
          obtain ⟨st, hst, hqa⟩ := hqa
          have hst : w.storages.get a = some st := hst
          obtain ⟨id, vv, hnew, rfl⟩ := (newestV1_ok (ho.proposals a st hst).1).1 hqa
          obtain ⟨hmem, hle⟩ := least (ver := ver) hn ho (hlist.symm.trans hl)
          exact ⟨a, st, id, vv, hmem, hle, hst, hnew, ht, hpw⟩

/-- **C83.** An upgrade of a DAO from version 1 goes through exactly when it is ready: the DAO is not paused and has
proposal modules, the parameters name each of them once and nothing else, each module and the voting module can be
upgraded, and the samples the migrator takes of their state agree. -/
theorem C83_accepted {w : World} {e : Env} {ver : Nat} {p : Params} (hd : Different p.v1) (hn : New w e)
    (ho : OldDao w) : (∃ w', upgrade w e ver p = .ok w') ↔ Ready w e ver p := by
  constructor
  · rintro ⟨w', h⟩; exact ready_of_upgrade h hd hn ho
  · intro R
    obtain ⟨v, old, new, hvot, ⟨hvc, hva, hvv, hvo⟩, sa, sst, sid, sv, hsk, hsl, hsst, hsnew, hst, hsp⟩ := R.voting
    obtain ⟨hperm, hlen⟩ := modules_seen (ver := ver) hn
    have hadm : ∀ a c, w.code.get a = some c → (worldAfter w e ver).admins.get a = w.admins.get a := by
      intro a c hc
      refine AMap.get_set_ne _ _ fun he => ?_
      rw [← he, hn.fresh] at hc; cases hc
    -- the plan
    have hvorders : ∃ vos, votingOrders p (worldAfter w e ver).view = .ok (v, vos) ∧
        (∀ o ∈ vos, Can (worldAfter w e ver) e o) ∧ (⟨v, new, if old = p.v1.cw4 then .cw4 else .cw20Voting⟩ : Order) ∈ vos := by
      rcases hvo with ⟨rfl, rfl⟩ | ⟨rfl, rfl, hcf, hso, hsv, s, hs, hsa, hsc⟩
      · refine ⟨_, votingOrders_ok.2 ⟨hvot, .inl ⟨hvc, rfl⟩⟩, ?_, by simp⟩
        intro o ho'
        rw [List.mem_singleton] at ho'; subst ho'
        obtain ⟨x, hx⟩ := Option.isSome_iff_exists.1 hvv
        exact ⟨by rw [hadm v _ hvc]; exact hva, x, hx, by simp, by simp⟩
      · have hne := hd.2.2.2.2.1
        refine ⟨_, votingOrders_ok.2 ⟨hvot, .inr ⟨hne, hvc, hcf, s, hs, hsc, rfl⟩⟩, ?_, by simp [Ne.symm hne]⟩
        intro o ho'
        obtain ⟨x, hx⟩ := Option.isSome_iff_exists.1 hvv
        obtain ⟨x', hx'⟩ := Option.isSome_iff_exists.1 hsv
        rcases List.mem_cons.1 ho' with rfl | ho'
        · exact ⟨by rw [hadm v _ hvc]; exact hva, x, hx, by simp, by simp⟩
        · rw [List.mem_singleton] at ho'; subst ho'
          exact ⟨by rw [hadm s _ hsc]; exact hsa, x', hx', fun _ => hso, by simp⟩
    obtain ⟨vos, hvos, hvcan, hvin⟩ := hvorders
    have hmods : ∀ a ∈ w.keys, ∃ x, (a, x) ∈ p.proposals ∧ ModuleReady w e p a x ∧
        moduleOrder p (worldAfter w e ver).view a = .ok ⟨a, p.v2.single, .single x⟩ := by
      intro a ha
      obtain ⟨⟨a', x⟩, hx, hax⟩ := List.mem_map.1 ((R.named a).2 ha)
      have hax : a' = a := hax
      subst hax
      have r := R.modules a' x hx
      exact ⟨x, hx, r, moduleOrder_ok.2 ⟨(a', x), find_param_of R.once hx, r.code, rfl⟩⟩
    obtain ⟨mos, hmos⟩ := forall2_exists (R := fun a o => moduleOrder p (worldAfter w e ver).view a = .ok o)
      (l := (worldAfter w e ver).view.modules.filter fun a => decide (a ≠ e.migrator))
      fun a ha => by
        obtain ⟨x, _, _, h⟩ := hmods a (hperm.mem_iff.1 ha)
        exact ⟨_, h⟩
    have hlist := orders_contracts hmos
    have hplen : p.proposals.length = w.keys.length := by
      have hpp : (p.proposals.map Prod.fst).Perm w.keys :=
        (List.subperm_of_subset R.once fun a ha => (R.named a).1 ha).antisymm (List.subperm_of_subset ho.keys fun a ha => (R.named a).2 ha)
      have := hpp.length_eq
      rwa [List.length_map] at this
    have hne : mos ≠ [] := by
      rintro rfl
      have : ((worldAfter w e ver).view.modules.filter fun a => decide (a ≠ e.migrator)) = [] := hlist.symm
      rw [this] at hperm
      exact R.some_ hperm.symm.eq_nil
    have hplan : plan w.core.me e.migrator w.core.me p (worldAfter w e ver).view = .ok (v, vos, mos) :=
      plan_ok.2 ⟨rfl, R.once, hvos, by omega, by omega, hmos, hne⟩
    have hnd := orders_distinct hd hn ho hplan
    have hcan : ∀ o ∈ vos ++ mos, Can (worldAfter w e ver) e o := by
      intro o ho'
      rcases List.mem_append.1 ho' with ho' | ho'
      · exact hvcan o ho'
      · obtain ⟨a, ha, h'⟩ := orders_mem hmos ho'
        obtain ⟨x, _, r, h⟩ := hmods a (hperm.mem_iff.1 ha)
        rw [h] at h'; injection h' with h'; subst h'
        obtain ⟨vr, hvr, hvne⟩ := r.new
        obtain ⟨st, c, hst, hc, hvf, hdep, _⟩ := r.storage
        refine ⟨by rw [show (worldAfter w e ver).admins.get a = w.admins.get a from hadm a _ r.code]; exact r.admin, vr, hvr, by simp, fun p' hp' => ?_⟩
        injection hp' with hp'; subst hp'
        obtain ⟨rr, hrr⟩ := C82_accepted.2 ⟨hvne st hst, hdep, c, hc, hvf⟩
        exact ⟨st, rr, hst, hrr⟩
    obtain ⟨w1, hw1⟩ := applyOrders_can hcan hnd
    have D := applyOrders_did hw1 hnd
    -- the states
    have hboth : ∀ a ∈ mos.map (·.contract), ∃ q, (∃ st, (worldAfter w e ver).storages.get a = some st ∧ newestV1 st (e.v1Status a) = .ok q) ∧
        (∃ st, w1.storages.get a = some st ∧ newestV2 e.core.block st = .ok q) ∧
        ∃ st st', (worldAfter w e ver).storages.get a = some st ∧ w1.storages.get a = some st' ∧ st'.count = st.count := by
      intro a ha
      rw [hlist] at ha
      obtain ⟨x, _, r, h⟩ := hmods a (hperm.mem_iff.1 ha)
      obtain ⟨o, ho', h'⟩ := orders_of hmos ha
      rw [h] at h'; injection h' with h'; subst h'
      obtain ⟨vr, hvr, hs⟩ := D.ver _ (List.mem_append_right vos ho')
      obtain ⟨st, rr, hst, hrr, hst'⟩ := hs x rfl
      obtain ⟨st0, c, hst0, hc, hvf, hdep, hall, id, vv, hnew, hcs⟩ := r.storage
      have hst1 : w.storages.get a = some st := hst
      rw [hst0] at hst1; injection hst1 with hst1; subst hst1
      obtain ⟨hwf, h0⟩ := ho.proposals a st0 hst0
      refine ⟨{ proposalToV2 vv with status := statusToV2 (e.v1Status a) }, ⟨st0, hst, (newestV1_ok hwf).2 ⟨id, vv, hnew, rfl⟩⟩,
        ⟨_, hst', (newestV2_ok hrr hwf h0).2 ⟨hall, id, vv, _, hnew, hcs, rfl⟩⟩, st0, _, hst, hst', ?_⟩
      obtain ⟨rst, rout⟩ := rr
      obtain ⟨_, _, _, rfl, _⟩ := migrate_fromV1 hrr
      cases hi : x.info <;> simp only [preReply, hi]
    obtain ⟨ps, hps⟩ := forall2_exists hboth
    have hps1 : newestsV1 (worldAfter w e ver) e (mos.map (·.contract)) = .ok ps :=
      newestsV1_ok.2 (forall2_imp hps fun _ _ _ h => h.1)
    have hps2 : newestsV2 w1 e (mos.map (·.contract)) = .ok ps :=
      newestsV2_ok.2 (forall2_imp hps fun _ _ _ h => h.2.1)
    obtain ⟨cs, hcs⟩ := forall2_exists (R := fun a c => ∃ st st', (worldAfter w e ver).storages.get a = some st ∧
      w1.storages.get a = some st' ∧ c = st.count ∧ c = st'.count) (l := mos.map (·.contract))
      fun a ha => by
        obtain ⟨q, _, _, st, st', h1, h2, h3⟩ := hboth a ha
        exact ⟨_, st, st', h1, h2, rfl, h3.symm⟩
    have hcs1 : counts (worldAfter w e ver) (mos.map (·.contract)) = .ok cs :=
      counts_ok.2 (forall2_imp hcs fun _ _ _ ⟨st, _, h1, _, h2, _⟩ => ⟨st, h1, h2⟩)
    have hcs2 : counts w1 (mos.map (·.contract)) = .ok cs :=
      counts_ok.2 (forall2_imp hcs fun _ _ _ ⟨_, st, _, h1, _, h2⟩ => ⟨st, h1, h2⟩)
    -- the sample
    have hcode' : w1.code.get v = some new := D.code _ (List.mem_append_left mos hvin)
    cases hl : mos.map (·.contract) with
    | nil => exact absurd (List.map_eq_nil_iff.1 hl) hne
    | cons a l =>
      rw [hl] at hps
      cases hps with
      | @cons _ q _ qs hqa hqs =>
        obtain ⟨⟨st, hstt, hq1⟩, _⟩ := hqa
        have hstt : w.storages.get a = some st := hstt
        obtain ⟨hmem, hle⟩ := least (ver := ver) hn ho (hlist.symm.trans hl)
        have hae : a = sa := Nat.le_antisymm (hle sa hsk) (hsl a hmem)
        subst hae
        rw [hsst] at hstt; injection hstt with hstt; subst hstt
        obtain ⟨id, vv, hnew, rfl⟩ := (newestV1_ok (ho.proposals a sst hsst).1).1 hq1
        have hvv' := newest_unique hnew hsnew
        subst hvv'
        refine ⟨_, (upgrade_ok ho.few).2 ⟨R.version, R.few, (paused_open hn).2 R.notPaused, v, vos, mos,
          ⟨cs, { proposalToV2 vv with status := statusToV2 (e.v1Status a) } :: qs, e.total old vv.startHeight, e.power old vv.proposer vv.startHeight⟩, w1, hplan, ?_, hw1, ?_,
          List.length_pos_iff.2 R.some_, rfl⟩⟩
        · simp only [stateV1, bind_ok, testState_ok]
          exact ⟨_, hps1, cs, _, old, hcs1, rfl, hvc, rfl⟩
        · simp only [stateV2, bind_ok, testState_ok]
          refine ⟨_, hps2, cs, _, new, hcs2, rfl, hcode', ?_⟩
          rw [hst, hsp]; rfl

/-- **C83.** Only the DAO can make the migrator plan an upgrade. -/
theorem C83_only_core {core m sender : Addr} {p : Params} {v : View} (h : sender ≠ core) :
    plan core m sender p v = .error .unauthorized := by
  simp only [plan, require, h, decide_false, Bool.false_eq_true, if_false]
  rfl

theorem hook_msgs {s : DaoCore.State} {e : DaoCore.Env} {a : Addr} (msgs : List DaoCore.CosmosMsg)
    (hp : DaoCore.isPaused s e.block = false) (he : Spec.DaoCore.Enabled s a) :
    DaoCore.execute s e a (.executeProposalHook msgs) = .ok (s, msgs.map .send) := by
  obtain ⟨m, hm, hen⟩ := he
  simp only [DaoCore.execute, DaoCore.dispatch, DaoCore.proposalHook, bind_ok, require_ok, orErr_ok]
  exact ⟨(), by simp [hp], m, hm, (), hen, trivial⟩

theorem call_ok {s s' : DaoCore.State} {e : DaoCore.Env} {a : Addr} {m : DaoCore.Msg} {out : List DaoCore.Sub}
    (hne : a ≠ s.me) (h : DaoCore.execute s e a m = .ok (s', out)) :
    DaoCore.step ⟨s, []⟩ e (.call a m) = .ok (⟨s', out⟩, out) := by
  simp only [DaoCore.step, bind_ok, require_ok, decide_eq_true_eq]
  exact ⟨(), hne, (s', out), h, by rw [List.append_nil]⟩

theorem deliver_ok {s s' : DaoCore.State} {e : DaoCore.Env} {m : DaoCore.Msg} {out : List DaoCore.Sub}
    (h : DaoCore.execute s e s.me m = .ok (s', out)) :
    DaoCore.step ⟨s, [.send (.toSelf m)]⟩ e (.deliver ⟨0, []⟩) = .ok (⟨s', out⟩, out) := by
  simp only [DaoCore.step, bind_ok]
  exact ⟨(s', out), h, by rw [List.append_nil]⟩

theorem reach_next {d d' : DaoCore.World} {e : DaoCore.Env} {c : DaoCore.Call} {out : List DaoCore.Sub}
    (h : ∃ log, DaoCore.sys.Reach d e.block log) (hs : DaoCore.step d e c = .ok (d', out)) :
    ∃ log, DaoCore.sys.Reach d' e.block log := by
  obtain ⟨log, h⟩ := h
  exact ⟨_, Sys.Reach.step (M := DaoCore.sys) (env := e) (call := c) (out := out) h (Block.le_refl _) hs⟩

/-- **C83.** After an upgrade the core contract is in a state that its own rules lead to from the state its own upgrade
makes of version 1's. So what is proved of all histories of the core contract is true of an upgraded DAO. -/
theorem C83_continues {w w' : World} {e : Env} {ver : Nat} {p : Params} (h : upgrade w e ver p = .ok w') (hn : New w e)
    (ho : OldDao w) (hme : w.core.me ∉ w.keys) (hi : w.core.items.WF) (h20 : w.core.cw20s.WF) (h721 : w.core.cw721s.WF) :
    ∃ log, DaoCore.sys.Reach ⟨w'.core, []⟩ e.core.block log := by
  obtain ⟨hver, hfew, hopen, v, vos, mos, before, w1, hp, hbef, hap, haft, hk1, rfl⟩ := (upgrade_ok ho.few).1 h
  have hmod : w.keys.length % DaoCore.U32 = w.keys.length := Nat.mod_eq_of_lt ho.few
  have hpz : ∀ s : DaoCore.State, s.paused = w.core.paused → DaoCore.isPaused s e.core.block = false := by
    intro s hs
    rw [isPaused_same hs]
    have := (paused_open hn).1 hopen
    rw [← DaoCore.paused_iff] at this
    simpa using this
  have h0 : DaoCore.Init e.core.block ⟨(DaoCore.migrate w.core w.keys (some 0)).1, (DaoCore.migrate w.core w.keys (some 0)).2⟩ :=
    .migrated ho.keys (fun hk => by rw [hk] at hk1; simp at hk1) ho.few hme hi h20 h721 ho.subDaos
  have r0 : ∃ log, DaoCore.sys.Reach ⟨(DaoCore.migrate w.core w.keys (some 0)).1, [.send (.toSelf (.updateProposalModules [0] []))]⟩ e.core.block log := ⟨[], _, _, h0, .refl⟩
  have s1 : DaoCore.step ⟨(DaoCore.migrate w.core w.keys (some 0)).1, [.send (.toSelf (.updateProposalModules [0] []))]⟩ e.core (.deliver ⟨0, []⟩) = .ok (⟨(DaoCore.migrate w.core w.keys (some 0)).1, [.create .proposalModule 0]⟩, [.create .proposalModule 0]) := by
    refine deliver_ok ?_
    simp only [DaoCore.execute, DaoCore.dispatch, DaoCore.updateModules, DaoCore.disableAll, bind_ok, require_ok]
    exact ⟨(), by simp, (), by simp, _, rfl, (), by simp, (), by simp, rfl⟩
  have r1 := reach_next r0 s1
  have s2 : DaoCore.step ⟨(DaoCore.migrate w.core w.keys (some 0)).1, [.create .proposalModule 0]⟩ e.core (.deliver ⟨e.migrator, []⟩) = .ok (⟨coreAfter w e, []⟩, []) := by
    simp only [DaoCore.step, bind_ok, require_ok, decide_eq_true_eq, DaoCore.reply, DaoCore.replyProposal, DaoCore.migrate, hmod, Except.ok.injEq]
    refine ⟨(), hn.notMe, (), ?_, _, ⟨(), hfew, (), hfew, rfl⟩, rfl⟩
    rw [(DaoCore.migrateModules_get ho.keys 0).2.2.2.1 _ hn.notKey]; rfl
  have r2 := reach_next r1 s2
  have s3 := call_ok (s := coreAfter w e) (e := e.core) (a := e.migrator) hn.notMe (hook_msgs [.toSelf (.updateSubDaos p.subDaos [])] (hpz (coreAfter w e) rfl) ⟨_, coreAfter_migrator w e, rfl⟩)
  have r3 := reach_next r2 s3
  have s4 := deliver_ok (subDaos_ok (s := coreAfter w e) (e := e.core) (l := p.subDaos).2 ⟨rfl, rfl⟩)
  have r4 := reach_next r3 s4
  have s5 := call_ok (s := { coreAfter w e with subDaos := DaoCore.addSubDaos (coreAfter w e).subDaos p.subDaos }) (e := e.core) (a := e.migrator) hn.notMe (hook_msgs [.toSelf (.updateProposalModules [] [e.migrator])] (hpz _ rfl) ⟨_, coreAfter_migrator w e, rfl⟩)
  have r5 := reach_next r4 s5
  have s6 := deliver_ok ((disable_ok (s := { coreAfter w e with subDaos := DaoCore.addSubDaos (coreAfter w e).subDaos p.subDaos }) (e := e.core) (m := asModule w e true) (coreAfter_migrator w e) rfl).2 ⟨by show 1 < w.keys.length + 1; omega, rfl, rfl⟩)
  have r6 := reach_next r5 s6
  exact r6

/-- **C83.** What keeps a DAO from being upgraded by the migrator: a proposal module without any proposal, a deposit
that has not come back, a module the parameters do not name or name without it being one, a pause. -/
theorem C83_blocked {w : World} {e : Env} {ver : Nat} {p : Params} (hd : Different p.v1) (hn : New w e) (ho : OldDao w)
    (h : (∃ a ∈ w.keys, ∃ st, w.storages.get a = some st ∧ (st.v1Proposals = [] ∨ ∃ y ∈ st.v1Proposals, DepositOpen y.2)) ∨
      (∃ a, ¬ (a ∈ p.proposals.map Prod.fst ↔ a ∈ w.keys)) ∨ Spec.DaoCore.Paused w.core e.core.block) :
    ∀ w', upgrade w e ver p ≠ .ok w' := by
  intro w' hw
  have R := ready_of_upgrade hw hd hn ho
  rcases h with ⟨a, ha, st, hst, h⟩ | ⟨a, h⟩ | h
  · obtain ⟨⟨a', x⟩, hx, hax⟩ := List.mem_map.1 ((R.named a).2 ha)
    have hax : a' = a := hax
    subst hax
    obtain ⟨st', c, hst', _, _, hdep, _, id, v, hnew, _⟩ := (R.modules a' x hx).storage
    rw [hst] at hst'; injection hst' with hst'; subst hst'
    rcases h with h | ⟨y, hy, h⟩
    · have := hnew.1
      rw [h] at this; cases this
    · exact hdep y hy h
  · exact h (R.named a)
  · exact R.notPaused h

end Verif.Migrator
