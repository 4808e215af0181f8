import Verif.Proofs.Migrator
import Verif.Props.DaoCoreLists
import Batteries.Data.List.Perm
/-!
# The upgrade of a whole DAO from version 1 (C83)
-/

namespace Verif.Migrator
open Verif Verif.Voting Verif.SingleUpgrade Verif.Spec.SingleUpgrade Verif.Spec.Migrator

/-- The module the migrator is for a while. -/
def asModule (w : World) (e : Env) (on : Bool) : DaoCore.Module := ⟨e.migrator, DaoCore.derivePrefix w.keys.length, on⟩

/-- The core contract after its own upgrade. -/
def coreAfter (w : World) (e : Env) : DaoCore.State :=
  { w.core with modules := (DaoCore.migrateModules 0 w.keys).set e.migrator (asModule w e true), active := w.keys.length + 1, total := w.keys.length + 1 }

theorem isPaused_same {s s' : DaoCore.State} (h : s.paused = s'.paused) (b : Block) :
    DaoCore.isPaused s b = DaoCore.isPaused s' b := by
  unfold DaoCore.isPaused; rw [h]

theorem coreUpgrade_ok {w w' : World} {e : Env} {ver : Nat} (hf : w.keys.length < DaoCore.U32) :
    coreUpgrade w e ver = .ok w' ↔ w.coreVersion ≠ ver ∧ w.keys.length + 1 < DaoCore.U32 ∧
      w' = { w with coreVersion := ver, core := coreAfter w e, admins := w.admins.set e.migrator w.core.me } := by
  have hmod : w.keys.length % DaoCore.U32 = w.keys.length := Nat.mod_eq_of_lt hf
  simp only [coreUpgrade, bind_ok, require_ok, decide_eq_true_eq, DaoCore.execute, DaoCore.dispatch, DaoCore.updateModules,
    DaoCore.disableAll, DaoCore.replyProposal, DaoCore.migrate, hmod, Except.ok.injEq, List.length_nil, Nat.zero_mod]
  constructor
  · rintro ⟨_, h1, r, ⟨_, _, _, _, ms, rfl, _, _, _, _, rfl⟩, r', ⟨_, h2, _, _, rfl⟩, rfl⟩
    exact ⟨h1, by simpa using h2, rfl⟩
  · rintro ⟨h1, h2, rfl⟩
    exact ⟨(), h1, _, ⟨(), by simp, (), trivial, _, rfl, (), by simp, (), Nat.zero_le _, rfl⟩, _, ⟨(), by simpa using h2, (), by simpa using h2, rfl⟩, rfl⟩

/-- The core contract at the end. -/
def coreLast (w : World) (e : Env) (p : Params) : DaoCore.State :=
  { w.core with modules := ((DaoCore.migrateModules 0 w.keys).set e.migrator (asModule w e true)).set e.migrator (asModule w e false), active := w.keys.length, total := w.keys.length + 1, subDaos := DaoCore.addSubDaos w.core.subDaos p.subDaos }

theorem hook_ok {s s' : DaoCore.State} {e : DaoCore.Env} {a : Addr} {out : List DaoCore.Sub} :
    DaoCore.execute s e a (.executeProposalHook []) = .ok (s', out) ↔
      (DaoCore.isPaused s e.block = false ∨ a = s.me ∨ a = s.admin) ∧ Spec.DaoCore.Enabled s a ∧ s' = s ∧ out = [] := by
  simp only [DaoCore.execute, DaoCore.dispatch, DaoCore.proposalHook, bind_ok, require_ok, orErr_ok, Except.ok.injEq,
    Prod.mk.injEq, List.map_nil, Bool.or_eq_true, Bool.not_eq_true', decide_eq_true_eq, Spec.DaoCore.Enabled]
  constructor
  · rintro ⟨_, h, m, hm, _, he, rfl, rfl⟩
    exact ⟨or_assoc.1 h, ⟨m, hm, he⟩, rfl, rfl⟩
  · rintro ⟨h, ⟨m, hm, he⟩, rfl, rfl⟩
    exact ⟨(), or_assoc.2 h, m, hm, (), he, rfl, rfl⟩

theorem subDaos_ok {s s' : DaoCore.State} {e : DaoCore.Env} {l : List (Addr × Option Nat)} {out : List DaoCore.Sub} :
    DaoCore.execute s e s.me (.updateSubDaos l []) = .ok (s', out) ↔
      s' = { s with subDaos := DaoCore.addSubDaos s.subDaos l } ∧ out = [] := by
  simp only [DaoCore.execute, DaoCore.dispatch, DaoCore.updateSubDaos, bind_ok, require_ok, Except.ok.injEq,
    Prod.mk.injEq, DaoCore.removeAddrs]
  constructor
  · rintro ⟨_, _, _, _, rfl, rfl⟩; exact ⟨rfl, rfl⟩
  · rintro ⟨rfl, rfl⟩; exact ⟨(), by simp, (), by simp, rfl, rfl⟩

theorem disable_ok {s s' : DaoCore.State} {e : DaoCore.Env} {a : Addr} {m : DaoCore.Module} {out : List DaoCore.Sub}
    (hm : s.modules.get a = some m) (hon : m.enabled = true) :
    DaoCore.execute s e s.me (.updateProposalModules [] [a]) = .ok (s', out) ↔
      1 < s.active ∧ s' = { s with modules := s.modules.set a { m with enabled := false }, active := s.active - 1 } ∧ out = [] := by
  have h32 : 1 % DaoCore.U32 = 1 := by decide +kernel
  simp only [DaoCore.execute, DaoCore.dispatch, DaoCore.updateModules, DaoCore.disableAll, bind_ok, require_ok, orErr_ok,
    Except.ok.injEq, Prod.mk.injEq, List.length_cons, List.length_nil, Nat.zero_add, h32, hm, Option.some.injEq]
  constructor
  · rintro ⟨_, _, _, _, ms, ⟨m', rfl, _, _, rfl⟩, _, h1, _, _, rfl, rfl⟩
    exact ⟨by simpa using h1, rfl, rfl⟩
  · rintro ⟨h, rfl, rfl⟩
    exact ⟨(), by simp, (), by simp, _, ⟨m, rfl, (), hon, rfl⟩, (), by simpa using h, (), by simpa using Nat.le_of_lt h, rfl, rfl⟩

theorem coreAfter_migrator (w : World) (e : Env) : (coreAfter w e).modules.get e.migrator = some (asModule w e true) :=
  AMap.get_set_self _ _ _

/-- The DAO is not paused for the migrator. -/
def Open (w : World) (e : Env) : Prop :=
  DaoCore.isPaused w.core e.core.block = false ∨ e.migrator = w.core.me ∨ e.migrator = w.core.admin

/-- The world when the migrator starts. -/
def worldAfter (w : World) (e : Env) (ver : Nat) : World :=
  { w with coreVersion := ver, core := coreAfter w e, admins := w.admins.set e.migrator w.core.me }

theorem paused_after {s : DaoCore.State} {w : World} (h : s.paused = w.core.paused) (b : Block) :
    DaoCore.isPaused s b = DaoCore.isPaused w.core b := isPaused_same h b

theorem applyOrders_core {w w' : World} {e : Env} {os : List Order} (h : applyOrders w e os = .ok w') :
    w'.core = w.core := by
  induction os generalizing w with
  | nil => simp only [applyOrders, Except.ok.injEq] at h; subst h; rfl
  | cons o os ih =>
    simp only [applyOrders, bind_ok] at h
    obtain ⟨w1, h1, h2⟩ := h
    exact (ih h2).trans (applyOrder_did h1).core

theorem stateV2_core (w : World) (c : DaoCore.State) (e : Env) (v : Addr) (l : List Addr) :
    stateV2 { w with core := c } e v l = stateV2 w e v l := by
  have h1 : ∀ l, newestsV2 { w with core := c } e l = newestsV2 w e l := by
    intro l
    induction l with
    | nil => rfl
    | cons a l ih => simp only [newestsV2, ih]
  have h2 : ∀ l, counts { w with core := c } l = counts w l := by
    intro l
    induction l with
    | nil => rfl
    | cons a l ih => simp only [counts, ih]
  simp only [stateV2, testState, h1, h2]

/-- What an upgrade that goes through consists of. -/
theorem upgrade_ok {w w' : World} {e : Env} {ver : Nat} {p : Params} (hf : w.keys.length < DaoCore.U32) :
    upgrade w e ver p = .ok w' ↔ w.coreVersion ≠ ver ∧ w.keys.length + 1 < DaoCore.U32 ∧ Open w e ∧
      ∃ v vos mos before w1, plan w.core.me e.migrator w.core.me p (worldAfter w e ver).view = .ok (v, vos, mos) ∧
        stateV1 (worldAfter w e ver) e v (mos.map (·.contract)) = .ok before ∧
        applyOrders (worldAfter w e ver) e (vos ++ mos) = .ok w1 ∧
        stateV2 w1 e v (mos.map (·.contract)) = .ok before ∧ 1 ≤ w.keys.length ∧
        w' = { w1 with core := coreLast w e p } := by
  simp only [upgrade, bind_ok, coreUpgrade_ok hf]
  constructor
  · rintro ⟨w0, ⟨hv, hb, hw0⟩, h⟩
    have hw0' : w0 = worldAfter w e ver := hw0
    clear hw0
    subst hw0'
    simp only [runMigrator, bind_ok, require_ok, decide_eq_true_eq, Except.ok.injEq] at h
    obtain ⟨⟨v, vos, mos⟩, hp, h⟩ := h
    simp only [bind_ok, require_ok, decide_eq_true_eq, Except.ok.injEq] at h
    obtain ⟨before, hbef, ⟨s1, o1⟩, hh1, w1, hap, ⟨s2, o2⟩, hu, after, haft, _, heq, ⟨s3, o3⟩, hh2, ⟨s4, o4⟩, hd, rfl⟩ := h
    obtain ⟨hopen, _, rfl, _⟩ := hook_ok.1 hh1
    have hc := applyOrders_core hap
    have hap' : applyOrders (worldAfter w e ver) e (vos ++ mos) = .ok w1 := hap
    obtain ⟨rfl, _⟩ := subDaos_ok.1 hu
    obtain ⟨_, _, rfl, _⟩ := hook_ok.1 hh2
    have hm : ({ w1.core with subDaos := DaoCore.addSubDaos w1.core.subDaos p.subDaos } : DaoCore.State).modules.get e.migrator = some (asModule w e true) := by
      show w1.core.modules.get _ = _
      rw [hc]; exact coreAfter_migrator w e
    obtain ⟨h1, rfl, _⟩ := (disable_ok hm rfl).1 hd
    rw [stateV2_core] at haft
    subst heq
    have hact : w1.core.active = w.keys.length + 1 := by rw [hc]; rfl
    refine ⟨hv, hb, ?_, v, vos, mos, after, w1, hp, hbef, hap', haft, ?_, ?_⟩
    · rcases hopen with ho | ho | ho
      · exact .inl (by rw [← ho]; exact (paused_after rfl _).symm)
      · exact .inr (.inl ho)
      · exact .inr (.inr ho)
    · have : 1 < w1.core.active := h1
      omega
    · rw [hc]; rfl
  · rintro ⟨hv, hb, hopen, v, vos, mos, before, w1, hp, hbef, hap, haft, hk, rfl⟩
    have hc := applyOrders_core hap
    refine ⟨worldAfter w e ver, ⟨hv, hb, rfl⟩, ?_⟩
    simp only [runMigrator, bind_ok, require_ok, decide_eq_true_eq, Except.ok.injEq]
    refine ⟨(v, vos, mos), hp, ?_⟩
    simp only [bind_ok, require_ok, decide_eq_true_eq, Except.ok.injEq]
    have hopen' : DaoCore.isPaused (coreAfter w e) e.core.block = false ∨ e.migrator = (coreAfter w e).me ∨ e.migrator = (coreAfter w e).admin := by
      rcases hopen with ho | ho | ho
      · exact .inl (by rw [← ho]; exact paused_after rfl _)
      · exact .inr (.inl ho)
      · exact .inr (.inr ho)
    refine ⟨before, hbef, (coreAfter w e, []), hook_ok.2 ⟨hopen', ⟨_, coreAfter_migrator w e, rfl⟩, rfl, rfl⟩, w1, hap,
      ({ coreAfter w e with subDaos := DaoCore.addSubDaos (coreAfter w e).subDaos p.subDaos }, []), ?_, before, ?_, (), rfl,
      ({ coreAfter w e with subDaos := DaoCore.addSubDaos (coreAfter w e).subDaos p.subDaos }, []), ?_, (coreLast w e p, []), ?_, rfl⟩
    · rw [hc]; exact subDaos_ok.2 ⟨rfl, rfl⟩
    · rw [stateV2_core]; exact haft
    · refine hook_ok.2 ⟨?_, ⟨_, coreAfter_migrator w e, rfl⟩, rfl, rfl⟩
      rcases hopen' with ho | ho
      · exact .inl (by rw [← ho]; exact isPaused_same rfl _)
      · exact .inr ho
    · refine (disable_ok (s := { coreAfter w e with subDaos := DaoCore.addSubDaos (coreAfter w e).subDaos p.subDaos }) (m := asModule w e true) (coreAfter_migrator w e) rfl).2 ⟨?_, rfl, rfl⟩
      show 1 < w.keys.length + 1
      omega

theorem keys_after {w : World} {e : Env} (hn : New w e) :
    (coreAfter w e).modules.map Prod.fst = w.keys ++ [e.migrator] := by
  have h : ∀ (m : AMap Addr DaoCore.Module) (x : DaoCore.Module), e.migrator ∉ m.map Prod.fst →
      (m.set e.migrator x).map Prod.fst = m.map Prod.fst ++ [e.migrator] := by
    intro m x
    induction m with
    | nil => intro _; rfl
    | cons y m ih =>
      intro hm
      simp only [List.map_cons, List.mem_cons, not_or] at hm
      simp only [AMap.set, if_neg (Ne.symm hm.1), List.map_cons, ih hm.2, List.cons_append]
  show ((DaoCore.migrateModules 0 w.keys).set e.migrator _).map Prod.fst = _
  rw [h _ _ (by rw [migrateModules_keys]; exact hn.notKey), migrateModules_keys]

theorem modules_seen {w : World} {e : Env} {ver : Nat} (hn : New w e) :
    ((worldAfter w e ver).view.modules.filter fun a => decide (a ≠ e.migrator)).Perm w.keys ∧
      (worldAfter w e ver).view.modules.length = w.keys.length + 1 := by
  have h := view_modules (worldAfter w e ver)
  rw [show (worldAfter w e ver).core.modules.map Prod.fst = w.keys ++ [e.migrator] from keys_after hn] at h
  refine ⟨(h.filter _).trans ?_, by rw [h.length_eq]; simp⟩
  rw [List.filter_append]
  have h1 : (w.keys.filter fun a => decide (a ≠ e.migrator)) = w.keys :=
    List.filter_eq_self.2 fun a ha => by simpa using fun he : a = e.migrator => hn.notKey (he ▸ ha)
  rw [h1]; simp

/-- The parameters name exactly the modules. -/
theorem named_exactly {l : List Addr} {keys : List Addr} (hk : keys.Nodup) (hsub : ∀ a ∈ keys, a ∈ l)
    (hlen : l.length = keys.length) (a : Addr) : a ∈ l ↔ a ∈ keys := by
  have hp : keys.Perm l := (List.subperm_of_subset hk hsub).perm_of_length_le (by omega)
  exact hp.mem_iff.symm

theorem voting_code {w : World} {e : Env} {ver : Nat} {p : Params} {v : Addr} {vos : List Order}
    (h : votingOrders p (worldAfter w e ver).view = .ok (v, vos)) :
    w.core.voting = some v ∧
      ((w.code.get v = some p.v1.cw4 ∧ vos = [⟨v, p.v2.cw4, .cw4⟩]) ∨
        (p.v1.cw4 ≠ p.v1.cw20Voting ∧ w.code.get v = some p.v1.cw20Voting ∧ p.confirm = some true ∧ ∃ s, w.staking = some s ∧
          w.code.get s = some p.v1.stake ∧ vos = [⟨v, p.v2.cw20Voting, .cw20Voting⟩, ⟨s, p.v2.stake, .cw20Stake⟩])) :=
  votingOrders_ok.1 h

/-- The orders are for different contracts. -/
theorem orders_distinct {w : World} {e : Env} {ver : Nat} {p : Params} {v : Addr} {vos mos : List Order}
    (hd : Different p.v1) (hn : New w e) (ho : OldDao w)
    (h : plan w.core.me e.migrator w.core.me p (worldAfter w e ver).view = .ok (v, vos, mos)) :
    ((vos ++ mos).map (·.contract)).Nodup := by
  obtain ⟨_, _, hv, _, _, hm, _⟩ := plan_ok.1 h
  obtain ⟨d1, d2, d3, d4, d5, d6⟩ := hd
  have hkeys : mos.map (·.contract) = _ := orders_contracts hm
  have hnodup : (mos.map (·.contract)).Nodup := by
    rw [hkeys]; exact (modules_seen hn).1.nodup_iff.2 ho.keys
  have hcode : ∀ a ∈ mos.map (·.contract), w.code.get a = some p.v1.single := by
    intro a ha
    obtain ⟨o, ho', rfl⟩ := List.mem_map.1 ha
    obtain ⟨a', _, h'⟩ := orders_mem hm ho'
    obtain ⟨x, _, hc, rfl⟩ := moduleOrder_ok.1 h'
    exact hc
  have hnot : ∀ a c, w.code.get a = some c → c ≠ p.v1.single → a ∉ mos.map (·.contract) := by
    intro a c hc hne ha
    rw [hcode a ha] at hc
    injection hc with hc
    exact hne hc.symm
  rcases (voting_code hv).2 with ⟨h4, rfl⟩ | ⟨_, h20, _, s, _, hs, rfl⟩
  · simp only [List.cons_append, List.nil_append, List.map_cons, List.nodup_cons]
    exact ⟨hnot _ _ h4 (Ne.symm d1), hnodup⟩
  · simp only [List.cons_append, List.nil_append, List.map_cons, List.nodup_cons, List.mem_cons, not_or]
    refine ⟨⟨fun he => ?_, hnot _ _ h20 (Ne.symm d3)⟩, hnot _ _ hs (Ne.symm d2), hnodup⟩
    rw [he, hs] at h20
    injection h20 with h20
    exact d6 h20

/-- A module's storage after the upgrade. -/
theorem module_kept {ver : Nat} {st : Storage} {x : ProposalParams} {r : Storage × Single.Out} {e : Env} {a : Addr}
    (h : SingleUpgrade.migrate ver st (.fromV1 x.close x.info x.veto) = .ok r) (hw : st.v1Proposals.WF) :
    ∃ s, (preReply r.1 e a x).view = some s ∧ ModuleKept st x (e.preAddr a) s := by
  obtain ⟨st', out⟩ := r
  obtain ⟨s, c, hv, hc, hsc, h1, h2, h3, h4, h5, h6, h7, h8, h9, _⟩ := C82_kept h hw
  cases hi : x.info with
  | anyoneMayPropose =>
    refine ⟨s, by simp only [preReply, hi]; exact hv, h3, h4, h6, h5, ⟨h7, h8⟩, ⟨c, hc, hsc⟩, ⟨h1, h2⟩, ?_⟩
    rw [h9, hi]; rfl
  | moduleMayPropose =>
    refine ⟨{ s with policy := .module (e.preAddr a) }, ?_, h3, h4, h6, h5, ⟨h7, h8⟩, ⟨c, hc, hsc⟩, ⟨h1, h2⟩, ?_⟩
    · simp only [preReply, hi]
      obtain ⟨c', _, _, rfl, _⟩ := migrate_fromV1 h
      simp only [Storage.view] at hv ⊢
      injection hv with hv
      subst hv
      rfl
    · rw [if_pos hi]

/-- **C83.** An upgrade of a DAO from version 1 that goes through upgrades all of it: every proposal module is named in
the parameters and nothing else is; each runs the new code, keeps its proposals, votes, hooks and settings, and has the
new settings asked for; the voting module and its staking contract run the new code; no other contract is touched.
The DAO has the same proposal modules as before, all enabled, with the right counts, and the migrator has no power over
it any more. Its SubDAOs are those named, and nothing else of it has changed. -/
theorem C83_complete {w w' : World} {e : Env} {ver : Nat} {p : Params} (h : upgrade w e ver p = .ok w')
    (hd : Different p.v1) (hn : New w e) (ho : OldDao w) : Upgraded w e p w' := by
  obtain ⟨_, _, _, v, vos, mos, before, w1, hp, _, hap, _, hk1, rfl⟩ := (upgrade_ok ho.few).1 h
  have hnd := orders_distinct hd hn ho hp
  have D := applyOrders_did hap hnd
  obtain ⟨_, hpn, hv, _, hlen, hm, _⟩ := plan_ok.1 hp
  obtain ⟨hperm, hlen'⟩ := modules_seen (ver := ver) hn
  have hkeys : ∀ a, a ∈ mos.map (·.contract) ↔ a ∈ w.keys := by
    intro a; rw [orders_contracts hm]; exact hperm.mem_iff
  have hmod : ∀ a ∈ w.keys, ∃ o ∈ mos, ∃ x, (a, x) ∈ p.proposals ∧ w.code.get a = some p.v1.single ∧
      o = ⟨a, p.v2.single, .single x⟩ := by
    intro a ha
    obtain ⟨o, ho', h'⟩ := orders_of hm (hperm.mem_iff.2 ha)
    obtain ⟨x, hx, hc, rfl⟩ := moduleOrder_ok.1 h'
    obtain ⟨hx1, hx2⟩ := find_param hx
    exact ⟨_, ho', x.2, by rw [← hx2]; exact hx1, hc, rfl⟩
  have hkind : ∀ o ∈ mos, ∃ x, o.kind = .single x := by
    intro o ho'
    obtain ⟨a, _, h'⟩ := orders_mem hm ho'
    obtain ⟨x, _, _, rfl⟩ := moduleOrder_ok.1 h'
    exact ⟨_, rfl⟩
  have hvk : ∀ o ∈ vos, ∀ x, o.kind ≠ .single x := by
    rcases (voting_code hv).2 with ⟨_, rfl⟩ | ⟨_, _, _, s, _, _, rfl⟩ <;> simp
  have hmm := DaoCore.migrateModules_get ho.keys 0
  have hget : ∀ a, a ≠ e.migrator → (coreLast w e p).modules.get a = (DaoCore.migrateModules 0 w.keys).get a := by
    intro a ha
    show AMap.get ((AMap.set _ _ _).set _ _) a = _
    rw [AMap.get_set_ne _ _ (Ne.symm ha), AMap.get_set_ne _ _ (Ne.symm ha)]
  have hgetm : (coreLast w e p).modules.get e.migrator = some (asModule w e false) := AMap.get_set_self _ _ _
  have hsome : ∀ a, ((DaoCore.migrateModules 0 w.keys).get a).isSome = true ↔ a ∈ w.keys := by
    intro a; rw [← AMap.mem_keys_iff, migrateModules_keys]
  refine ⟨?_, ?_, ?_, ?_, ?_, ?_, ⟨rfl, rfl⟩, ?_, rfl⟩
  · refine named_exactly ho.keys ?_ (by rw [List.length_map]; omega)
    intro a ha
    obtain ⟨_, _, x, hx, _⟩ := hmod a ha
    exact List.mem_map_of_mem (f := Prod.fst) hx
  · intro a ha
    obtain ⟨o, ho', x, hx, hc, rfl⟩ := hmod a ha
    have hin := List.mem_append_right vos ho'
    obtain ⟨ver', hver, hs⟩ := D.ver _ hin
    obtain ⟨st, r, hst, hr, hst'⟩ := hs x rfl
    obtain ⟨s, hsv, hkept⟩ := module_kept (e := e) (a := a) hr (ho.proposals a st hst).1
    exact ⟨⟨hc, D.code _ hin⟩, x, st, _, s, hx, hst, hst', hsv, hkept⟩
  · obtain ⟨hvot, hvc⟩ := voting_code hv
    refine ⟨v, hvot, ?_, ?_⟩
    · rcases hvc with ⟨h4, rfl⟩ | ⟨_, h20, hcf, s, hs, hsc, rfl⟩
      · exact .inl ⟨h4, D.code ⟨v, p.v2.cw4, .cw4⟩ (by simp)⟩
      · exact .inr ⟨h20, D.code ⟨v, p.v2.cw20Voting, .cw20Voting⟩ (by simp), hcf, s, hs, hsc, D.code ⟨s, p.v2.stake, .cw20Stake⟩ (by simp)⟩
    · intro a hak hav has
      refine D.codes a ?_
      rw [List.map_append, List.mem_append, hkeys]
      rintro (h' | h')
      · rcases hvc with ⟨h4, rfl⟩ | ⟨_, h20, hcf, s, hs, hsc, rfl⟩
        · simp only [List.map_cons, List.map_nil, List.mem_singleton] at h'
          exact hav h'
        · simp only [List.map_cons, List.map_nil, List.mem_cons, List.not_mem_nil, or_false] at h'
          rcases h' with h' | h'
          · exact hav h'
          · exact has ⟨h20, by rw [h']; exact hs⟩
      · exact hak h'
  · intro a ha
    refine D.rest a ?_
    intro o ho' x hx hc
    rcases List.mem_append.1 ho' with ho' | ho'
    · exact hvk o ho' x hx
    · exact ha ((hkeys a).1 (hc ▸ List.mem_map_of_mem ho'))
  · intro a
    by_cases ha : a = e.migrator
    · subst ha
      constructor
      · rintro ⟨m, hm', hen⟩
        rw [hgetm] at hm'; injection hm' with hm'; subst hm'; cases hen
      · exact fun hk => absurd hk hn.notKey
    · unfold Spec.DaoCore.Enabled
      show (∃ m, (coreLast w e p).modules.get a = some m ∧ _) ↔ _
      rw [hget a ha, ← hsome]
      constructor
      · rintro ⟨m, hm', _⟩; rw [hm']; rfl
      · intro hs
        obtain ⟨m, hm'⟩ := Option.isSome_iff_exists.1 hs
        exact ⟨m, hm', migrateModules_enabled hm'⟩
  · intro a
    show ((coreLast w e p).modules.get a).isSome = true ↔ _
    by_cases ha : a = e.migrator
    · subst ha; rw [hgetm]; simp
    · rw [hget a ha, hsome]; simp [ha]
  · intro a
    show (DaoCore.addSubDaos w.core.subDaos p.subDaos).get a = _
    rw [ho.subDaos, (DaoCore.get_addSubDaos [] AMap.WF_nil p.subDaos a).1]
    cases Spec.DaoCore.lastCharter a p.subDaos <;> rfl

end Verif.Migrator
