import Verif.Spec.StakingUpgrade
import Verif.Spec.DaoCore
import Verif.Props.DaoCoreLists
import Verif.Props.DaoCoreModules
/-!
# Upgrades of the core contract (C84)
-/

namespace Verif.StakingUpgrade
open Verif Verif.Spec.StakingUpgrade

theorem saveModules_get {m : AMap Addr DaoCore.Module} {i : Nat} {keys : List Addr} (hk : keys.Nodup) (a : Addr) :
    (saveModules m i keys).get a =
      if a ∈ keys then some ⟨a, DaoCore.derivePrefix (i + keys.idxOf a), true⟩ else m.get a := by
  induction keys generalizing m i with
  | nil => simp [saveModules]
  | cons k keys ih =>
    rw [List.nodup_cons] at hk
    simp only [saveModules, ih hk.2, List.mem_cons]
    by_cases ha : a = k
    · subst ha
      simp [hk.1, AMap.get_set_self]
    · have hne : k ≠ a := fun h => ha h.symm
      simp only [ha, false_or]
      split
      · have : (k :: keys).idxOf a = keys.idxOf a + 1 := by
          rw [List.idxOf_cons, beq_eq_false_iff_ne.2 hne]; rfl
        rw [this, show i + 1 + keys.idxOf a = i + (keys.idxOf a + 1) by omega]
      · rw [AMap.get_set_ne _ _ hne]

theorem saveModules_new {m : AMap Addr DaoCore.Module} {i : Nat} {keys : List Addr} (hk : keys.Nodup)
    (hm : ∀ a ∈ keys, a ∉ m.map Prod.fst) : saveModules m i keys = m ++ DaoCore.migrateModules i keys := by
  induction keys generalizing m i with
  | nil => simp [saveModules, DaoCore.migrateModules]
  | cons k keys ih =>
    rw [List.nodup_cons] at hk
    have hset : ∀ (m : AMap Addr DaoCore.Module) (v : DaoCore.Module), k ∉ m.map Prod.fst →
        m.set k v = m ++ [(k, v)] := by
      intro m v h
      induction m with
      | nil => rfl
      | cons x m ih =>
        obtain ⟨q, w⟩ := x
        simp only [List.map_cons, List.mem_cons, not_or] at h
        simp only [AMap.set, if_neg (Ne.symm h.1), ih h.2, List.cons_append]
    simp only [saveModules, DaoCore.migrateModules]
    rw [ih hk.2, hset _ _ (hm k (List.mem_cons_self ..))]
    · simp
    · intro a ha
      rw [hset _ _ (hm k (List.mem_cons_self ..))]
      simp only [List.map_append, List.map_cons, List.map_nil, List.mem_append, List.mem_singleton, not_or]
      exact ⟨hm a (List.mem_cons_of_mem _ ha), fun h => hk.1 (h ▸ ha)⟩

theorem daoMigrate_ok {d d' : Dao} {e : DaoEnv} {ver : Nat} {uri m : Option Nat} {out : List DaoCore.Sub}
    (h : daoMigrate d e ver uri m = .ok (d', out)) :
    d.version ≠ ver ∧ ∃ c, d.oldConfig = some c ∧ out = DaoCore.migrator m ∧
      d' = { d with version := ver, world := ⟨{ d.world.core with modules := saveModules d.world.core.modules 0 d.keys, active := d.keys.length % DaoCore.U32, total := d.keys.length % DaoCore.U32, config := { c with texts := e.texts c.texts uri } }, DaoCore.migrator m ++ d.world.stack⟩ } := by
  simp only [daoMigrate, bind_ok, require_ok, orErr_ok, decide_eq_true_eq, Except.ok.injEq, Prod.mk.injEq] at h
  obtain ⟨_, h1, c, h2, rfl, rfl⟩ := h
  exact ⟨h1, c, h2, rfl, rfl⟩

/-- C84: an upgrade of the core contract goes through exactly when the versions differ and version 1 left its settings. -/
theorem C84_core_accepted (d : Dao) (e : DaoEnv) (ver : Nat) (uri m : Option Nat) :
    (∃ r, daoMigrate d e ver uri m = .ok r) ↔ d.version ≠ ver ∧ d.oldConfig ≠ none := by
  constructor
  · rintro ⟨⟨d', out⟩, h⟩
    obtain ⟨h1, c, h2, _⟩ := daoMigrate_ok h
    exact ⟨h1, by rw [h2]; simp⟩
  · rintro ⟨h1, h2⟩
    cases hc : d.oldConfig with
    | none => exact absurd hc h2
    | some c =>
      simp only [daoMigrate, hc, orErr, ok_bind]
      rw [show require (decide (d.version ≠ ver)) (.custom 1) = .ok () from by simp [require, h1], ok_bind]
      exact ⟨_, rfl⟩

/-- C84: right after an upgrade to a version the same upgrade is refused. -/
theorem C84_core_not_twice {d d' : Dao} {e e' : DaoEnv} {ver : Nat} {uri m uri' m' : Option Nat}
    {out : List DaoCore.Sub} (h : daoMigrate d e ver uri m = .ok (d', out)) :
    ∀ r, daoMigrate d' e' ver uri' m' ≠ .ok r := by
  obtain ⟨_, c, _, _, rfl⟩ := daoMigrate_ok h
  rintro ⟨d2, out2⟩ hr
  exact (daoMigrate_ok hr).1 rfl

/-- C84: the first upgrade of a DAO keeps everything: exactly the modules of version 1 are there and are enabled; its
settings are those of version 1, with the URI of the message; admin, nomination, pause, voting module, items and token
lists are untouched; and it is a DAO that the properties of the core contract (C48 to C51) are about. -/
theorem C84_core_kept {d d' : Dao} {e : DaoEnv} {ver : Nat} {uri m : Option Nat} {out : List DaoCore.Sub}
    (hold : OldDao d) (h : daoMigrate d e ver uri m = .ok (d', out)) (b : Block) :
    DaoCore.Init b d'.world ∧
    (∀ a, Spec.DaoCore.Enabled d'.world.core a ↔ a ∈ d.keys) ∧
    (∀ a, (d'.world.core.modules.get a).isSome ↔ a ∈ d.keys) ∧
    (∃ c, d.oldConfig = some c ∧ d'.world.core.config = ⟨e.texts c.texts uri, c.autoCw20, c.autoCw721⟩) ∧
    d'.world.core.me = d.world.core.me ∧ d'.world.core.admin = d.world.core.admin ∧
    d'.world.core.nominated = d.world.core.nominated ∧ d'.world.core.paused = d.world.core.paused ∧
    d'.world.core.voting = d.world.core.voting ∧ d'.world.core.items = d.world.core.items ∧
    d'.world.core.cw20s = d.world.core.cw20s ∧ d'.world.core.cw721s = d.world.core.cw721s ∧
    d'.world.core.subDaos = [] ∧ d'.world.stack = out := by
  obtain ⟨_, c, hc, rfl, rfl⟩ := daoMigrate_ok h
  have hget := fun a => saveModules_get (m := d.world.core.modules) (i := 0) hold.nodup a
  have hnone : ∀ a, d.world.core.modules.get a = none := by intro a; rw [hold.none]; rfl
  refine ⟨?_, ?_, ?_, ⟨c, hc, rfl⟩, rfl, rfl, rfl, rfl, rfl, rfl, rfl, rfl, hold.subDaos, ?_⟩
  · have := DaoCore.Init.migrated (b := b) (old := { d.world.core with config := { c with texts := e.texts c.texts uri } })
      (keys := d.keys) (params := m) hold.nodup hold.some hold.few hold.other hold.lists.1 hold.lists.2.1
      hold.lists.2.2 hold.subDaos
    have hmods : saveModules d.world.core.modules 0 d.keys = DaoCore.migrateModules 0 d.keys := by
      rw [hold.none]
      exact saveModules_new hold.nodup (by simp)
    simpa only [DaoCore.migrate, hmods, hold.quiet, List.append_nil] using this
  · intro a
    simp only [Spec.DaoCore.Enabled, hget, hnone]
    by_cases ha : a ∈ d.keys
    · simp [ha]
    · simp [ha]
  · intro a
    simp only [hget, hnone]
    by_cases ha : a ∈ d.keys
    · simp [ha]
    · simp [ha]
  · simp [hold.quiet]

/-- C84, histories in which the DAO is upgraded once: from then on it is at every time in a state that the core contract
of version 2 can be in, so that what is proved of it (C48 to C51) holds. What is missing: histories with more upgrades,
of which it is false (`C84_core_witness`). -/
theorem C84_core_partial {d d1 d' : Dao} {e : DaoEnv} {ver : Nat} {uri m : Option Nat} {out : List DaoCore.Sub}
    {b b' : Block} {log : List (Ev Dao DaoEnv DaoCall (List DaoCore.Sub))} (hold : OldDao d)
    (h1 : daoMigrate d e ver uri m = .ok (d1, out)) (h : daoSys.Run d1 b log d' b')
    (hn : ∀ x ∈ log, ∀ ver uri m, x.call ≠ .fromV1 ver uri m) :
    ∃ log', DaoCore.sys.Reach d'.world b' log' ∧ DaoCore.sys.Run d1.world b log' d'.world b' ∧
      log'.map (fun x => (x.env, DaoCall.run x.call, x.out)) = log.map (fun x => (x.env.core, x.call, x.out)) := by
  have hi := (C84_core_kept hold h1 b).1
  have hrun : ∃ log', DaoCore.sys.Run d1.world b log' d'.world b' ∧
      log'.map (fun x => (x.env, DaoCall.run x.call, x.out)) = log.map (fun x => (x.env.core, x.call, x.out)) := by
    clear h1 hi
    induction h with
    | refl => exact ⟨[], .refl, rfl⟩
    | step hr hb hs ih =>
      rename_i s1 s2 b1 log env call out'
      obtain ⟨l, q1, q2⟩ := ih (fun x hx => hn x (List.mem_cons_of_mem _ hx))
      cases call with
      | fromV1 v u k => exact absurd rfl (hn _ (List.mem_cons_self ..) v u k)
      | run c =>
        simp only [daoSys, daoStep, bind_ok, Except.ok.injEq, Prod.mk.injEq] at hs
        obtain ⟨⟨w2, o⟩, hs, rfl, rfl⟩ := hs
        exact ⟨⟨s1.world, env.core, c, o, w2⟩ :: l, .step q1 hb hs, by simp only [List.map_cons, q2]⟩
  obtain ⟨l, q1, q2⟩ := hrun
  exact ⟨l, ⟨b, d1.world, hi, q1⟩, q1, q2⟩

/-- C84: any later upgrade enables every module of version 1 again, under its first prefix, forgets in the counts every
module added since, and puts back the settings of version 1. -/
theorem C84_core_again {d d' : Dao} {e : DaoEnv} {ver : Nat} {uri m : Option Nat} {out : List DaoCore.Sub}
    (hk : d.keys.Nodup) (h : daoMigrate d e ver uri m = .ok (d', out)) :
    (∀ a ∈ d.keys, d'.world.core.modules.get a = some ⟨a, DaoCore.derivePrefix (d.keys.idxOf a), true⟩) ∧
    (∀ a, a ∉ d.keys → d'.world.core.modules.get a = d.world.core.modules.get a) ∧
    d'.world.core.active = d.keys.length % DaoCore.U32 ∧ d'.world.core.total = d.keys.length % DaoCore.U32 ∧
    (∃ c, d.oldConfig = some c ∧ d'.world.core.config = ⟨e.texts c.texts uri, c.autoCw20, c.autoCw721⟩) := by
  obtain ⟨_, c, hc, rfl, rfl⟩ := daoMigrate_ok h
  have hget := fun a => saveModules_get (m := d.world.core.modules) (i := 0) hk a
  refine ⟨?_, ?_, rfl, rfl, c, hc, rfl⟩
  · intro a ha
    simpa [ha] using hget a
  · intro a ha
    simpa [ha] using hget a

/-! ### Example and witness -/

/-- A DAO of version 1 with the module 20. -/
def dao0 : Dao :=
  { version := 1, keys := [20], oldConfig := some ⟨7, true, false⟩
    world := ⟨{ me := 1, admin := 1, nominated := none, config := ⟨0, false, false⟩, paused := none, voting := some 30
                modules := [], active := 0, total := 0, items := [(5, 6)], cw20s := [], cw721s := [], subDaos := [] }, []⟩ }

theorem dao0_old : OldDao dao0 := by
  refine ⟨rfl, by decide, by decide, by decide +kernel, by decide, rfl, ⟨?_, ?_, ?_⟩, rfl, rfl⟩ <;>
    (unfold AMap.WF; decide)

def daoEnv (h : Nat) : DaoEnv := ⟨DaoCore.env h, fun a _ => a⟩

/-- Upgrade; module 20 makes the DAO add 21; 21 makes it disable 20. -/
def daoLife : List (DaoEnv × DaoCall) :=
  [(daoEnv 1, .fromV1 2 none none),
   (daoEnv 2, .run (.call 20 (.executeProposalHook [.toSelf (.updateProposalModules [0] [])]))),
   (daoEnv 2, .run (.deliver ⟨0, []⟩)), (daoEnv 2, .run (.deliver ⟨21, []⟩)),
   (daoEnv 3, .run (.call 21 (.executeProposalHook [.toSelf (.updateProposalModules [] [20]), .toSelf (.updateConfig ⟨8, false, false⟩)]))),
   (daoEnv 3, .run (.deliver ⟨0, []⟩)), (daoEnv 3, .run (.deliver ⟨0, []⟩))]

/-- The upgraded DAO works: 20 is disabled, 21 alone is enabled. -/
theorem C84_core_example : ∃ d b log, daoSys.Run dao0 ⟨0, 0⟩ log d b ∧ d.world.stack.isEmpty = true ∧
    d.world.core.modules = [(20, ⟨20, [0], false⟩), (21, ⟨21, [1], true⟩)] ∧ d.world.core.active = 1 ∧
    d.world.core.total = 2 ∧ d.world.core.config = ⟨8, false, false⟩ ∧ d.world.core.items = [(5, 6)] := by
  obtain ⟨d, b, log, hr, hp⟩ := Sys.check_run (M := daoSys) (s := dao0) (b := ⟨0, 0⟩) (cs := daoLife)
    (p := fun d _ _ => decide (d.world.stack.isEmpty = true ∧
      d.world.core.modules = [(20, ⟨20, [0], false⟩), (21, ⟨21, [1], true⟩)] ∧ d.world.core.active = 1 ∧
      d.world.core.total = 2 ∧ d.world.core.config = ⟨8, false, false⟩ ∧ d.world.core.items = [(5, 6)]))
    (by decide +kernel)
  exact ⟨d, b, log, hr, of_decide_eq_true hp⟩

/-- C84, the code does not keep this: when the DAO is upgraded with the same message once more, to a later version, the
module 20 that it had disabled is enabled again and the settings it had changed are the old ones. Two modules are enabled
while the count says one, and the next module added (22) has the prefix of 21, so that a proposal id names a proposal of
either. -/
theorem C84_core_witness : ∃ d b log, daoSys.Run dao0 ⟨0, 0⟩ log d b ∧ d.world.stack.isEmpty = true ∧
    d.world.core.modules = [(20, ⟨20, [0], true⟩), (21, ⟨21, [1], true⟩), (22, ⟨22, [1], true⟩)] ∧
    d.world.core.active = 2 ∧ Spec.DaoCore.enabledCount d.world.core = 3 ∧ d.world.core.total = 2 ∧
    d.world.core.config = ⟨7, true, false⟩ := by
  obtain ⟨d, b, log, hr, hp⟩ := Sys.check_run (M := daoSys) (s := dao0) (b := ⟨0, 0⟩)
    (cs := daoLife ++ [(daoEnv 4, .fromV1 3 none none),
      (daoEnv 5, .run (.call 20 (.executeProposalHook [.toSelf (.updateProposalModules [0] [])]))),
      (daoEnv 5, .run (.deliver ⟨0, []⟩)), (daoEnv 5, .run (.deliver ⟨22, []⟩))])
    (p := fun d _ _ => decide (d.world.stack.isEmpty = true ∧
      d.world.core.modules = [(20, ⟨20, [0], true⟩), (21, ⟨21, [1], true⟩), (22, ⟨22, [1], true⟩)] ∧
      d.world.core.active = 2 ∧ Spec.DaoCore.enabledCount d.world.core = 3 ∧ d.world.core.total = 2 ∧
      d.world.core.config = ⟨7, true, false⟩))
    (by decide +kernel)
  exact ⟨d, b, log, hr, of_decide_eq_true hp⟩

end Verif.StakingUpgrade
