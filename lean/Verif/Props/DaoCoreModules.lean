import Verif.Proofs.DaoCore
/-!
# C48, C49: the proposal modules of a DAO
-/

namespace Verif.DaoCore
open Spec.DaoCore

/-! ## Prefixes -/

/-- The number that letters, last first, stand for: `A`, `B`, … count 1, 2, … -/
def value : List Nat → Nat
  | [] => 0
  | r :: rest => r + 1 + 26 * value rest

theorem value_prefixLoop : ∀ (fuel d : Nat), 0 < d → d ≤ fuel → value (prefixLoop fuel d) = d := by
  intro fuel
  induction fuel with
  | zero => intro d h1 h2; omega
  | succ fuel ih =>
    intro d h1 h2
    unfold prefixLoop
    simp only
    have hr : (d - 1) % 26 < 26 := Nat.mod_lt _ (by omega)
    have hd := Nat.div_add_mod (d - 1) 26
    have hq : (d - (d - 1) % 26) / 26 = (d - 1) / 26 := by omega
    rw [hq]
    split
    · rename_i h0
      simp only [value]; omega
    · rename_i h0
      have hlt : (d - 1) / 26 ≤ fuel := by omega
      simp only [value]
      rw [ih _ (by omega) hlt]; omega

theorem prefixLoop_letters : ∀ (fuel d : Nat), ∀ r ∈ prefixLoop fuel d, r < 26 := by
  intro fuel
  induction fuel with
  | zero => intro d r hr; cases hr
  | succ fuel ih =>
    intro d r hr
    unfold prefixLoop at hr
    simp only at hr
    rcases List.mem_cons.1 hr with rfl | hr
    · exact Nat.mod_lt _ (by omega)
    · split at hr
      · cases hr
      · exact ih _ r hr

/-- C49: different indexes give different prefixes, made of the letters A to Z. -/
theorem C49_injective :
    (∀ i j, derivePrefix i = derivePrefix j → i = j) ∧
    (∀ i, derivePrefix i ≠ [] ∧ ∀ r ∈ derivePrefix i, r < 26) := by
  have hv : ∀ i, value (derivePrefix i).reverse = i + 1 := by
    intro i
    unfold derivePrefix
    rw [List.reverse_reverse]
    exact value_prefixLoop _ _ (by omega) (by omega)
  refine ⟨?_, ?_⟩
  · intro i j h
    have h1 := hv i
    rw [h, hv j] at h1
    omega
  · intro i
    refine ⟨?_, ?_⟩
    · intro h
      have h1 := hv i
      rw [h] at h1
      simp [value] at h1
    · intro r hr
      unfold derivePrefix at hr
      rw [List.mem_reverse] at hr
      exact prefixLoop_letters _ _ r hr

/-- The prefixes of the repository's own test. -/
theorem C49_example :
    derivePrefix 0 = [0] ∧ derivePrefix 1 = [1] ∧ derivePrefix 26 = [0, 0] ∧ derivePrefix 27 = [0, 1] ∧
    derivePrefix (26 * 26) = [25, 0] ∧ derivePrefix (26 * 26 + 25) = [25, 25] ∧
    derivePrefix (26 * 26 + 26) = [0, 0, 0] ∧ derivePrefix (26 * 26 * 26) = [24, 25, 0] := by
  decide +kernel

/-! ## The invariant -/

/-- 1 for an enabled module. -/
def isOn (_ : Addr) (m : Module) : Nat := if m.enabled then 1 else 0

theorem sum_isOn (m : AMap Addr Module) : AMap.sum isOn m = (m.filter (fun p => p.2.enabled)).length := by
  induction m with
  | nil => rfl
  | cons p m ih =>
    obtain ⟨a, md⟩ := p
    cases h : md.enabled <;> simp [AMap.sum, isOn, h, ih, List.filter_cons] <;> omega

theorem length_set {V : Type} (m : AMap Addr V) (k : Addr) (v : V) :
    (m.set k v).length = if (m.get k).isSome then m.length else m.length + 1 := by
  induction m with
  | nil => rfl
  | cons p m ih =>
    obtain ⟨a, x⟩ := p
    by_cases h : a = k
    · subst h; simp [AMap.set, AMap.get]
    · simp [AMap.set, AMap.get, h, ih]; split <;> rfl

theorem disableAll_ok {m ms : AMap Addr Module} {l : List Addr} (hm : AMap.WF m) (h : disableAll m l = .ok ms) :
    AMap.WF ms ∧ ms.length = m.length ∧ AMap.sum isOn ms + l.length = AMap.sum isOn m ∧ l.Nodup ∧
    (∀ a, ms.get a = (m.get a).map (fun p => if a ∈ l then { p with enabled := false } else p)) ∧
    (∀ a ∈ l, ∃ p, m.get a = some p ∧ p.enabled = true) := by
  induction l generalizing m with
  | nil =>
    simp only [disableAll, Except.ok.injEq] at h
    subst h
    refine ⟨hm, rfl, rfl, List.nodup_nil, ?_, ?_⟩
    · intro a; cases m.get a <;> simp
    · intro a ha; cases ha
  | cons a l ih =>
    simp only [disableAll, bind_ok, orErr_ok, require_ok] at h
    obtain ⟨p, hp, _, hen, h⟩ := h
    obtain ⟨h1, h2, h3, h4, h5, h6⟩ := ih (AMap.WF_set hm _ _) h
    have hnot : a ∉ l := by
      intro ha
      obtain ⟨q, hq, hqe⟩ := h6 a ha
      rw [AMap.get_set_self] at hq
      simp only [Option.some.injEq] at hq
      subst hq; simp at hqe
    refine ⟨h1, ?_, ?_, List.nodup_cons.2 ⟨hnot, h4⟩, ?_, ?_⟩
    · rw [h2, length_set, hp]; rfl
    · have := AMap.sum_set isOn m a { p with enabled := false }
      have hat : AMap.at? isOn m a = 1 := by simp [AMap.at?, hp, isOn, hen]
      have hnew : isOn a { p with enabled := false } = 0 := by simp [isOn]
      rw [hat, hnew] at this
      simp only [List.length_cons]; omega
    · intro b
      rw [h5 b]
      by_cases hb : a = b
      · subst hb
        rw [AMap.get_set_self, hp]; simp [hnot]
      · have hb' : b ≠ a := fun e => hb e.symm
        rw [AMap.get_set_ne _ _ hb]
        cases m.get b <;> simp [hb']
    · intro b hb
      rcases List.mem_cons.1 hb with rfl | hb
      · exact ⟨p, hp, hen⟩
      · obtain ⟨q, hq, hqe⟩ := h6 b hb
        by_cases hab : a = b
        · subst hab; exact absurd hb hnot
        · rw [AMap.get_set_ne _ _ hab] at hq
          exact ⟨q, hq, hqe⟩

/-- What always holds of the proposal modules. -/
structure Inv (w : World) : Prop where
  wf : AMap.WF w.core.modules
  active : w.core.active = AMap.sum isOn w.core.modules
  total : w.core.total = w.core.modules.length
  bound : w.core.total < U32
  addr : ∀ a m, w.core.modules.get a = some m → m.address = a
  notMe : w.core.modules.get w.core.me = none
  index : ∀ a m, w.core.modules.get a = some m → ∃ i, i < w.core.total ∧ m.prefix_ = derivePrefix i
  unique : ∀ a m a' m', w.core.modules.get a = some m → w.core.modules.get a' = some m' → m.prefix_ = m'.prefix_ → a = a'
  some : 0 < AMap.sum isOn w.core.modules ∨ ∃ i, Sub.create .proposalModule i ∈ w.stack

theorem sum_isOn_le (m : AMap Addr Module) : AMap.sum isOn m ≤ m.length := by
  rw [sum_isOn]; exact List.length_filter_le _ _

theorem migrateModules_get {keys : List Addr} (hk : keys.Nodup) (idx : Nat) :
    AMap.WF (migrateModules idx keys) ∧ (migrateModules idx keys).length = keys.length ∧
    AMap.sum isOn (migrateModules idx keys) = keys.length ∧
    (∀ a, a ∉ keys → (migrateModules idx keys).get a = none) ∧
    (∀ a m, (migrateModules idx keys).get a = some m → m.address = a ∧ m.enabled = true ∧
      ∃ j, idx ≤ j ∧ j < idx + keys.length ∧ m.prefix_ = derivePrefix j) ∧
    (∀ a m a' m', (migrateModules idx keys).get a = some m → (migrateModules idx keys).get a' = some m' →
      m.prefix_ = m'.prefix_ → a = a') := by
  induction keys generalizing idx with
  | nil => refine ⟨AMap.WF_nil, rfl, rfl, ?_, ?_, ?_⟩ <;> intros <;> simp_all [migrateModules, AMap.get]
  | cons k keys ih =>
    rw [List.nodup_cons] at hk
    obtain ⟨h1, h2, h3, h4, h5, h6⟩ := ih hk.2 (idx + 1)
    have hget : ∀ a, (migrateModules idx (k :: keys)).get a =
        if k = a then some ⟨k, derivePrefix idx, true⟩ else (migrateModules (idx + 1) keys).get a := by
      intro a; simp [migrateModules, AMap.get]
    refine ⟨?_, ?_, ?_, ?_, ?_, ?_⟩
    · unfold AMap.WF at h1 ⊢
      simp only [migrateModules, List.map_cons, List.nodup_cons]
      refine ⟨?_, h1⟩
      rw [AMap.mem_keys_iff, h4 k hk.1]; simp
    · simp [migrateModules, h2]
    · simp only [migrateModules, AMap.sum, isOn, if_true, List.length_cons] at h3 ⊢
      omega
    · intro a ha
      rw [List.mem_cons, not_or] at ha
      rw [hget, if_neg (fun e => ha.1 e.symm)]
      exact h4 a ha.2
    · intro a m hm
      rw [hget] at hm
      split at hm
      · rename_i hka
        simp only [Option.some.injEq] at hm
        subst hm hka
        exact ⟨rfl, rfl, idx, Nat.le_refl _, by simp, rfl⟩
      · obtain ⟨q1, q2, j, q3, q4, q5⟩ := h5 a m hm
        exact ⟨q1, q2, j, by omega, by simp only [List.length_cons]; omega, q5⟩
    · intro a m a' m' hm hm' hp
      rw [hget] at hm hm'
      split at hm <;> split at hm'
      · rename_i e1 e2; rw [← e1, ← e2]
      · rename_i e1 e2
        simp only [Option.some.injEq] at hm
        subst hm
        obtain ⟨_, _, j, q3, q4, q5⟩ := h5 a' m' hm'
        rw [q5] at hp
        have := C49_injective.1 _ _ hp
        omega
      · rename_i e1 e2
        simp only [Option.some.injEq] at hm'
        subst hm'
        obtain ⟨_, _, j, q3, q4, q5⟩ := h5 a m hm
        rw [q5] at hp
        have := C49_injective.1 _ _ hp
        omega
      · exact h6 a m a' m' hm hm' hp

theorem inv_init {b : Block} {w : World} (h : Init b w) : Inv w := by
  cases h with
  | new h =>
    rename_i me config admin voting props items s out
    simp only [instantiate, bind_ok, require_ok, Except.ok.injEq, Prod.mk.injEq, Bool.not_eq_true'] at h
    obtain ⟨_, h1, _, _, rfl, rfl⟩ := h
    refine ⟨AMap.WF_nil, rfl, rfl, ?_, ?_, rfl, ?_, ?_, ?_⟩
    · show 0 < U32
      unfold U32; decide
    · intro a m hm; cases hm
    · intro a m hm; cases hm
    · intro a m a' m' hm; cases hm
    · right
      cases props with
      | nil => simp at h1
      | cons i props => exact ⟨i, by simp⟩
  | migrated hk h0 hl hm hi h20 h721 hs =>
    rename_i old keys params
    obtain ⟨q1, q2, q3, q4, q5, q6⟩ := migrateModules_get hk 0
    have hmod : keys.length % U32 = keys.length := Nat.mod_eq_of_lt hl
    refine ⟨q1, ?_, ?_, ?_, ?_, ?_, ?_, ?_, ?_⟩
    · show keys.length % U32 = _
      rw [hmod]; exact q3.symm
    · show keys.length % U32 = _
      rw [hmod]; exact q2.symm
    · show keys.length % U32 < _
      rw [hmod]; exact hl
    · intro a m h; exact (q5 a m h).1
    · exact q4 _ hm
    · intro a m h
      obtain ⟨_, _, j, _, h4, h5⟩ := q5 a m h
      refine ⟨j, ?_, h5⟩
      show j < keys.length % U32
      rw [hmod]; omega
    · exact q6
    · left
      show 0 < AMap.sum isOn (migrateModules 0 keys)
      rw [q3]
      exact List.length_pos_iff.2 h0

theorem inv_step {ev : Event} (h : Does ev) (hi : Inv ev.pre) : Inv ev.post := by
  obtain ⟨⟨pre, st0⟩, env, call, out, ⟨post, st⟩⟩ := ev
  cases h with
  | msg hh hc hp he hs hs' hd =>
    rename_i sender m rest
    simp only at he hs hs' hd hi ⊢
    have stay : ∀ i, Sub.create .proposalModule i ∈ st0 → Sub.create .proposalModule i ∈ st := by
      intro i hmem
      rw [hs] at hmem
      rcases List.mem_append.1 hmem with h1 | h1
      · rcases hd with ⟨h2, _⟩ | ⟨h2, _⟩ <;> rw [h2] at h1
        · cases h1
        · simp at h1
      · rw [hs']; exact List.mem_append_right _ h1
    have hsome : 0 < AMap.sum isOn pre.modules ∨ ∃ i, Sub.create .proposalModule i ∈ st := by
      rcases hi.some with h1 | ⟨i, h1⟩
      · exact .inl h1
      · exact .inr ⟨i, stay i h1⟩
    cases he
    case modules a d ms h1 h2 h3 h4 =>
      obtain ⟨q1, q2, q3, q4, q5, q6⟩ := disableAll_ok (m := pre.modules) hi.wf h2
      have hact := hi.active
      have hle : d.length ≤ pre.active := by simp only at hact; omega
      have hmod : d.length % U32 = d.length := by
        refine Nat.mod_eq_of_lt ?_
        have h1 := hi.bound
        have h2 := hi.total
        have h3 := sum_isOn_le pre.modules
        simp only at h1 h2 hact
        omega
      have back : ∀ b m, ms.get b = some m → ∃ p, pre.modules.get b = some p ∧ m.address = p.address ∧
          m.prefix_ = p.prefix_ := by
        intro b m hm
        rw [q5 b] at hm
        rcases hb : pre.modules.get b with _ | p
        · rw [hb] at hm; cases hm
        · rw [hb] at hm
          simp only [Option.map_some, Option.some.injEq] at hm
          refine ⟨p, rfl, ?_, ?_⟩ <;> rw [← hm] <;> split <;> rfl
      refine ⟨q1, ?_, ?_, hi.bound, ?_, ?_, ?_, ?_, ?_⟩
      · show pre.active - d.length % U32 = AMap.sum isOn ms
        rw [hmod]; simp only at hact; omega
      · show pre.total = ms.length
        rw [q2]; exact hi.total
      · intro b m hm
        obtain ⟨p, p1, p2, _⟩ := back b m hm
        rw [p2]; exact hi.addr b p p1
      · show ms.get pre.me = none
        rw [q5, hi.notMe]; rfl
      · intro b m hm
        obtain ⟨p, p1, _, p2⟩ := back b m hm
        rw [p2]; exact hi.index b p p1
      · intro b m b' m' hm hm' hpp
        obtain ⟨p, p1, _, p2⟩ := back b m hm
        obtain ⟨p', p1', _, p2'⟩ := back b' m' hm'
        exact hi.unique b p b' p' p1 p1' (by rw [← p2, ← p2', hpp])
      · show 0 < AMap.sum isOn ms ∨ _
        by_cases hlt : pre.active ≤ d.length % U32
        · have hne := h3 hlt
          right
          rcases a with _ | ⟨i, a⟩
          · exact absurd rfl hne
          · exact ⟨i, by rw [hs']; simp⟩
        · left
          rw [hmod] at hlt
          simp only at hact; omega
    all_goals exact ⟨hi.wf, hi.active, hi.total, hi.bound, hi.addr, hi.notMe, hi.index, hi.unique, hsome⟩
  | rep hh hc hd hme hf hr hs hs' =>
    rename_i role c i rest
    simp only at hr hs hs' hi hf hme ⊢
    have hsome : role ≠ .proposalModule → 0 < AMap.sum isOn pre.modules ∨ ∃ i, Sub.create .proposalModule i ∈ st := by
      intro hne
      rcases hi.some with h1 | ⟨j, h1⟩
      · exact .inl h1
      · right
        refine ⟨j, ?_⟩
        simp only at h1
        rw [hs] at h1
        rcases List.mem_cons.1 h1 with h2 | h2
        · injection h2 with h2; exact absurd h2.symm hne
        · rw [hs']; exact List.mem_append_right _ h2
    cases hr
    case proposal ha ht =>
      have hget : ∀ b, (pre.modules.set c.address ⟨c.address, derivePrefix pre.total, true⟩).get b =
          if c.address = b then some ⟨c.address, derivePrefix pre.total, true⟩ else pre.modules.get b := by
        intro b; rw [AMap.get_set]
      have hsum := AMap.sum_set isOn pre.modules c.address ⟨c.address, derivePrefix pre.total, true⟩
      have hat : AMap.at? isOn pre.modules c.address = 0 := by simp [AMap.at?, hf]
      have hone : isOn c.address ⟨c.address, derivePrefix pre.total, true⟩ = 1 := by simp [isOn]
      rw [hat, hone] at hsum
      refine ⟨AMap.WF_set hi.wf _ _, ?_, ?_, ht, ?_, ?_, ?_, ?_, ?_⟩
      · have := hi.active
        simp only at this ⊢
        omega
      · have := hi.total
        simp only at this ⊢
        rw [length_set, hf, this]; rfl
      · intro b m hm
        simp only [hget] at hm
        split at hm
        · rename_i e
          simp only [Option.some.injEq] at hm
          rw [← hm]; exact e
        · exact hi.addr b m hm
      · simp only [hget, if_neg hme]
        exact hi.notMe
      · intro b m hm
        simp only [hget] at hm ⊢
        split at hm
        · simp only [Option.some.injEq] at hm
          rw [← hm]
          exact ⟨pre.total, Nat.lt_succ_self _, rfl⟩
        · obtain ⟨j, h1, h2⟩ := hi.index b m hm
          exact ⟨j, Nat.lt_succ_of_lt h1, h2⟩
      · intro b m b' m' hm hm' hpp
        simp only [hget] at hm hm'
        split at hm <;> split at hm'
        · rename_i e1 e2; rw [← e1, ← e2]
        · simp only [Option.some.injEq] at hm
          obtain ⟨j, h1, h2⟩ := hi.index b' m' hm'
          rw [← hm, h2] at hpp
          have := C49_injective.1 _ _ hpp
          simp only at h1
          omega
        · simp only [Option.some.injEq] at hm'
          obtain ⟨j, h1, h2⟩ := hi.index b m hm
          rw [← hm', h2] at hpp
          have := C49_injective.1 _ _ hpp
          simp only at h1
          omega
        · exact hi.unique b m b' m' hm hm' hpp
      · left
        simp only
        omega
    all_goals exact ⟨hi.wf, hi.active, hi.total, hi.bound, hi.addr, hi.notMe, hi.index, hi.unique, hsome (by decide)⟩
  | other hh hc hd hs hs' he ho =>
    simp only at he hs hs' hi ⊢
    subst he hs'
    refine ⟨hi.wf, hi.active, hi.total, hi.bound, hi.addr, hi.notMe, hi.index, hi.unique, ?_⟩
    rcases hi.some with h1 | ⟨j, h1⟩
    · exact .inl h1
    · right
      simp only at h1
      rw [hs] at h1
      rcases List.mem_cons.1 h1 with h2 | h2
      · cases h2
      · exact ⟨j, h2⟩

theorem inv_run {w0 w : World} {b0 b : Block} {log : List Event} (h0 : Init b0 w0) (h : sys.Run w0 b0 log w b) :
    Inv w := by
  induction h with
  | refl => exact inv_init h0
  | step hr hb hs ih => exact inv_step (step_does hs) ih

/-- C48: whenever no message is waiting, that is between transactions, at least one proposal module is enabled. -/
theorem C48_some {w : World} {b : Block} {log : List Event} (h : sys.Reach w b log) (hs : w.stack = []) :
    ∃ a, Enabled w.core a := by
  obtain ⟨b0, w0, h0, hr⟩ := h
  have hi := inv_run h0 hr
  rcases hi.some with h1 | ⟨i, h1⟩
  · rw [sum_isOn] at h1
    obtain ⟨p, hp⟩ := List.exists_mem_of_length_pos h1
    have := List.mem_filter.1 hp
    exact ⟨p.1, p.2, AMap.get_of_mem hi.wf this.1, this.2⟩
  · rw [hs] at h1; cases h1

/-- C48: at all times the reported counts are the number of enabled modules and the number of modules there are; the
counts never overflow. -/
theorem C48_counts {w : World} {b : Block} {log : List Event} (h : sys.Reach w b log) :
    w.core.active = enabledCount w.core ∧ w.core.total = w.core.modules.length ∧
    (w.core.modules.map Prod.fst).Nodup ∧ w.core.total < 4294967296 := by
  obtain ⟨b0, w0, h0, hr⟩ := h
  have hi := inv_run h0 hr
  refine ⟨?_, hi.total, hi.wf, ?_⟩
  · rw [hi.active, sum_isOn]; rfl
  · have := hi.bound
    unfold U32 at this
    exact this

/-- C48: modules are never removed or replaced, and once disabled stay disabled; a module added is enabled. -/
theorem C48_kept {w0 w : World} {b0 b : Block} {log : List Event} (h0 : Init b0 w0) (h : sys.Run w0 b0 log w b)
    {a : Addr} {m : Module} (hm : w0.core.modules.get a = some m) :
    ∃ m', w.core.modules.get a = some m' ∧ m'.prefix_ = m.prefix_ ∧ m'.address = a ∧
      (m.enabled = false → m'.enabled = false) := by
  induction h with
  | refl => exact ⟨m, hm, rfl, (inv_init h0).addr a m hm, id⟩
  | step hr hb hs ih =>
    obtain ⟨m1, h1, h2, h3, h4⟩ := ih
    rename_i w1 w2 b1 log env call out
    have hi := inv_run h0 hr
    have hdoes := step_does hs
    obtain ⟨post, st⟩ := w2
    cases hdoes with
    | msg hh hc hp he hs hs' hd =>
      simp only at he
      cases he
      case modules ad d ms q1 q2 q3 q4 _ =>
        obtain ⟨_, _, _, _, r5, _⟩ := disableAll_ok hi.wf q2
        refine ⟨if a ∈ d then { m1 with enabled := false } else m1, ?_, ?_, ?_, ?_⟩
        · show ms.get a = _
          rw [r5, h1]; rfl
        · split <;> exact h2
        · split <;> exact h3
        · intro h; split
          · rfl
          · exact h4 h
      all_goals exact ⟨m1, h1, h2, h3, h4⟩
    | rep hh hc hd hme hf hr hs hs' =>
      simp only at hr hf
      cases hr
      case proposal ha ht =>
        refine ⟨m1, ?_, h2, h3, h4⟩
        rename_i c i rest
        simp only
        rw [AMap.get_set_ne _ _ (by intro e; rw [e, h1] at hf; cases hf)]
        exact h1
      all_goals exact ⟨m1, h1, h2, h3, h4⟩
    | other hh hc hd hs hs' he ho =>
      simp only at he
      subst he
      exact ⟨m1, h1, h2, h3, h4⟩

/-- C49: in every reachable state different proposal modules, enabled or disabled, have different prefixes. -/
theorem C49_unique {w : World} {b : Block} {log : List Event} (h : sys.Reach w b log) {a a' : Addr} {m m' : Module}
    (hm : w.core.modules.get a = some m) (hm' : w.core.modules.get a' = some m') (hp : m.prefix_ = m'.prefix_) :
    a = a' := by
  obtain ⟨b0, w0, h0, hr⟩ := h
  exact (inv_run h0 hr).unique a m a' m' hm hm' hp

/-- C48: disabling goes through for any modules that are enabled, each named once, as long as one stays or one is
added. -/
theorem C48_can_disable {w : World} {b : Block} {log : List Event} (h : sys.Reach w b log) (e : Env) (add : List Nat)
    (dis : List Addr) (hd : dis.Nodup) (hen : ∀ a ∈ dis, Enabled w.core a)
    (hleft : dis.length < enabledCount w.core ∨ add ≠ []) :
    ∃ s, execute w.core e w.core.me (.updateProposalModules add dis) =
      .ok (s, add.map (Sub.create .proposalModule)) ∧
      ∀ a, Enabled s a ↔ Enabled w.core a ∧ a ∉ dis := by
  obtain ⟨b0, w0, h0, hr⟩ := h
  have hi := inv_run h0 hr
  have hall : ∀ (l : List Addr) (m : AMap Addr Module), l.Nodup →
      (∀ a ∈ l, ∃ p, m.get a = some p ∧ p.enabled = true) → ∃ ms, disableAll m l = .ok ms := by
    intro l
    induction l with
    | nil => intro m _ _; exact ⟨m, rfl⟩
    | cons a l ih =>
      intro m hn hl
      obtain ⟨p, hp, he⟩ := hl a (List.mem_cons_self ..)
      rw [List.nodup_cons] at hn
      obtain ⟨ms, hms⟩ := ih (m.set a { p with enabled := false }) hn.2 (by
        intro b hb
        obtain ⟨q, hq, hqe⟩ := hl b (List.mem_cons_of_mem _ hb)
        refine ⟨q, ?_, hqe⟩
        rw [AMap.get_set_ne _ _ (by intro e; subst e; exact hn.1 hb)]
        exact hq)
      refine ⟨ms, ?_⟩
      simp only [disableAll, hp, orErr, ok_bind, he, require, if_true]
      exact hms
  obtain ⟨ms, hms⟩ := hall dis w.core.modules hd hen
  obtain ⟨q1, q2, q3, q4, q5, q6⟩ := disableAll_ok hi.wf hms
  have hact := hi.active
  have hmod : dis.length % U32 = dis.length := by
    refine Nat.mod_eq_of_lt ?_
    have h1 := hi.bound
    have h2 := hi.total
    have h3 := sum_isOn_le w.core.modules
    omega
  have hcnt : enabledCount w.core = w.core.active := by rw [hact, sum_isOn]; rfl
  refine ⟨{ w.core with modules := ms, active := w.core.active - dis.length % U32 }, ?_, ?_⟩
  · have c1 : (!(decide (w.core.active ≤ dis.length % U32) && add.isEmpty)) = true := by
      rw [hmod]
      rcases hleft with hl | hl
      · have : ¬ w.core.active ≤ dis.length := by omega
        simp [this]
      · cases add with
        | nil => exact absurd rfl hl
        | cons i add => simp
    have c2 : decide (dis.length % U32 ≤ w.core.active) = true := by
      rw [hmod]; simp only [decide_eq_true_eq]; omega
    have c0 : decide (w.core.me = w.core.me) = true := by simp
    simp only [execute, dispatch, updateModules, require, decide_true, c1, c2, Bool.or_true, Bool.true_or, if_true, ok_bind, hms]
  · intro a
    unfold Enabled
    simp only [q5]
    constructor
    · rintro ⟨m, hm, he⟩
      rcases ha : w.core.modules.get a with _ | p
      · rw [ha] at hm; cases hm
      · rw [ha] at hm
        simp only [Option.map_some, Option.some.injEq] at hm
        by_cases hin : a ∈ dis
        · rw [if_pos hin] at hm; rw [← hm] at he; cases he
        · rw [if_neg hin] at hm; exact ⟨⟨p, rfl, by rw [hm]; exact he⟩, hin⟩
    · rintro ⟨⟨p, hp, he⟩, hin⟩
      exact ⟨p, by rw [hp]; simp [hin], he⟩

end Verif.DaoCore
