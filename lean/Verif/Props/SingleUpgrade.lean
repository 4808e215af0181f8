import Verif.Spec.SingleUpgrade
import Verif.Props.Single
/-!
# Upgrades of the single choice module (C82)
-/

namespace Verif.SingleUpgrade
open Verif Verif.Voting Verif.Spec.SingleUpgrade

/-! ### What is written down in version 1 is read back -/

theorem percentage_back (p : PercentageThreshold) : percentageToV2 (writePercentage p) = p := by cases p <;> rfl
theorem percentage_forth (p : V1.Percentage) : p = writePercentage (percentageToV2 p) := by cases p <;> rfl
theorem duration_back (d : Duration) : durationToV2 (writeDuration d) = d := by cases d <;> rfl
theorem duration_forth (d : V1.Duration) : d = writeDuration (durationToV2 d) := by cases d <;> rfl
theorem expiration_back (e : Expiration) : expirationToV2 (writeExpiration e) = e := by cases e <;> rfl
theorem expiration_forth (e : V1.Expiration) : e = writeExpiration (expirationToV2 e) := by cases e <;> rfl

theorem threshold_back (t : Threshold) : thresholdToV2 (writeThreshold t) = t := by
  cases t <;> simp [thresholdToV2, writeThreshold, percentage_back]

theorem threshold_forth (t : V1.Threshold) : t = writeThreshold (thresholdToV2 t) := by
  cases t <;> simp [thresholdToV2, writeThreshold, ← percentage_forth]

theorem map_back {α β : Type} {f : α → β} {g : β → α} (h : ∀ x, g (f x) = x) (o : Option α) :
    (o.map f).map g = o := by cases o <;> simp [h]

/-- The new proposal is the old one. -/
theorem same_proposal (v : V1.Proposal) : SameProposal v (proposalToV2 v) where
  content := rfl
  proposer := rfl
  startHeight := rfl
  minVotingPeriod := (map_back (fun x => (expiration_forth x).symm) _).symm
  expiration := expiration_forth _
  threshold := threshold_forth _
  totalPower := rfl
  msgs := rfl
  status := by cases h : v.status <;> simp only [proposalToV2, h, statusToV2] <;> constructor
  votes := ⟨rfl, rfl, rfl⟩
  allowRevoting := rfl
  veto := rfl

theorem proposal_unique {v : V1.Proposal} {p : Single.Proposal} (h : SameProposal v p) : proposalToV2 v = p := by
  obtain ⟨h1, h2, h3, h4, h5, h6, h7, h8, h9, ⟨ha, hb, hc⟩, h11, h12⟩ := h
  have hs : statusToV2 v.status = p.status := by 
    generalize v.status = a at h9
    generalize p.status = b at h9
    cases h9 <;> rfl
  have hv : votesToV2 v.votes = p.votes := by simp only [votesToV2, ha, hb, hc]
  simp only [proposalToV2, h1, h2, h3, h4, h5, h6, h7, h8, hs, hv, h11, threshold_back, expiration_back,
    map_back expiration_back, ← h12]

theorem same_config (c : V1.Config) (close : Bool) (veto : Option VetoConfig) :
    SameConfig c (configToV2 c close veto) where
  threshold := threshold_forth _
  maxVotingPeriod := duration_forth _
  minVotingPeriod := (map_back (fun x => (duration_forth x).symm) _).symm
  onlyMembersExecute := rfl
  allowRevoting := rfl
  dao := rfl

theorem config_unique {v : V1.Config} {c : Single.Config} (h : SameConfig v c) (close : Bool)
    (veto : Option VetoConfig) :
    configToV2 v close veto = { c with closeOnExecutionFailure := close, veto := veto } := by
  obtain ⟨h1, h2, h3, h4, h5, h6⟩ := h
  simp only [configToV2, h1, h2, h3, h4, h5, h6, threshold_back, duration_back, map_back duration_back]

/-! ### The loop -/

theorem pending_iff (p : V1.Proposal) : pending p = true ↔ DepositOpen p := by
  simp only [pending, DepositOpen, Bool.and_eq_true, decide_eq_true_eq, and_assoc]
  constructor
  · rintro ⟨h, h'⟩
    cases hd : p.deposit with
    | none => rw [hd] at h; simp at h
    | some d => rw [hd] at h; exact ⟨⟨d, rfl, by simpa using h⟩, h'⟩
  · rintro ⟨⟨d, hd, hn⟩, h'⟩
    exact ⟨by rw [hd]; simpa using hn, h'⟩

theorem migrateAll_ok {l : List (Nat × V1.Proposal)} {m ps : AMap Nat Single.Proposal} :
    migrateAll l m = .ok ps ↔
      (∀ x ∈ l, ¬ DepositOpen x.2) ∧ ps = l.foldl (fun m x => m.set x.1 (proposalToV2 x.2)) m := by
  induction l generalizing m with
  | nil => simp [migrateAll, eq_comm]
  | cons x l ih =>
    obtain ⟨id, p⟩ := x
    simp only [migrateAll, bind_ok, require_ok, Bool.not_eq_true', List.forall_mem_cons, List.foldl_cons, ih]
    rw [← pending_iff, Bool.not_eq_true]
    constructor
    · rintro ⟨_, h, h1, h2⟩; exact ⟨⟨h, h1⟩, h2⟩
    · rintro ⟨⟨h, h1⟩, h2⟩; exact ⟨(), h, h1, h2⟩

theorem fold_get (l : List (Nat × V1.Proposal)) (hl : (l.map Prod.fst).Nodup) (m : AMap Nat Single.Proposal) (id : Nat) :
    AMap.get (l.foldl (fun m x => m.set x.1 (proposalToV2 x.2)) m) id =
      match AMap.get (l : AMap Nat V1.Proposal) id with | some v => some (proposalToV2 v) | none => m.get id := by
  induction l generalizing m with
  | nil => rfl
  | cons x l ih =>
    obtain ⟨k, p⟩ := x
    simp only [List.map_cons, List.nodup_cons] at hl
    simp only [List.foldl_cons, ih hl.2, AMap.get]
    by_cases hk : k = id
    · subst hk
      have : AMap.get (l : AMap Nat V1.Proposal) k = none := by
        cases hg : AMap.get (l : AMap Nat V1.Proposal) k with
        | none => rfl
        | some v => exact absurd (List.mem_map_of_mem (f := Prod.fst) (AMap.mem_of_get hg)) hl.1
      simp [this, AMap.get_set_self]
    · simp only [if_neg hk, AMap.get_set_ne _ _ hk]

theorem set_new {m : AMap Nat Single.Proposal} {k : Nat} {p : Single.Proposal} (h : k ∉ m.map Prod.fst) :
    m.set k p = m ++ [(k, p)] := by
  induction m with
  | nil => rfl
  | cons x m ih =>
    obtain ⟨q, w⟩ := x
    simp only [List.map_cons, List.mem_cons, not_or] at h
    simp only [AMap.set, if_neg (Ne.symm h.1), ih h.2, List.cons_append]

theorem fold_new (l : List (Nat × V1.Proposal)) (hl : (l.map Prod.fst).Nodup) (m : AMap Nat Single.Proposal)
    (hd : ∀ x ∈ l, x.1 ∉ m.map Prod.fst) :
    l.foldl (fun m x => m.set x.1 (proposalToV2 x.2)) m = m ++ l.map fun x => (x.1, proposalToV2 x.2) := by
  induction l generalizing m with
  | nil => simp
  | cons x l ih =>
    simp only [List.map_cons, List.nodup_cons] at hl
    rw [List.foldl_cons, set_new (hd x (List.mem_cons_self ..)), ih hl.2]
    · simp
    · intro y hy
      simp only [List.map_append, List.map_cons, List.map_nil, List.mem_append, List.mem_singleton, not_or]
      refine ⟨hd y (List.mem_cons_of_mem _ hy), fun h => hl.1 ?_⟩
      rw [← h]
      exact List.mem_map_of_mem hy

theorem forall2_eq {l : List (Nat × V1.Proposal)} {m : List (Nat × Single.Proposal)}
    (h : List.Forall₂ (fun a b => a.1 = b.1 ∧ SameProposal a.2 b.2) l m) :
    (l.map fun x => (x.1, proposalToV2 x.2)) = m := by
  induction h with
  | nil => rfl
  | cons hab _ ih => rw [List.map_cons, ih, proposal_unique hab.2, hab.1]

/-! ### One upgrade -/

theorem validateVeto_ok {v : Option VetoConfig} {c : V1.Config} {u : Unit} :
    validateVeto v (durationToV2 c.maxVotingPeriod) = .ok u ↔ VetoFits v c := by
  cases v with
  | none => simp [validateVeto, VetoFits]
  | some v =>
    simp only [validateVeto, VetoConfig.validate, VetoFits, Option.some.injEq, forall_eq']
    cases v.timelockDuration <;> cases c.maxVotingPeriod <;> simp [durationToV2]

/-- **C82.** An upgrade from version 1 is refused exactly when the code is the code the module runs, the module is not
one of version 1, the timelock of the veto does not fit the voting period, or somebody's deposit is still out. -/
theorem C82_accepted {code : Nat} {st : Storage} {close : Bool} {info : Single.PreProposeInfo}
    {veto : Option VetoConfig} :
    (∃ r, migrate code st (.fromV1 close info veto) = .ok r) ↔
      st.version ≠ code ∧ (∀ x ∈ st.v1Proposals, ¬ DepositOpen x.2) ∧ ∃ c, st.v1Config = some c ∧ VetoFits veto c := by
  simp only [migrate, bind_ok, require_ok, orErr_ok, decide_eq_true_eq, validateVeto_ok, migrateAll_ok]
  constructor
  · rintro ⟨r, _, h1, c, h2, _, h3, ps, ⟨h4, _⟩, _⟩
    exact ⟨h1, h4, c, h2, h3⟩
  · rintro ⟨h1, h4, c, h2, h3⟩
    exact ⟨_, (), h1, c, h2, (), h3, _, ⟨h4, rfl⟩, rfl⟩

theorem migrate_fromV1 {code : Nat} {st st' : Storage} {close : Bool} {info : Single.PreProposeInfo}
    {veto : Option VetoConfig} {out : Single.Out} (h : migrate code st (.fromV1 close info veto) = .ok (st', out)) :
    ∃ c, st.v1Config = some c ∧ VetoFits veto c ∧
      st' = { st with version := code, config := some (configToV2 c close veto), policy := some (Single.initialPolicy info).1, proposals := st.v1Proposals.foldl (fun m x => m.set x.1 (proposalToV2 x.2)) st.proposals } ∧
      out = ⟨(Single.initialPolicy info).2, none⟩ := by
  simp only [migrate, bind_ok, require_ok, orErr_ok, decide_eq_true_eq, validateVeto_ok, migrateAll_ok,
    Except.ok.injEq, Prod.mk.injEq] at h
  obtain ⟨_, _, c, h2, _, h3, ps, ⟨_, rfl⟩, rfl, rfl⟩ := h
  exact ⟨c, h2, h3, rfl, rfl⟩

/-- **C82.** An upgrade from version 1 keeps every proposal, ballot, hook and setting of the module, as it is written
down in the storage of version 1: nothing is lost, nothing is added and no vote is changed. Proposals only version 2
knows are left alone. The only message sent creates the pre-propose module, if one is asked for. -/
theorem C82_kept {code : Nat} {st st' : Storage} {close : Bool} {info : Single.PreProposeInfo}
    {veto : Option VetoConfig} {out : Single.Out} (h : migrate code st (.fromV1 close info veto) = .ok (st', out))
    (hk : st.v1Proposals.WF) :
    ∃ s c, st'.view = some s ∧ st.v1Config = some c ∧ SameConfig c s.config ∧
      s.config.closeOnExecutionFailure = close ∧ s.config.veto = veto ∧
      (∀ id v, st.v1Proposals.get id = some v → ∃ p, s.proposals.get id = some p ∧ SameProposal v p) ∧
      (∀ id, st.v1Proposals.get id = none → s.proposals.get id = st.proposals.get id) ∧
      s.count = st.count ∧ s.ballots = st.ballots ∧ s.proposalHooks = st.proposalHooks ∧ s.voteHooks = st.voteHooks ∧
      s.policy = .anyone ∧ out.newId = none ∧
      out.msgs.map (·.msg) = if info = .moduleMayPropose then [.instantiatePrePropose] else [] := by
  obtain ⟨c, hc, _, rfl, rfl⟩ := migrate_fromV1 h
  refine ⟨_, c, rfl, hc, same_config c close veto, rfl, rfl, ?_, ?_, rfl, rfl, rfl, rfl, ?_, rfl, ?_⟩
  · intro id v hv
    exact ⟨proposalToV2 v, by simp only [fold_get _ hk, hv], same_proposal v⟩
  · intro id hv
    simp only [fold_get _ hk, hv]
  · cases info <;> rfl
  · cases info <;> rfl

/-! ### Histories with upgrades -/

theorem view_put (st : Storage) (s : Single.State) : (st.put s).view = some s := rfl

theorem view_compatible (st : Storage) (code : Nat) : ({ st with version := code } : Storage).view = st.view := rfl

theorem view_none {st : Storage} (h : st.config = none) : st.view = none := by
  unfold Storage.view
  rw [h]; rfl

theorem config_of_view {st : Storage} {s : Single.State} (h : st.view = some s) : st.config ≠ none :=
  fun hn => by rw [view_none hn] at h; cases h

/-- The settings of an upgrade are ones the DAO could have made. -/
theorem upgrade_settings {code : Nat} {st st' : Storage} {s0 : Single.State} {close : Bool}
    {info : Single.PreProposeInfo} {veto : Option VetoConfig} {out : Single.Out}
    (h : migrate code st (.fromV1 close info veto) = .ok (st', out)) (hrep : Represents st s0)
    (hi : Single.Inv s0) (env : Single.Env) (hd : env.sender = s0.config.dao) :
    ∃ s1 s2, Single.step s0 env (.updateConfig s1.config) = .ok (s1, { msgs := [] }) ∧ s1.config.dao = s0.config.dao ∧
      Single.step s1 env (.updatePreProposeInfo info) = .ok (s2, out) ∧ st'.view = some s2 := by
  obtain ⟨c, hc, hv, rfl, rfl⟩ := migrate_fromV1 h
  obtain ⟨c', hc', hsc⟩ := hrep.config
  rw [hc] at hc'; injection hc' with hc'; subst hc'
  have hcfg := config_unique hsc close veto
  have hps : st.v1Proposals.foldl (fun m x => m.set x.1 (proposalToV2 x.2)) st.proposals = s0.proposals := by
    rw [hrep.old.2.2, fold_new _ hrep.keys _ (by simp)]
    exact forall2_eq hrep.proposals
  have hval : Single.validateConfig (configToV2 c close veto) = .ok () := by
    have h0 := hi.cfg
    simp only [Single.validateConfig, bind_ok] at h0 ⊢
    obtain ⟨_, h1, _, h2, _⟩ := h0
    refine ⟨(), by rw [hcfg]; exact h1, (), by rw [hcfg]; exact h2, ?_⟩
    cases veto with
    | none => rfl
    | some v => exact validateVeto_ok (v := some v) |>.2 hv
  have hdao : (configToV2 c close veto).dao = s0.config.dao := by rw [hcfg]
  refine ⟨{ s0 with config := configToV2 c close veto }, { s0 with config := configToV2 c close veto, policy := (Single.initialPolicy info).1 }, ?_, hdao, ?_, ?_⟩
  · simp only [Single.step, Single.execUpdateConfig, bind_ok, require_ok, decide_eq_true_eq]
    exact ⟨(), hd, (), hval, trivial⟩
  · simp only [Single.step, Single.execUpdatePolicy, bind_ok, require_ok, decide_eq_true_eq]
    exact ⟨(), by rw [hd, hdao], trivial⟩
  · simp only [Storage.view, hps, hrep.count, hrep.ballots, hrep.hooks.1, hrep.hooks.2]
    rfl

/-- **C82.** A module of version 1 whose state obeys the rules of proposals (`Single.Reach`: it is a state some history
of calls leads to) continues under the rules of version 2: whatever calls and upgrades follow, as long as no upgrade
from version 1 is made twice, the module is either still of version 1 and unchanged, or is in the state which those
calls lead to, the upgrade being a change of settings. So what is proved of all histories of the module is true across
upgrades. -/
theorem C82_continues {st st' : Storage} {s0 : Single.State} {b0 b' : Block} {log0 : List Single.Event}
    {log : List Event} (hrep : Represents st s0) (h0 : Single.Reach s0 b0 log0) (hr : sys.Run st b0 log st' b')
    (hf : FirstOnly log) :
    (Represents st' s0 ∧ Carried log [] ∧ b0.le b') ∨
      ∃ s l b1, st'.view = some s ∧ Carried log l ∧ Single.Run s0 b0 l s b1 ∧ Single.Reach s b1 (l ++ log0) ∧ b1.le b' := by
  suffices h : (Represents st' s0 ∧ Carried log [] ∧ b0.le b') ∨
      ∃ s l b1, st'.view = some s ∧ Carried log l ∧ Single.Run s0 b0 l s b1 ∧ b1.le b' by
    rcases h with h | ⟨s, l, b1, h1, h2, h3, h4⟩
    · exact .inl h
    · exact .inr ⟨s, l, b1, h1, h2, h3, Single.reach_run h0 h3, h4⟩
  induction hr with
  | refl => exact .inl ⟨hrep, .nil, Block.le_refl _⟩
  | @step st1 st2 b1 log env call out hr hb hs ih =>
    have hf' : FirstOnly log := fun e he => hf e (List.mem_cons_of_mem _ he)
    have hnew := hf _ (List.mem_cons_self ..)
    cases call with
    | exec c =>
      have hs' : step st1 env (.exec c) = .ok (st2, out) := hs
      simp only [step, bind_ok, orErr_ok, Except.ok.injEq, Prod.mk.injEq] at hs'
      obtain ⟨s1, hv, ⟨s2, o⟩, hs2, rfl, rfl⟩ := hs'
      rcases ih hf' with ⟨h1, _⟩ | ⟨s, l, bl, h1, h2, h3, h4⟩
      · exact absurd h1.old.1 (config_of_view hv)
      · rw [hv] at h1; injection h1 with h1; subst h1
        exact .inr ⟨s2, ⟨s1, env, c, o, s2⟩ :: l, _, view_put _ _, .exec h2 rfl rfl rfl hv (view_put _ _),
          .step h3 (Block.le_trans h4 hb) hs2, Block.le_refl _⟩
    | migrate code m =>
      have hs' : migrate code st1 m = .ok (st2, out) := hs
      cases m with
      | fromCompatible =>
        simp only [migrate, Except.ok.injEq, Prod.mk.injEq] at hs'
        obtain ⟨rfl, rfl⟩ := hs'
        rcases ih hf' with ⟨h1, h2, h3⟩ | ⟨s, l, bl, h1, h2, h3, h4⟩
        · refine .inl ⟨⟨h1.old, h1.config, h1.keys, h1.proposals, h1.count, h1.ballots, h1.hooks⟩, .compatible h2 rfl, Block.le_trans h3 hb⟩
        · exact .inr ⟨s, l, bl, h1, .compatible h2 rfl, h3, Block.le_trans h4 hb⟩
      | fromV1 close info veto =>
        have hnone : st1.config = none := hnew ⟨code, close, info, veto, rfl⟩
        rcases ih hf' with ⟨h1, h2, h3⟩ | ⟨s, l, bl, h1, _⟩
        · obtain ⟨s1, s2, ha, hd, hb', hv⟩ := upgrade_settings hs' h1 (Single.inv_reach h0) { env with sender := s0.config.dao } rfl
          refine .inr ⟨s2, _, _, hv, .fromV1 (x := ⟨s0, { env with sender := s0.config.dao }, .updateConfig s1.config, { msgs := [] }, s1⟩)
            (y := ⟨s1, { env with sender := s0.config.dao }, .updatePreProposeInfo info, out, s2⟩) h2 ⟨code, close, info, veto, rfl⟩
            ⟨rfl, rfl, .inl ⟨_, rfl⟩⟩ ⟨rfl, hd.symm, .inr ⟨_, rfl⟩⟩, ?_, Block.le_refl _⟩
          exact .step (.step .refl (Block.le_trans h3 hb) ha) (Block.le_refl _) hb'
        · exact absurd hnone (config_of_view h1)

theorem carried_executions {log : List Event} {l : List Single.Event} (h : Carried log l) (id : Nat) :
    (l.filter fun x => Spec.isExecuteOf id x.call).length = (log.filter (executesId id)).length := by
  induction h with
  | nil => rfl
  | @exec log l e x _ hc _ _ _ _ ih =>
    have : executesId id e = Spec.isExecuteOf id x.call := by
      unfold executesId
      rw [hc]
      cases x.call <;> simp [Spec.isExecuteOf] <;> rfl
    simp only [List.filter_cons, this]
    split <;> simp [ih]
  | @compatible log l e code _ hc ih =>
    have : executesId id e = false := by unfold executesId; rw [hc]
    simp only [List.filter_cons, this, ih]; simp
  | @fromV1 log l e x y _ hc hx hy ih =>
    have he : executesId id e = false := by
      obtain ⟨_, _, _, _, hc⟩ := hc
      unfold executesId; rw [hc]
    have hset : ∀ z, BySettings e z → Spec.isExecuteOf id z.call = false := by
      intro z hz
      rcases hz.call with ⟨_, h⟩ | ⟨_, h⟩ <;> rw [h] <;> rfl
    simp only [List.filter_cons, he, hset x hx, hset y hy]; simpa using ih

/-- **C82 (partial).** Across upgrades a proposal is executed at most once, if no upgrade from version 1 is made twice.
Missing: nothing in the code stops the second one, see `C82_again` and `C82_again_witness`. -/
theorem C82_execute_once_partial {st st' : Storage} {s0 : Single.State} {b0 b' : Block} {log0 : List Single.Event}
    {log : List Event} (hrep : Represents st s0) (h0 : Single.Reach s0 b0 log0) (hr : sys.Run st b0 log st' b')
    (hf : FirstOnly log) (id : Nat) :
    (log.filter (executesId id)).length + (log0.filter fun x => Spec.isExecuteOf id x.call).length ≤ 1 := by
  rcases C82_continues hrep h0 hr hf with ⟨_, hc, _⟩ | ⟨s, l, b1, _, hc, _, hr, _⟩
  · rw [← carried_executions hc id]
    have := Single.C10_execute_once h0 id
    simpa using this
  · rw [← carried_executions hc id]
    have := Single.C10_execute_once hr id
    simpa [List.filter_append] using this

theorem no_executions {log : List Event} {id : Nat} (h : (log.filter (executesId id)).length = 0) :
    ∀ e ∈ log, executesId id e = false := by
  intro e he
  rw [List.length_eq_zero_iff, List.filter_eq_nil_iff] at h
  simpa using h e he

theorem represents_get {l : List (Nat × V1.Proposal)} {m : List (Nat × Single.Proposal)}
    (h : List.Forall₂ (fun a b => a.1 = b.1 ∧ SameProposal a.2 b.2) l m) {id : Nat} {v : V1.Proposal}
    (hv : AMap.get l id = some v) : ∃ p, AMap.get m id = some p ∧ SameProposal v p := by
  induction h with
  | nil => cases hv
  | @cons a b l m hab _ ih =>
    obtain ⟨k, w⟩ := a
    obtain ⟨k', p⟩ := b
    obtain ⟨rfl, hsame⟩ := hab
    simp only [AMap.get] at hv ⊢
    split at hv
    · rename_i hk
      injection hv with hv; subst hv
      exact ⟨p, by rw [if_pos hk], hsame⟩
    · rename_i hk
      rw [if_neg hk]
      exact ih hv

/-- **C82 (partial).** A proposal executed or closed before the upgrade stays so, with the same messages, and is
never executed, if no upgrade from version 1 is made twice. -/
theorem C82_final_partial {st st' : Storage} {s0 : Single.State} {b0 b' : Block} {log0 : List Single.Event}
    {log : List Event} (hrep : Represents st s0) (h0 : Single.Reach s0 b0 log0) (hr : sys.Run st b0 log st' b')
    (hf : FirstOnly log) {id : Nat} {v : V1.Proposal} (hv : st.v1Proposals.get id = some v)
    (hfin : v.status = .executed ∨ v.status = .closed) :
    (∀ e ∈ log, executesId id e = false) ∧
      ∀ s, st'.view = some s → ∃ p, s.proposals.get id = some p ∧ SameStatus v.status p.status ∧ p.msgs = v.msgs := by
  obtain ⟨p0, hp0, hsame⟩ := represents_get hrep.proposals hv
  have hfin0 : Spec.Final p0.status := by
    have h := hsame.status
    rcases hfin with hf | hf <;> rw [hf] at h <;> generalize p0.status = a at h <;> cases h <;> trivial
  rcases C82_continues hrep h0 hr hf with ⟨h1, hc, _⟩ | ⟨s, l, b1, h1, hc, hr, _⟩
  · refine ⟨no_executions (carried_executions hc id).symm, fun s hs => ?_⟩
    exact absurd h1.old.1 (config_of_view hs)
  · constructor
    · apply no_executions
      rw [← carried_executions hc id]
      rw [List.length_eq_zero_iff, List.filter_eq_nil_iff]
      intro x hx hex
      obtain ⟨l1, l2, rfl⟩ := Single.mem_split hx
      obtain ⟨bx, hrun, _, hstep, _⟩ := Single.run_split hr
      obtain ⟨p1, hp1, _, hpath⟩ := Single.run_prop hrun (Single.inv_reach h0) hp0
      exact Single.final_not_exec hp1 (by rw [hpath.final hfin0]; exact hfin0) hex _ hstep
    · intro s' hs'
      rw [h1] at hs'; injection hs' with hs'; subst hs'
      obtain ⟨p1, hp1, hrules, hpath⟩ := Single.run_prop hr (Single.inv_reach h0) hp0
      exact ⟨p1, hp1, by rw [hpath.final hfin0]; exact hsame.status, by rw [hrules.msgs, hsame.msgs]⟩

/-- **C82 (partial).** After an upgrade the tallies are still the sums of the ballots, those of version 1 among them, if
no upgrade from version 1 is made twice. -/
theorem C82_tally_partial {st st' : Storage} {s0 s : Single.State} {b0 b' : Block} {log0 : List Single.Event}
    {log : List Event} (hrep : Represents st s0) (h0 : Single.Reach s0 b0 log0) (hr : sys.Run st b0 log st' b')
    (hf : FirstOnly log) (hv : st'.view = some s) {id : Nat} {p : Single.Proposal} (hp : s.proposals.get id = some p)
    (v : Vote) : Spec.countOf p.votes v = Spec.ballotSum s id v := by
  rcases C82_continues hrep h0 hr hf with ⟨h1, _⟩ | ⟨s', l, b1, h1, hc, _, hr, _⟩
  · exact absurd h1.old.1 (config_of_view hv)
  · rw [h1] at hv; injection hv with hv; subst hv
    have h := Single.C06_tally_is_ballot_sum hr hp
    cases v
    · exact h.1
    · exact h.2.1
    · exact h.2.2

/-! ### What goes wrong -/

/-- **C82, what is not prevented.** An upgrade from version 1 that is made again, from a module long on version 2 (the
old storage is still there and only the version number is compared), turns every proposal of version 1 back into what it
was before the first upgrade, whatever was decided about it since. Ballots stay. -/
theorem C82_again {code : Nat} {st st' : Storage} {close : Bool} {info : Single.PreProposeInfo}
    {veto : Option VetoConfig} {out : Single.Out} {s : Single.State} {id : Nat} {v : V1.Proposal}
    {p : Single.Proposal} (_ : st.view = some s) (_ : s.proposals.get id = some p) (hk : st.v1Proposals.WF)
    (h : migrate code st (.fromV1 close info veto) = .ok (st', out)) (hv : st.v1Proposals.get id = some v) :
    ∃ s' p', st'.view = some s' ∧ s'.proposals.get id = some p' ∧ SameProposal v p' ∧ s'.ballots = s.ballots := by
  rename_i hs _
  obtain ⟨s', c, h1, _, _, _, _, h2, _, _, h3, _⟩ := C82_kept h hk
  obtain ⟨p', hp', hsame⟩ := h2 id v hv
  refine ⟨s', p', h1, hp', hsame, ?_⟩
  rw [h3]
  simp only [Storage.view, Option.bind_eq_bind, Option.bind_eq_some_iff, Option.some.injEq] at hs
  obtain ⟨_, _, _, _, rfl⟩ := hs
  rfl

/-- **C82, what is not prevented.** The upgrade meant for modules of version 2 is accepted from one of version 1. From
then on every call of the module fails, and so does the upgrade from version 1 to that same code. -/
theorem C82_compatible {code : Nat} {st : Storage} (ho : st.config = none) :
    ∃ st', migrate code st .fromCompatible = .ok (st', ⟨[], none⟩) ∧ st'.v1Proposals = st.v1Proposals ∧
      (∀ env c r, step st' env (.exec c) ≠ .ok r) ∧
      ∀ close info veto r, migrate code st' (.fromV1 close info veto) ≠ .ok r := by
  refine ⟨{ st with version := code }, rfl, rfl, ?_, ?_⟩
  · intro env c r h
    simp only [step, bind_ok, orErr_ok, view_compatible, view_none ho] at h
    obtain ⟨_, h, _⟩ := h
    cases h
  · intro close info veto r h
    exact (C82_accepted.1 ⟨r, h⟩).1 rfl

end Verif.SingleUpgrade
