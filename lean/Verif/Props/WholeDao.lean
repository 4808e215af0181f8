import Verif.Proofs.WholeDao
import Verif.Props.SingleExecuted
/-!
# C80: from the stakes of the members to the messages of the DAO
-/

namespace Verif.WholeDao
open Verif Verif.Voting Verif.Spec Verif.Spec.WholeDao

variable {S E C O : Type} {V : VotingModule S E C O} {decode : Nat → DaoCore.CosmosMsg}

/-- The history of the proposal module alone. -/
theorem prop_history {w : World S} {b : Block} {log : List (Event S E C)} (h : (sys V decode).Reach w b log) :
    ∃ b1, b1.le b ∧ Single.Reach w.prop b1 (propLog V log) := by
  obtain ⟨b0, w0, ⟨_, _, _, env0, c0, i0, out0, hb0, _, hi⟩, hr⟩ := h
  induction hr with
  | refl => exact ⟨b0, Block.le_refl _, env0, c0, i0, _, out0, hi, by rw [hb0]; exact .refl⟩
  | @step s1 s2 b3 log env call out hr hb3 hs ih =>
    obtain ⟨b1, hb1, env1, c1, i1, s0, o1, h1, h2⟩ := ih
    cases call with
    | core c =>
      obtain ⟨_, _, hw, _⟩ := core_effect (V := V) (decode := decode) hs
      rw [hw]
      exact ⟨b1, Block.le_trans hb1 hb3, env1, c1, i1, s0, o1, h1, h2⟩
    | vote ve c =>
      obtain ⟨_, _, hw, _⟩ := vote_effect (decode := decode) hs
      rw [hw]
      exact ⟨b1, Block.le_trans hb1 hb3, env1, c1, i1, s0, o1, h1, h2⟩
    | prop c =>
      obtain ⟨⟨o, ho, hp⟩, _⟩ := prop_effect (decode := decode) hs
      refine ⟨env.block, Block.le_refl _, env1, c1, i1, s0, o1, h1, ?_⟩
      have he : propLog V ((⟨s1, env, .prop c, out, s2⟩ : Event S E C) :: log) =
          ⟨s1.prop, propEnv V s1 env, c, o, s2.prop⟩ :: propLog V log := by
        simp only [propLog, ho]
      rw [he]
      exact .step h2 (Block.le_trans hb1 hb3) hp

/-- **C80.** Every proposal is executed at most once in the life of the DAO. -/
theorem C80_once {w : World S} {b : Block} {log : List (Event S E C)} (h : (sys V decode).Reach w b log) (id : Nat) :
    (log.filter (executesId id)).length ≤ 1 := by
  obtain ⟨b1, _, h1⟩ := prop_history h
  refine Nat.le_trans ?_ (Single.C10_execute_once h1 id)
  obtain ⟨b0, w0, _, hr⟩ := h
  clear h1
  suffices key : ∀ {w : World S} {b : Block} {log : List (Event S E C)}, (sys V decode).Run w0 b0 log w b →
      (log.filter (executesId id)).length ≤ ((propLog V log).filter (fun e => isExecuteOf id e.call)).length from key hr
  intro w b log hr
  induction hr with
  | refl => exact Nat.le_refl _
  | @step s1 s2 b3 log env call out hr hb3 hs ih =>
    cases call with
    | core c => exact ih
    | vote ve c => exact ih
    | prop c =>
      obtain ⟨⟨o, ho, hp⟩, _⟩ := prop_effect (decode := decode) hs
      have he : propLog V ((⟨s1, env, .prop c, out, s2⟩ : Event S E C) :: log) =
          ⟨s1.prop, propEnv V s1 env, c, o, s2.prop⟩ :: propLog V log := by
        simp only [propLog, ho]
      have hx : executesId id (⟨s1, env, .prop c, out, s2⟩ : Event S E C) = isExecuteOf id c := by
        cases c <;> rfl
      rw [he]
      simp only [List.filter_cons, hx]
      split
      · simp only [List.length_cons]; omega
      · exact ih

/-- **C80.** When a proposal is executed the members have decided for it. -/
theorem C80_decided (hV : Lawful V) {w : World S} {b : Block} {log : List (Event S E C)}
    (h : (sys V decode).Reach w b log) (hst : Steady log) {later before : List (Event S E C)} {ev : Event S E C}
    (hl : log = later ++ ev :: before) {id : Nat} {f : Bool} (hc : ev.call = .prop (.execute id f)) :
    ∃ p, ev.pre.prop.proposals.get id = some p ∧
      (NineDecAll p.threshold → Decided V before ev.pre.vote ev.env.block id p) := by
  obtain ⟨b0, w0, hi, hr⟩ := h
  subst hl
  obtain ⟨s1, b1, h1, h2⟩ := hr.split
  cases h1 with
  | @step s1' _ b1' _ env call out h1 hb hs =>
  simp only at hc
  subst hc
  have hsb : Steady before := fun e he => hst e (by simp [he])
  have hsb' : Steady ((⟨s1', env, .prop (.execute id f), out, s1⟩ : Event S E C) :: before) :=
    fun e he => hst e (by simp only [List.mem_append]; exact Or.inr he)
  obtain ⟨bq, l', _, hr', hl', hp'⟩ := prop_stable hV ⟨b0, w0, hi, .step h1 hb hs⟩ hsb'
  obtain ⟨bp, l, _, hrl, hll, hpl⟩ := prop_stable hV ⟨b0, w0, hi, h1⟩ hsb
  obtain ⟨⟨o, ho, hp⟩, _⟩ := prop_effect (decode := decode) hs
  have he : propLog V ((⟨s1', env, .prop (.execute id f), out, s1⟩ : Event S E C) :: before) =
      ⟨s1'.prop, propEnv V s1' env, .execute id f, o, s1.prop⟩ :: propLog V before := by
    simp only [propLog, ho]
  rw [he, List.map_cons] at hl'
  obtain ⟨p, hg, hmet⟩ := Single.C10_executed_met hr' hp' (e := fixEnv (V.power s1.vote) (V.total s1.vote)
      ⟨s1'.prop, propEnv V s1' env, .execute id f, o, s1.prop⟩) (by rw [hl']; simp) rfl
  refine ⟨p, hg, fun h9 => ?_⟩
  obtain ⟨⟨hm1, hm2⟩, hsp⟩ := hmet h9
  obtain ⟨ht, hv⟩ := Single.C07_tally_is_last_votes hrl hpl hg
  obtain ⟨ly, hy1, hy2, hy3⟩ := hv .yes
  obtain ⟨ln, hn1, hn2, hn3⟩ := hv .no
  obtain ⟨la, ha1, ha2, ha3⟩ := hv .abstain
  rw [hll] at hy2 hn2 ha2
  simp only [lastVote_fix] at hy2 hn2 ha2
  refine ⟨hm1, hm2, ly, ln, la, ⟨hy1, hy2⟩, ⟨hn1, hn2⟩, ⟨ha1, ha2⟩, ?_⟩
  simp only [countOf] at hy3 hn3 ha3
  simp only [powerOf]
  rw [← ht, ← hy3, ← hn3, ← ha3]
  exact hsp

/-- **C80.** When a proposal is executed the members have decided for it, whatever the decimals of its threshold: the
percentages are met but for less than a billionth of a vote. -/
theorem C80_nearly_decided (hV : Lawful V) {w : World S} {b : Block} {log : List (Event S E C)}
    (h : (sys V decode).Reach w b log) (hst : Steady log) {later before : List (Event S E C)} {ev : Event S E C}
    (hl : log = later ++ ev :: before) {id : Nat} {f : Bool} (hc : ev.call = .prop (.execute id f)) :
    ∃ p, ev.pre.prop.proposals.get id = some p ∧
      NearlyDecided V before ev.pre.vote ev.env.block id p := by
  obtain ⟨b0, w0, hi, hr⟩ := h
  subst hl
  obtain ⟨s1, b1, h1, h2⟩ := hr.split
  cases h1 with
  | @step s1' _ b1' _ env call out h1 hb hs =>
  simp only at hc
  subst hc
  have hsb : Steady before := fun e he => hst e (by simp [he])
  have hsb' : Steady ((⟨s1', env, .prop (.execute id f), out, s1⟩ : Event S E C) :: before) :=
    fun e he => hst e (by simp only [List.mem_append]; exact Or.inr he)
  obtain ⟨bq, l', _, hr', hl', hp'⟩ := prop_stable hV ⟨b0, w0, hi, .step h1 hb hs⟩ hsb'
  obtain ⟨bp, l, _, hrl, hll, hpl⟩ := prop_stable hV ⟨b0, w0, hi, h1⟩ hsb
  obtain ⟨⟨o, ho, hp⟩, _⟩ := prop_effect (decode := decode) hs
  have he : propLog V ((⟨s1', env, .prop (.execute id f), out, s1⟩ : Event S E C) :: before) =
      ⟨s1'.prop, propEnv V s1' env, .execute id f, o, s1.prop⟩ :: propLog V before := by
    simp only [propLog, ho]
  rw [he, List.map_cons] at hl'
  obtain ⟨p, hg, hmet⟩ := Single.C10_executed_nearly hr' hp' (e := fixEnv (V.power s1.vote) (V.total s1.vote)
      ⟨s1'.prop, propEnv V s1' env, .execute id f, o, s1.prop⟩) (by rw [hl']; simp) rfl
  refine ⟨p, hg, ?_⟩
  obtain ⟨⟨hm1, hm2⟩, hsp⟩ := hmet
  obtain ⟨ht, hv⟩ := Single.C07_tally_is_last_votes hrl hpl hg
  obtain ⟨ly, hy1, hy2, hy3⟩ := hv .yes
  obtain ⟨ln, hn1, hn2, hn3⟩ := hv .no
  obtain ⟨la, ha1, ha2, ha3⟩ := hv .abstain
  rw [hll] at hy2 hn2 ha2
  simp only [lastVote_fix] at hy2 hn2 ha2
  refine ⟨hm1, hm2, ly, ln, la, ⟨hy1, hy2⟩, ⟨hn1, hn2⟩, ⟨ha1, ha2⟩, ?_⟩
  simp only [countOf] at hy3 hn3 ha3
  simp only [powerOf]
  rw [← ht, ← hy3, ← hn3, ← ha3]
  exact hsp

/-- **C80.** Whatever the DAO sends comes from a proposal the members have decided for, which is executed in this very
transaction, or from one of the other sources C47 lists: then it is not the proposal module that called. -/
theorem C80_mandate (hV : Lawful V) {w : World S} {b : Block} {log : List (Event S E C)}
    (h : (sys V decode).Reach w b log) (hst : Steady log) {ev : Event S E C} (hev : ev ∈ log) {d : DaoCore.Sub}
    (hd : d ∈ ev.out.core) :
    (∃ m, d = .send m ∧ ByProposal V decode log ev m ∧ DaoCore.Enabled ev.pre.core.core ev.pre.propAddr) ∨
    ∃ c, coreEvent ev = some c ∧ DaoCore.MaySend c d ∧ ∀ sender m, c.call = .call sender m → sender ≠ ev.pre.propAddr := by
  obtain ⟨b0, w0, hi, hr⟩ := id h
  obtain ⟨before, later, b1, hl, _, _, hs, _⟩ := hr.event ev hev
  obtain ⟨pre, env, call, out, post⟩ := ev
  simp only at hd hs ⊢
  cases call with
  | vote ve c =>
    obtain ⟨_, _, _, _, _, _, ho⟩ := vote_effect (decode := decode) hs
    rw [ho] at hd; cases hd
  | core c =>
    obtain ⟨hn, hc, _⟩ := core_effect (V := V) (decode := decode) hs
    refine Or.inr ⟨_, rfl, DaoCore.C47_who (.step .refl (Block.le_refl _) hc) _ (by simp) d hd, ?_⟩
    intro sender m hcall
    simp only at hcall
    subst hcall
    simpa [notBy] using hn
  | prop c =>
    obtain ⟨⟨o, ho, hp⟩, _, _, _, he⟩ := prop_effect (decode := decode) hs
    rcases he with ⟨_, he⟩ | ⟨id, p, rfl, hg, hc⟩
    · rw [he] at hd; cases hd
    · have hrun : DaoCore.sys.Run pre.core env.block _ post.core env.block := .step (env := coreEnv env)
        (call := DaoCore.Call.call pre.propAddr (.executeProposalHook (p.msgs.map decode))) (out := out.core) .refl (Block.le_refl _) hc
      have hms := DaoCore.C47_who hrun _ (List.mem_singleton.2 rfl) d hd
      obtain ⟨p', hg', hdec⟩ := C80_decided hV h hst hl (id := id) (f := false) rfl
      obtain ⟨p'', hg'', hnear⟩ := C80_nearly_decided hV h hst hl (id := id) (f := false) rfl
      rw [show (⟨pre, env, _, out, post⟩ : Event S E C).pre.prop = pre.prop from rfl, hg] at hg'
      injection hg' with hg'; subst hg'
      rw [show (⟨pre, env, _, out, post⟩ : Event S E C).pre.prop = pre.prop from rfl, hg] at hg''
      injection hg'' with hg''; subst hg''
      cases hms with
      | hook hh ha hm =>
        injection hh with hh
        injection hh with h1 h2
        injection h2 with h2
        subst h1 h2
        obtain ⟨n, hn, rfl⟩ := List.mem_map.1 hm
        exact Or.inl ⟨_, rfl, ⟨later, before, id, p, n, hl, ⟨rfl, hg⟩, hn, rfl, hdec, hnear⟩, ha⟩
      | admin hh hm => injection hh with hh; injection hh with h1 h2; cases h2
      | callback hh hr' hm => cases hh
      | voting hh => injection hh with hh; injection hh with h1 h2; cases h2
      | proposal hh => injection hh with hh; injection hh with h1 h2; cases h2

/-- **C80.** The powers that decide: asked for a height, the voting module of the DAO answers with what was staked
before the first transaction at or above that height. -/
theorem C80_weights (hV : Lawful V) {w w' : World S} {b b' : Block} {log log' : List (Event S E C)}
    (h : (sys V decode).Reach w b log) (hr : (sys V decode).Run w b log' w' b') {x : Nat} (hb : b.height < x)
    (hx : ∀ e ∈ log', x ≤ e.env.block.height) :
    (∀ a, V.power w'.vote a x = V.weight w.vote a) ∧ V.total w'.vote x = V.totalWeight w.vote := by
  obtain ⟨l, b1, h1, hb1⟩ := vote_reach h
  obtain ⟨l', b2, h2, _, h3⟩ := vote_run hr hb1
  refine hV.history h1 h2 (Nat.lt_of_le_of_lt hb1.1 hb) ?_
  intro e he
  obtain ⟨ev, hev, hbl⟩ := h3 e he
  rw [hbl]; exact hx ev hev

theorem authorised_mono {log : List (Event S E C)} {e : Event S E C} {d : DaoCore.Sub}
    (h : Authorised V decode log d) : Authorised V decode (e :: log) d := by
  induction h with
  | proposal h =>
    obtain ⟨later, before, id, p, n, hl, h1⟩ := h
    exact .proposal ⟨e :: later, before, id, p, n, by rw [hl]; rfl, h1⟩
  | nested _ hm ih => exact .nested ih hm
  | voting _ ih => exact .voting ih
  | module _ hi ih => exact .module ih hi
  | callback _ he hc hr hm ih => exact .callback ih (List.mem_cons_of_mem _ he) hc hr hm

/-- **C80.** In a DAO without an outside admin and with one enabled proposal module, everything the DAO ever sends goes
back to a proposal its members have decided for. -/
theorem C80_sole (hV : Lawful V) {w0 w : World S} {b0 b : Block} {log : List (Event S E C)} (hi : Init V b0 w0)
    (hstack : w0.core.stack = []) (hr : (sys V decode).Run w0 b0 log w b) (hst : Steady log) (hso : Sole log) :
    ∀ ev ∈ log, ∀ d ∈ ev.out.core, Authorised V decode log d := by
  suffices key : w.propAddr ≠ w.core.core.me ∧ (∀ d ∈ w.core.stack, Authorised V decode log d) ∧
      ∀ ev ∈ log, ∀ d ∈ ev.out.core, Authorised V decode log d from key.2.2
  induction hr with
  | refl => exact ⟨hi.1, by rw [hstack]; simp, by simp⟩
  | @step s1 s2 b3 log env call out hr hb3 hs ih =>
    obtain ⟨ih0, ih1, ih2⟩ := ih (fun e he => hst e (List.mem_cons_of_mem _ he))
      (fun e he => hso e (List.mem_cons_of_mem _ he))
    obtain ⟨hadm, hen⟩ := hso _ (List.mem_cons_self)
    simp only at hadm hen
    have hre : (sys V decode).Reach s2 env.block (⟨s1, env, call, out, s2⟩ :: log) := ⟨b0, w0, hi, .step hr hb3 hs⟩
    have man := fun d hd => C80_mandate hV hre hst (List.mem_cons_self) (d := d) hd
    simp only at man
    suffices hnew : s2.propAddr ≠ s2.core.core.me ∧
        (∀ d ∈ out.core, Authorised V decode (⟨s1, env, call, out, s2⟩ :: log) d) ∧
        ∀ d ∈ s2.core.stack, d ∈ out.core ∨ d ∈ s1.core.stack by
      obtain ⟨hn0, hn1, hn2⟩ := hnew
      refine ⟨hn0, ?_, ?_⟩
      · intro d hd
        rcases hn2 d hd with hd | hd
        · exact hn1 d hd
        · exact authorised_mono (ih1 d hd)
      · intro ev hev d hd
        rcases List.mem_cons.1 hev with rfl | hev
        · exact hn1 d hd
        · exact authorised_mono (ih2 ev hev d hd)
    cases call with
    | vote ve c =>
      obtain ⟨_, _, _, hw, hpa, _, ho⟩ := vote_effect (decode := decode) hs
      rw [ho, hw, hpa]
      exact ⟨ih0, by simp, fun d hd => Or.inr hd⟩
    | prop c =>
      obtain ⟨_, _, hpa, _, he⟩ := prop_effect (decode := decode) hs
      refine ⟨?_, ?_, ?_⟩
      · rcases he with ⟨he, _⟩ | ⟨id, p, rfl, hg, hc⟩
        · rw [hpa, he]; exact ih0
        · have := DaoCore.does_me (DaoCore.step_does hc)
          simp only at this
          rw [hpa, this]; exact ih0
      · intro d hd
        rcases man d hd with ⟨m, rfl, hby, _⟩ | ⟨c', hc', _⟩
        · exact .proposal hby
        · cases hc'
      · intro d hd
        rcases he with ⟨he, _⟩ | ⟨id, p, rfl, hg, hc⟩
        · rw [he] at hd; exact Or.inr hd
        · cases DaoCore.step_does hc with
          | msg hh _ _ _ hs1 hs2 _ =>
            simp only [DaoCore.delivered, List.nil_append] at hs1 hs2
            rw [hs2, List.mem_append] at hd
            rw [hs1]; exact hd
          | rep hh => cases hh
          | other hh => cases hh
    | core c =>
      obtain ⟨hn, hc, _, _, hpa, _⟩ := core_effect (V := V) (decode := decode) hs
      have hdoes := DaoCore.step_does hc
      have hme := DaoCore.does_me hdoes
      simp only at hme
      refine ⟨by rw [hpa, hme]; exact ih0, ?_, ?_⟩
      · intro d hd
        rcases man d hd with ⟨m, rfl, hby, _⟩ | ⟨c', hc', hms, hby⟩
        · exact .proposal hby
        · injection hc' with hc'
          subst hc'
          simp only at hby
          -- a message handled by the DAO for itself was on its list
          have self : ∀ {m : DaoCore.Msg}, DaoCore.handled ⟨s1.core, coreEnv env, c, out.core, s2.core⟩ =
              some (s1.core.core.me, m) →
              Authorised V decode (⟨s1, env, .core c, out, s2⟩ :: log) (.send (.toSelf m)) := by
            intro m hm
            cases hdoes with
            | msg hh _ _ _ hs1 _ hdd =>
              rw [hh] at hm
              injection hm with hm; injection hm with e1 e2
              subst e1 e2
              rcases hdd with ⟨_, hne⟩ | ⟨hdl, _⟩
              · exact absurd rfl hne
              · refine authorised_mono (ih1 _ ?_)
                simp only at hs1
                rw [hs1, hdl]; simp
            | rep hh => rw [hh] at hm; cases hm
            | other hh => rw [hh] at hm; cases hm
          cases hms with
          | hook hh ha hm =>
            rename_i a msgs m
            have hapa := hen a ha
            subst hapa
            cases c with
            | call sender m' =>
              injection hh with hh; injection hh with e1 e2
              exact absurd e1 (hby sender m' rfl)
            | deliver r =>
              exfalso
              cases hdoes with
              | msg hh' _ _ _ _ _ hdd =>
                rw [hh'] at hh
                injection hh with hh; injection hh with e1 e2
                subst e1
                rcases hdd with ⟨hdl, _⟩ | ⟨_, hme'⟩
                · simp only [DaoCore.handled] at hh'
                  simp only [DaoCore.delivered] at hdl
                  split at hh'
                  · rename_i hst'
                    rw [hst'] at hdl; simp at hdl
                  · cases hh'
                · exact ih0 hme'
              | rep hh' => rw [hh'] at hh; cases hh
              | other hh' => rw [hh'] at hh; cases hh
          | admin hh hm =>
            simp only [hadm] at hh
            exact .nested (self hh) hm
          | callback hh hr' hm =>
            rename_i role r m
            cases hdoes with
            | msg _ hh' => rw [hh'] at hh; cases hh
            | @rep role' c' i rest _ hh' _ _ _ _ hs1 _ =>
              rw [hh'] at hh
              injection hh with hh; injection hh with e1 e2
              subst e1 e2
              refine .callback (i := i) (authorised_mono (ih1 _ ?_)) (List.mem_cons_self) rfl hh' hm
              simp only at hs1
              rw [hs1]; exact List.mem_cons_self
            | other _ hh' => rw [hh'] at hh; cases hh
          | voting hh => exact .voting (self hh)
          | proposal hh hi => exact .module (self hh) hi
      · intro d hd
        cases hdoes with
        | msg hh _ _ _ hs1 hs2 _ =>
          simp only at hs1 hs2
          rw [hs2, List.mem_append] at hd
          rw [hs1]
          exact hd.imp id (fun hd => List.mem_append.2 (Or.inr hd))
        | rep hh _ _ _ _ _ hs1 hs2 =>
          simp only at hs1 hs2
          rw [hs2, List.mem_append] at hd
          rw [hs1]
          exact hd.imp id (fun hd => List.mem_cons_of_mem _ hd)
        | other hh _ _ hs1 hs2 _ =>
          simp only at hs1 hs2
          rw [hs2] at hd
          rw [hs1]
          exact Or.inr (List.mem_cons_of_mem _ hd)

end Verif.WholeDao
