import Verif.Props.WholeDaoLive
import Verif.Proofs.SingleReject
/-!
# C87: a majority can always act, and nobody can stop it
-/

namespace Verif.Spec.WholeDao
open Verif Verif.Voting Verif.WholeDao

/-- With `n` yes votes of `total` a proposal is through at the end of the voting period whatever else is voted. -/
def Decisive (thr : Threshold) (total n : Nat) : Prop :=
  ∀ v : Votes, n ≤ v.yes → WithinPower v total → ShouldPass thr total v true

end Verif.Spec.WholeDao

namespace Verif.WholeDao
open Verif Verif.Voting Verif.Spec Verif.Spec.WholeDao

variable {S E C O : Type} {V : VotingModule S E C O} {decode : Nat → DaoCore.CosmosMsg}

/-- **C87.** What the members have decided for is never recorded as rejected or closed. -/
theorem C87_never_lost (hV : Lawful V) {w : World S} {b : Block} {log : List (Event S E C)}
    (h : (sys V decode).Reach w b log) (hst : Steady log) {id : Nat} {p : Single.Proposal}
    (hp : w.prop.proposals.get id = some p) {b' : Block} (hb : b.le b') (hdec : Decided V log w.vote b' id p) :
    p.status ≠ .rejected ∧ p.status ≠ .closed := by
  obtain ⟨bp, l, hbp, hrl, hll, hpl⟩ := prop_stable hV h hst
  obtain ⟨ht, hv⟩ := Single.C07_tally_is_last_votes hrl hpl hp
  obtain ⟨_, _, yes, no, abstain, ⟨hy1, hy2⟩, ⟨hn1, hn2⟩, ⟨ha1, ha2⟩, hsp⟩ := hdec
  have same : ∀ (v : Vote) (m : List Addr), m.Nodup → (∀ a, a ∈ m ↔ lastVote a id (propLog V log) = some v) →
      countOf p.votes v = powerOf V w.vote p.startHeight m := by
    intro v m hm hmm
    obtain ⟨q, hq1, hq2, hq3⟩ := hv v
    rw [hll] at hq2
    simp only [lastVote_fix] at hq2
    rw [hq3]
    exact sum_same hq1 hm (fun a => by rw [hq2, hmm]) _
  rw [← same .yes yes hy1 hy2, ← same .no no hn1 hn2, ← same .abstain abstain ha1 ha2, ← ht] at hsp
  have key := fun hl => Single.lost_not_met hrl hpl hp hl (Block.le_trans hbp hb) hsp
  exact ⟨fun hs => key (by rw [hs]; trivial), fun hs => key (by rw [hs]; trivial)⟩

/-- **C87.** Without a veto, what the members have decided for has been executed already, or anybody (with members-only
execution, any member) can execute it, whatever happened in between; the DAO then has to send exactly its messages. -/
theorem C87_carried_out (hV : Lawful V) {w : World S} {b : Block} {log : List (Event S E C)}
    (h : (sys V decode).Reach w b log) (hst : Steady log)
    (hnow : w.core.core.voting = some w.voteAddr ∧ w.prop.config.dao = w.core.core.me)
    {id : Nat} {p : Single.Proposal} (hp : w.prop.proposals.get id = some p) (hveto : p.veto = none) {e : Env}
    (hb : b.le e.block) (hdec : Decided V log w.vote e.block id p)
    (hmem : w.prop.config.onlyMembersExecute = true → V.power w.vote e.sender p.startHeight ≠ 0)
    (hpause : DaoCore.isPaused w.core.core e.block = false) (hen : DaoCore.Enabled w.core.core w.propAddr) :
    (p.status = .executed ∨ p.status = .executionFailed) ∨
    ∃ w' out, (sys V decode).step w e (.prop (.execute id false)) = .ok (w', out) ∧
      out.core = p.msgs.map (fun n => .send (decode n)) ∧ w'.core.stack = out.core ++ w.core.stack := by
  obtain ⟨hl1, hl2⟩ := C87_never_lost hV h hst hp hb hdec
  obtain ⟨_, _, hrl⟩ := prop_history h
  obtain ⟨_, hv⟩ := Single.ruleInv_reach hrl id p hp
  obtain ⟨hv1, hv2⟩ := hv hveto
  have key := fun ho => C80_carried_out hV h hst hnow hp ho hveto hdec hmem hpause hen
  cases hs : p.status with
  | opened => exact Or.inr (key (Or.inl hs))
  | passed => exact Or.inr (key (Or.inr hs))
  | executed => exact Or.inl (Or.inl rfl)
  | executionFailed => exact Or.inl (Or.inr rfl)
  | rejected => exact absurd hs hl1
  | closed => exact absurd hs hl2
  | vetoed => exact absurd hs hv1
  | vetoTimelock e => exact absurd hs (hv2 e)

/-- **C87.** Everybody with power at the start of a proposal can vote on it until its voting period is over, once, or
again for something else where votes may be changed. Nothing that happened before stands in the way. -/
theorem C87_vote_accepted (hV : Lawful V) {w : World S} {b : Block} {log : List (Event S E C)}
    (h : (sys V decode).Reach w b log) (hst : Steady log)
    (hnow : w.core.core.voting = some w.voteAddr ∧ w.prop.config.dao = w.core.core.me)
    {id : Nat} {p : Single.Proposal} (hp : w.prop.proposals.get id = some p) {e : Env} {v : Vote} {r : Option Nat}
    (hopen : p.expiration.isExpired e.block = false) (hpow : V.power w.vote e.sender p.startHeight ≠ 0)
    (hlast : lastVote e.sender id (propLog V log) = none ∨
      (p.allowRevoting = true ∧ lastVote e.sender id (propLog V log) ≠ some v)) :
    ∃ w' out, (sys V decode).step w e (.prop (.vote id v r)) = .ok (w', out) := by
  obtain ⟨bp, l, hbp, hrl, hll, hpl⟩ := prop_stable hV h hst
  have hwired : Wired w w.prop.config.dao := ⟨hnow.2, hnow.1⟩
  have hbal := Single.C07_last_vote hrl e.sender id
  rw [hll, lastVote_fix] at hbal
  have hb : w.prop.ballots.get (id, (propEnv V w e).sender) = none ∨ (p.allowRevoting = true ∧ ∃ bal,
      w.prop.ballots.get (id, (propEnv V w e).sender) = some bal ∧ bal.vote ≠ v) := by
    show w.prop.ballots.get (id, e.sender) = none ∨ (p.allowRevoting = true ∧ ∃ bal,
      w.prop.ballots.get (id, e.sender) = some bal ∧ bal.vote ≠ v)
    cases hg : w.prop.ballots.get (id, e.sender) with
    | none => exact Or.inl rfl
    | some bal =>
      rw [hg] at hbal
      rw [← hbal] at hlast
      rcases hlast with hl | ⟨h1, h2⟩
      · cases hl
      · exact Or.inr ⟨h1, bal, rfl, fun hx => h2 (by simp [hx])⟩
  obtain ⟨s', o, hs⟩ := Single.C61_vote_accepted (env := propEnv V w e) (v := v) (r := r) hrl hpl hp hopen
    (by simp only [propEnv, if_pos hwired]) hpow hb
  have hno := Single.execVote_not_exec (s := w.prop) (env := propEnv V w e) (voter := (propEnv V w e).sender) hs
  refine ⟨{ w with prop := s' }, ⟨some o, []⟩, ?_⟩
  simp only [sys, step, hs, ok_bind, passOn, daoFails, Bool.false_eq_true, if_false, handOn_none hno]

theorem sum_sub (f : Addr → Nat) : ∀ (L M : List Addr), L.Nodup → M.Nodup → (∀ a, a ∈ L → a ∈ M) →
    (L.map f).sum ≤ (M.map f).sum := by
  intro L
  induction L with
  | nil => intro M _ _ _; simp
  | cons a L ih =>
    intro M hL hM hs
    rw [List.nodup_cons] at hL
    have h1 := ih (M.erase a) hL.2 (hM.erase a) (fun q hq =>
      (List.Nodup.mem_erase_iff hM).2 ⟨fun he => hL.1 (he ▸ hq), hs q (List.mem_cons_of_mem _ hq)⟩)
    have h2 := (List.perm_cons_erase (hs a (by simp))).map f
    rw [h2.sum_nat]
    simp only [List.map_cons, List.sum_cons]
    omega

/-- **C87.** Nobody can stop a majority: if members with a decisive share of the power stand by their yes, then once the
voting period is over the proposal has been executed or anybody can execute it, whatever the others voted and whatever
anybody did in the meantime. -/
theorem C87_unstoppable (hV : Lawful V) {w : World S} {b : Block} {log : List (Event S E C)}
    (h : (sys V decode).Reach w b log) (hst : Steady log)
    (hnow : w.core.core.voting = some w.voteAddr ∧ w.prop.config.dao = w.core.core.me)
    {id : Nat} {p : Single.Proposal} (hp : w.prop.proposals.get id = some p) (hveto : p.veto = none)
    {ys : List Addr} (hys : ys.Nodup) (hyes : ∀ a ∈ ys, lastVote a id (propLog V log) = some .yes)
    (hwin : Decisive p.threshold (V.total w.vote p.startHeight) (powerOf V w.vote p.startHeight ys)) {e : Env}
    (hb : b.le e.block) (hend : p.expiration.isExpired e.block = true)
    (hmem : w.prop.config.onlyMembersExecute = true → V.power w.vote e.sender p.startHeight ≠ 0)
    (hpause : DaoCore.isPaused w.core.core e.block = false) (hen : DaoCore.Enabled w.core.core w.propAddr) :
    (p.status = .executed ∨ p.status = .executionFailed) ∨
    ∃ w' out, (sys V decode).step w e (.prop (.execute id false)) = .ok (w', out) ∧
      out.core = p.msgs.map (fun n => .send (decode n)) ∧ w'.core.stack = out.core ++ w.core.stack := by
  refine C87_carried_out hV h hst hnow hp hveto hb ?_ hmem hpause hen
  obtain ⟨bp, l, hbp, hrl, hll, hpl⟩ := prop_stable hV h hst
  obtain ⟨ht, hv⟩ := Single.C07_tally_is_last_votes hrl hpl hp
  have hs := Single.sane_prop (Single.inv_reach hrl) (Single.powInv_reach hrl hpl) hpl.bounded hp
  obtain ⟨ly, hy1, hy2, hy3⟩ := hv .yes
  obtain ⟨ln, hn1, hn2, hn3⟩ := hv .no
  obtain ⟨la, ha1, ha2, ha3⟩ := hv .abstain
  rw [hll] at hy2 hn2 ha2
  simp only [lastVote_fix] at hy2 hn2 ha2
  refine ⟨fun _ => hend, fun m hm => (Single.ruleInv_reach hrl id p hp).1 m hm _ hend, ly, ln, la, ⟨hy1, hy2⟩, ⟨hn1, hn2⟩,
    ⟨ha1, ha2⟩, ?_⟩
  simp only [countOf] at hy3 hn3 ha3
  simp only [powerOf]
  rw [hend, ← hy3, ← hn3, ← ha3]
  refine hwin _ ?_ (by rw [← ht]; exact hs.fits)
  rw [hy3]
  exact sum_sub _ ys ly hys hy1 (fun a ha => (hy2 a).2 (hyes a ha))

/-! ### From any state -/

theorem alive_current {p : Single.Proposal} {b : Block} {st : Status} (hv : p.veto = none)
    (h : p.status = .opened ∨ p.status = .passed ∨ p.status = .rejected) (hc : p.currentStatus b = .ok st) :
    st = .opened ∨ st = .passed ∨ st = .rejected := by
  unfold Single.Proposal.currentStatus at hc
  split at hc
  · simp only [bind_ok, hv] at hc
    obtain ⟨passed, _, hc⟩ := hc
    split at hc
    · injection hc with hc; subst hc; simp
    · split at hc
      · injection hc with hc; subst hc; simp
      · simp only [bind_ok] at hc
        obtain ⟨r, _, hc⟩ := hc
        split at hc <;> injection hc with hc <;> subst hc <;> simp
  · rename_i e he; rw [he] at h; simp at h
  · injection hc with hc; subst hc; exact h

/-- What stays as it was while votes are cast. -/
structure Still (w w' : World S) : Prop where
  core : w'.core = w.core
  vote : w'.vote = w.vote
  propAddr : w'.propAddr = w.propAddr
  voteAddr : w'.voteAddr = w.voteAddr
  config : w'.prop.config = w.prop.config

theorem Still.trans {w w' w'' : World S} (h : Still w w') (h' : Still w' w'') : Still w w'' :=
  ⟨h'.1.trans h.1, h'.2.trans h.2, h'.3.trans h.3, h'.4.trans h.4, h'.5.trans h.5⟩

/-- Casting the votes of a list, one after the other, in one block. -/
theorem votes_run (hV : Lawful V) (e : Env) (id : Nat) : ∀ (ys : List Addr) {w : World S} {log : List (Event S E C)}
    {p : Single.Proposal}, (sys V decode).Reach w e.block log → Steady log →
    (w.core.core.voting = some w.voteAddr ∧ w.prop.config.dao = w.core.core.me) →
    w.prop.proposals.get id = some p → p.veto = none →
    (p.status = .opened ∨ p.status = .passed ∨ p.status = .rejected) → p.expiration.isExpired e.block = false →
    ys.Nodup → (∀ a ∈ ys, V.power w.vote a p.startHeight ≠ 0 ∧ lastVote a id (propLog V log) = none) →
    ∃ w' l p', (sys V decode).Run w e.block l w' e.block ∧ Steady (l ++ log) ∧ Still w w' ∧
      l.map (fun ev => (ev.env, ev.call)) =
        ys.reverse.map (fun a => ({ e with sender := a }, Call.prop (.vote id .yes none))) ∧
      w'.prop.proposals.get id = some p' ∧ Single.SameRules p p' ∧
      (p'.status = .opened ∨ p'.status = .passed ∨ p'.status = .rejected) ∧
      ∀ a, lastVote a id (propLog V (l ++ log)) = if a ∈ ys then some .yes else lastVote a id (propLog V log) := by
  intro ys
  induction ys with
  | nil =>
    intro w log p h hst hnow hp hveto hal hopen _ _
    exact ⟨w, [], p, .refl, hst, ⟨rfl, rfl, rfl, rfl, rfl⟩, rfl, hp, .refl _, hal, by simp⟩
  | cons a ys ih =>
    intro w log p h hst hnow hp hveto hal hopen hnd hy
    rw [List.nodup_cons] at hnd
    obtain ⟨hpow, hlast⟩ := hy a (by simp)
    obtain ⟨w1, out, hs⟩ := C87_vote_accepted hV h hst hnow hp (e := { e with sender := a }) (v := .yes) (r := none)
      hopen hpow (Or.inl hlast)
    replace hs : step V decode w { e with sender := a } (.prop (.vote id .yes none)) = .ok (w1, out) := hs
    obtain ⟨⟨o, ho, hps⟩, hvote, hpa, hva, hc⟩ := prop_effect (decode := decode) hs
    have hcore : w1.core = w.core := by
      rcases hc with hc | ⟨_, _, hc, _⟩
      · exact hc.1
      · cases hc
    obtain ⟨q, power, wd, votes, st, hq, _, _, _, _, _, _, hcur, hw1, _⟩ := Single.execVote_inv (show Single.execVote
      w.prop (propEnv V w { e with sender := a }) a id .yes none = .ok (w1.prop, o) from hps)
    rw [hp] at hq; injection hq with hq; subst hq
    have hcfg : w1.prop.config = w.prop.config := by rw [hw1]
    have hget : w1.prop.proposals.get id = some { p with votes := votes, status := st } := by
      rw [hw1]; simp only [AMap.get_set_self]
    have hreach := Sys.Reach.step (M := sys V decode) (env := { e with sender := a })
      (call := .prop (.vote id .yes none)) (out := out) h (Block.le_refl _) hs
    have hst1 : Steady ((⟨w, { e with sender := a }, .prop (.vote id .yes none), out, w1⟩ : Event S E C) :: log) := by
      intro ev hev
      rcases List.mem_cons.1 hev with rfl | hev
      · exact hnow
      · exact hst ev hev
    have hpl : propLog V ((⟨w, { e with sender := a }, .prop (.vote id .yes none), out, w1⟩ : Event S E C) :: log) =
        ⟨w.prop, propEnv V w { e with sender := a }, .vote id .yes none, o, w1.prop⟩ :: propLog V log := by
      simp only [propLog, ho]
    have hlv : ∀ x, lastVote x id (propLog V ((⟨w, { e with sender := a }, .prop (.vote id .yes none), out, w1⟩ :
        Event S E C) :: log)) = if a = x then some .yes else lastVote x id (propLog V log) := by
      intro x
      rw [hpl]
      simp only [lastVote, ballotCast, propEnv, and_true]
    obtain ⟨w2, l, p', hr, hst2, hstill, hl, hget', hsr, hal', hlast'⟩ := ih
      (p := { p with votes := votes, status := st }) hreach hst1 ⟨by rw [hcore, hva]; exact hnow.1,
        by rw [hcfg, hcore]; exact hnow.2⟩ hget hveto
      (alive_current (p := { p with votes := votes }) hveto hal hcur) hopen hnd.2 (by
        intro x hx
        have hax : a ≠ x := fun he => hnd.1 (he ▸ hx)
        rw [hvote, hlv, if_neg hax]
        exact hy x (List.mem_cons_of_mem _ hx))
    refine ⟨w2, l ++ [⟨w, { e with sender := a }, .prop (.vote id .yes none), out, w1⟩], p', ?_, ?_,
      Still.trans ⟨hcore, hvote, hpa, hva, hcfg⟩ hstill, ?_, hget', ?_, hal', ?_⟩
    · exact (Sys.Run.step (M := sys V decode) (env := { e with sender := a })
        (call := .prop (.vote id .yes none)) (out := out) .refl (Block.le_refl _) hs).append hr
    · rw [List.append_assoc]; exact hst2
    · rw [List.map_append, hl, List.reverse_cons, List.map_append]; rfl
    · exact ⟨hsr.1, hsr.2, hsr.3, hsr.4, hsr.5, hsr.6, hsr.7, hsr.8, hsr.9, hsr.10⟩
    · intro x
      rw [List.append_assoc]
      show lastVote x id (propLog V (l ++ ((⟨w, { e with sender := a }, .prop (.vote id .yes none), out, w1⟩ :
        Event S E C) :: log))) = _
      rw [hlast', hlv]
      by_cases h1 : x ∈ ys
      · simp [h1]
      · by_cases h2 : a = x
        · subst h2; simp
        · simp [h1, h2, Ne.symm h2]

/-- Proposing, in a block above the last one. -/
theorem propose_step (hV : Lawful V) {w : World S} {b : Block} {log : List (Event S E C)}
    (h : (sys V decode).Reach w b log)
    (hnow : w.core.core.voting = some w.voteAddr ∧ w.prop.config.dao = w.core.core.me)
    {g : Option Addr} {proposer : Addr} {e : Env} (hper : w.prop.policy.isPermitted e.sender = true)
    (hres : Single.resolveProposer g w.prop.policy e.sender = .ok proposer) (hveto : w.prop.config.veto = none) (hid : w.prop.count + 1 < U64)
    (htot : V.totalWeight w.vote < U128) (hb : b.height < e.block.height) (hact : e.active = true)
    (content : Nat) (msgs : List Nat) :
    ∃ w' out o st, step V decode w e (.prop (.propose g content msgs none true)) = .ok (w', out) ∧
      out.prop = some o ∧ Still w w' ∧
      w'.prop.proposals.get (w.prop.count + 1) =
        some { Single.freshProposal w.prop.config e.block proposer content msgs (V.totalWeight w.vote) with status := st } ∧
      (st = .opened ∨ st = .passed ∨ st = .rejected) := by
  have hwired : Wired w w.prop.config.dao := ⟨hnow.2, hnow.1⟩
  obtain ⟨_, _, hrl⟩ := prop_history h
  have hi := Single.inv_reach hrl
  have hT : V.total w.vote e.block.height = V.totalWeight w.vote :=
    (C80_weights hV h .refl hb (by simp)).2
  have hq : Single.queryTotal (propEnv V w e) w.prop.config.dao e.block.height = .ok (V.totalWeight w.vote) := by
    unfold Single.queryTotal
    simp only [propEnv, if_pos hwired, hT, if_pos htot]
  obtain ⟨hthr, _⟩ := Single.validateConfig_parts hi.cfg
  obtain ⟨st, hcur⟩ := Single.currentStatus_total (p := Single.freshProposal w.prop.config e.block proposer content msgs
    (V.totalWeight w.vote)) ⟨Nat.zero_le _, htot, hthr⟩ (fun v hv => by
      rw [show (Single.freshProposal w.prop.config e.block proposer content msgs (V.totalWeight w.vote)).veto =
        w.prop.config.veto from rfl, hveto] at hv
      cases hv) e.block
  have hps : Single.step w.prop (propEnv V w e) (.propose g content msgs none true) =
      .ok ({ w.prop with
        count := w.prop.count + 1
        proposals := w.prop.proposals.set (w.prop.count + 1)
          { Single.freshProposal w.prop.config e.block proposer content msgs (V.totalWeight w.vote) with status := st } },
        { msgs := Single.newProposalHooks w.prop.proposalHooks (w.prop.count + 1) proposer
          newId := some (w.prop.count + 1) }) := by
    have hadd : add64 w.prop.count 1 = .ok (w.prop.count + 1) := (add64_ok _ _ _).2 ⟨hid, rfl⟩
    have hup : (Single.freshProposal w.prop.config e.block proposer content msgs (V.totalWeight w.vote)).updateStatus e.block =
        .ok { Single.freshProposal w.prop.config e.block proposer content msgs (V.totalWeight w.vote) with status := st } :=
      Single.updateStatus_ok.2 ⟨st, hcur, rfl⟩
    simp only [Single.step, Single.execPropose]
    rw [show (propEnv V w e).active = true from hact, show (propEnv V w e).block = e.block from rfl, hq,
      show (propEnv V w e).sender = e.sender from rfl, hper, hres]
    simp only [require, if_true, ok_bind, hup, hadd]
  have hno : ∀ m ∈ Single.newProposalHooks w.prop.proposalHooks (w.prop.count + 1) proposer,
      isExecuteOnDao m.msg = false := Single.hooks_not_exec
  have hstep : ∀ s' o, Single.step w.prop (propEnv V w e) (.propose g content msgs none true) = .ok (s', o) →
      (∀ m ∈ o.msgs, isExecuteOnDao m.msg = false) →
      step V decode w e (.prop (.propose g content msgs none true)) = .ok ({ w with prop := s' }, ⟨some o, []⟩) := by
    intro s' o hs hno
    simp only [step, hs, ok_bind, passOn, daoFails, Bool.false_eq_true, if_false, handOn_none hno]
  have halive := alive_current (p := Single.freshProposal w.prop.config e.block proposer content msgs
    (V.totalWeight w.vote)) hveto (Or.inl rfl) hcur
  have := hstep _ _ hps hno
  exact ⟨_, _, _, st, this, rfl, ⟨rfl, rfl, rfl, rfl, rfl⟩, by simp only [AMap.get_set_self], halive⟩

/-- What follows a proposal: the members vote, and it is executed. -/
theorem after_proposed (hV : Lawful V) {w w1 : World S} {b : Block} {log : List (Event S E C)}
    (h : (sys V decode).Reach w b log) (hst : Steady log)
    (hnow : w.core.core.voting = some w.voteAddr ∧ w.prop.config.dao = w.core.core.me)
    (hveto : w.prop.config.veto = none) {e : Env} (hb : b.le e.block) (hlater : b.height < e.block.height)
    (hopen : (w.prop.config.maxVotingPeriod.after e.block).isExpired e.block = false)
    {g : Option Addr} {proposer : Addr} {content : Nat} {msgs : List Nat} {out1 : Out} {o1 : Single.Out} {st : Status}
    (hs1 : step V decode w e (.prop (.propose g content msgs none true)) = .ok (w1, out1)) (ho1 : out1.prop = some o1)
    (hstill1 : Still w w1)
    (hget1 : w1.prop.proposals.get (w.prop.count + 1) =
      some { Single.freshProposal w.prop.config e.block proposer content msgs (V.totalWeight w.vote) with status := st })
    (hal1 : st = .opened ∨ st = .passed ∨ st = .rejected)
    {ys : List Addr} (hys : ys.Nodup) (hstake : ∀ a ∈ ys, V.weight w.vote a ≠ 0)
    (hwin : ShouldPass w.prop.config.threshold (V.totalWeight w.vote) ⟨(ys.map (V.weight w.vote)).sum, 0, 0⟩ true)
    {f : Env} (hf : e.block.le f.block) (hend : (w.prop.config.maxVotingPeriod.after e.block).isExpired f.block = true)
    (hmem : w.prop.config.onlyMembersExecute = true → V.weight w.vote f.sender ≠ 0)
    (hpause : DaoCore.isPaused w.core.core f.block = false) (hen : DaoCore.Enabled w.core.core w.propAddr) :
    ∃ w2 l2 w3 out3, (sys V decode).Run w1 e.block l2 w2 e.block ∧
      l2.map (fun ev => (ev.env, ev.call)) =
        ys.reverse.map (fun a => ({ e with sender := a }, Call.prop (.vote (w.prop.count + 1) .yes none))) ∧
      step V decode w2 f (.prop (.execute (w.prop.count + 1) false)) = .ok (w3, out3) ∧
      out3.core = msgs.map (fun n => DaoCore.Sub.send (decode n)) ∧
      w3.core.stack = msgs.map (fun n => DaoCore.Sub.send (decode n)) ++ w.core.stack := by
  have hr1 := Sys.Run.step (M := sys V decode) (env := e) (call := .prop (.propose g content msgs none true))
    (out := out1) .refl hb hs1
  have hreach1 := h.run hr1
  have hst1 : Steady (([⟨w, e, .prop (.propose g content msgs none true), out1, w1⟩] : List (Event S E C)) ++ log) := by
    intro ev hev
    rcases List.mem_cons.1 hev with rfl | hev
    · exact hnow
    · exact hst ev hev
  have hnow1 : w1.core.core.voting = some w1.voteAddr ∧ w1.prop.config.dao = w1.core.core.me := by
    rw [hstill1.core, hstill1.voteAddr, hstill1.config]; exact hnow
  obtain ⟨hpw, htw⟩ := C80_weights hV h hr1 hlater (by
    intro ev hev
    rw [List.mem_singleton.1 hev]
    exact Nat.le_refl _)
  have hpl1 : propLog V (([⟨w, e, .prop (.propose g content msgs none true), out1, w1⟩] : List (Event S E C)) ++ log) =
      ⟨w.prop, propEnv V w e, .propose g content msgs none true, o1, w1.prop⟩ :: propLog V log := by
    simp only [List.cons_append, List.nil_append, propLog, ho1]
  have hnone : ∀ a, lastVote a (w.prop.count + 1) (propLog V (([⟨w, e, .prop (.propose g content msgs none true),
      out1, w1⟩] : List (Event S E C)) ++ log)) = none := by
    intro a
    obtain ⟨_, _, hrl⟩ := prop_history h
    rw [hpl1]
    simp only [lastVote, ballotCast]
    rw [← Single.C07_last_vote hrl]
    cases hg : w.prop.ballots.get (w.prop.count + 1, a) with
    | none => rfl
    | some bal =>
      have h1 := (Single.inv_reach hrl).bal _ _ _ hg
      have h2 := ((Single.inv_reach hrl).ids _).1 h1
      omega
  obtain ⟨w2, l2, p, hr2, hst2, hstill2, hl2, hget2, hsr, hal2, hlast2⟩ := votes_run (decode := decode) hV e
    (w.prop.count + 1) ys hreach1 hst1 hnow1 hget1 hveto hal1 hopen hys (by
      intro a ha
      exact ⟨by rw [show (Single.freshProposal w.prop.config e.block proposer content msgs
        (V.totalWeight w.vote)).startHeight = e.block.height from rfl, hpw]; exact hstake a ha, hnone a⟩)
  have hstill := hstill1.trans hstill2
  have hreach2 := hreach1.run hr2
  have hpwr : ∀ a, V.power w2.vote a p.startHeight = V.weight w.vote a := by
    intro a
    rw [hstill2.vote, hsr.startHeight]; exact hpw a
  have htwr : V.total w2.vote p.startHeight = V.totalWeight w.vote := by
    rw [hstill2.vote, hsr.startHeight]; exact htw
  have hx : p.expiration.isExpired f.block = true := by rw [hsr.expiration]; exact hend
  obtain ⟨_, _, hrl2⟩ := prop_history hreach2
  have hdec : Decided V (l2 ++ ([⟨w, e, .prop (.propose g content msgs none true), out1, w1⟩] ++ log)) w2.vote f.block
      (w.prop.count + 1) p := by
    refine ⟨fun _ => hx, fun m hm => (Single.ruleInv_reach hrl2 _ p hget2).1 m hm _ hx, ys, [], [], ⟨hys, fun a => ?_⟩,
      ⟨List.nodup_nil, fun a => ?_⟩, ⟨List.nodup_nil, fun a => ?_⟩, ?_⟩
    · rw [hlast2, hnone]; by_cases ha : a ∈ ys <;> simp [ha]
    · rw [hlast2, hnone]; by_cases ha : a ∈ ys <;> simp [ha]
    · rw [hlast2, hnone]; by_cases ha : a ∈ ys <;> simp [ha]
    · rw [hx, htwr, hsr.threshold]
      simp only [powerOf, hpwr]
      exact hwin
  have hfin := C87_carried_out hV hreach2 hst2 ⟨by rw [hstill.core, hstill.voteAddr]; exact hnow.1,
      by rw [hstill.core, hstill.config]; exact hnow.2⟩ hget2 (by rw [hsr.veto]; exact hveto) (e := f) hf hdec
    (by rw [hstill.config, hpwr]; exact hmem) (by rw [hstill.core]; exact hpause)
    (by rw [hstill.core, hstill.propAddr]; exact hen)
  rcases hfin with hfin | ⟨w3, out3, hs3, ho3, hstk⟩
  · rcases hfin with hfin | hfin <;> rw [hfin] at hal2 <;> simp at hal2
  · have hmsgs : p.msgs = msgs := hsr.msgs
    rw [hmsgs] at ho3
    rw [hstill.core, ho3] at hstk
    exact ⟨w2, l2, w3, out3, hr2, hl2, hs3, ho3, hstk⟩

/-- **C87.** A majority can always act. In any reachable state of a DAO in which anybody may propose, without a veto,
take members whose stakes suffice for the threshold of the DAO. In any later block somebody can make a proposal with
messages of their choice, the members can vote yes, all in the same block, and once the voting period is over anybody
can execute it: all these calls succeed, and the DAO then has to send exactly these messages, before anything else. -/
theorem C87_majority_acts (hV : Lawful V) {w : World S} {b : Block} {log : List (Event S E C)}
    (h : (sys V decode).Reach w b log) (hst : Steady log)
    (hnow : w.core.core.voting = some w.voteAddr ∧ w.prop.config.dao = w.core.core.me)
    (hpol : w.prop.policy = .anyone) (hveto : w.prop.config.veto = none) (hid : w.prop.count + 1 < U64)
    (htot : V.totalWeight w.vote < U128)
    -- the block of the proposal and the votes, in which the voting period is not over already
    {e : Env} (hb : b.le e.block) (hlater : b.height < e.block.height) (hact : e.active = true)
    (hopen : (w.prop.config.maxVotingPeriod.after e.block).isExpired e.block = false)
    -- the members
    {ys : List Addr} (hys : ys.Nodup) (hstake : ∀ a ∈ ys, V.weight w.vote a ≠ 0)
    (hwin : ShouldPass w.prop.config.threshold (V.totalWeight w.vote) ⟨(ys.map (V.weight w.vote)).sum, 0, 0⟩ true)
    -- the block of the execution
    {f : Env} (hf : e.block.le f.block) (hend : (w.prop.config.maxVotingPeriod.after e.block).isExpired f.block = true)
    (hmem : w.prop.config.onlyMembersExecute = true → V.weight w.vote f.sender ≠ 0)
    (hpause : DaoCore.isPaused w.core.core f.block = false) (hen : DaoCore.Enabled w.core.core w.propAddr)
    (content : Nat) (msgs : List Nat) :
    ∃ w' log', (sys V decode).Run w b log' w' f.block ∧
      log'.map (fun ev => (ev.env, ev.call)) =
        (f, .prop (.execute (w.prop.count + 1) false)) ::
        (ys.reverse.map (fun a => ({ e with sender := a }, Call.prop (.vote (w.prop.count + 1) .yes none))) ++
        [(e, .prop (.propose none content msgs none true))]) ∧
      log'.head?.map (fun ev => ev.out.core) = some (msgs.map (fun n => DaoCore.Sub.send (decode n))) ∧
      w'.core.stack = msgs.map (fun n => DaoCore.Sub.send (decode n)) ++ w.core.stack := by
  obtain ⟨w1, out1, o1, st, hs1, ho1, hstill1, hget1, hal1⟩ := propose_step (decode := decode) (g := none) (proposer := e.sender)
    (e := e) hV h hnow (by rw [hpol]; rfl) (by rw [hpol]; rfl) hveto hid htot hlater hact content msgs
  obtain ⟨w2, l2, w3, out3, hr2, hl2, hs3, ho3, hstk⟩ := after_proposed hV h hst hnow hveto hb hlater hopen hs1 ho1 hstill1
    hget1 hal1 hys hstake hwin hf hend hmem hpause hen
  have hr1 := Sys.Run.step (M := sys V decode) (env := e) (call := .prop (.propose none content msgs none true))
    (out := out1) .refl hb hs1
  refine ⟨w3, _, Sys.Run.step (M := sys V decode) (env := f) (call := .prop (.execute (w.prop.count + 1) false))
    (out := out3) (hr1.append hr2) hf hs3, ?_, ?_, hstk⟩
  · simp only [List.map_cons, List.map_append, hl2, List.map_nil]
  · simp only [List.head?_cons, Option.map_some, ho3]

end Verif.WholeDao

namespace Verif.WholeDao
open Verif Verif.Voting Verif.Spec Verif.Spec.WholeDao

variable {S E C O : Type} {V : VotingModule S E C O} {decode : Nat → DaoCore.CosmosMsg}

/-- **C87.** More than half of all power decides, where a majority of all is asked for. -/
theorem C87_half_decides {total n : Nat} (h : total < 2 * n) : Decisive (.absolutePercentage .majority) total n := by
  intro v hv hw
  unfold WithinPower at hw
  simp only [ShouldPass, Meets]
  omega

/-- **C87.** More than half of all power decides, where a majority of those who vote is asked for, if it is enough for
the quorum. -/
theorem C87_half_decides_quorum {total n : Nat} {q : PercentageThreshold} (h : total < 2 * n) (hq : Meets n total q) :
    Decisive (.thresholdQuorum .majority q) total n := by
  intro v hv hw
  unfold WithinPower at hw
  simp only [ShouldPass, Meets, if_true]
  refine ⟨?_, by omega⟩
  cases q with
  | majority => simp only [Meets] at hq ⊢; omega
  | percent a =>
    simp only [Meets] at hq ⊢
    exact ⟨hq.1, Nat.le_trans hq.2 (Nat.mul_le_mul_right _ (by omega))⟩

/-- **C87.** A voting period of zero, which the contract accepts, silences everybody: on a proposal made under it nobody
can ever vote. -/
theorem C87_zero_period {w w1 w2 : World S} {b b2 : Block} {log l : List (Event S E C)}
    (h : (sys V decode).Reach w b log)
    (hz : w.prop.config.maxVotingPeriod = .height 0 ∨ w.prop.config.maxVotingPeriod = .time 0) {e : Env}
    (hb : b.le e.block) {content : Nat} {msgs : List Nat} {g : Option Addr} {vote : Option (Vote × Option Nat)} {z : Bool}
    {out : Out} (hs : (sys V decode).step w e (.prop (.propose g content msgs vote z)) = .ok (w1, out))
    (hr : (sys V decode).Run w1 e.block l w2 b2) {f : Env} (hf : b2.le f.block) (v : Vote) (r : Option Nat) :
    vote = none ∧ ¬ ∃ x, (sys V decode).step w2 f (.prop (.vote (w.prop.count + 1) v r)) = .ok x := by
  have hr1 := Sys.Run.step (M := sys V decode) (env := e) (call := .prop (.propose g content msgs vote z)) (out := out)
    .refl hb hs
  have hzero : ∀ b', e.block.le b' → (w.prop.config.maxVotingPeriod.after e.block).isExpired b' = true := by
    intro b' hle
    rcases hz with hz | hz <;> rw [hz] <;> simp only [Duration.after, Expiration.isExpired, decide_eq_true_eq]
    · exact hle.1
    · have := hle.2; omega
  replace hs : step V decode w e (.prop (.propose g content msgs vote z)) = .ok (w1, out) := hs
  obtain ⟨⟨o, ho, hps⟩, _⟩ := prop_effect (decode := decode) hs
  obtain ⟨proposer, total, st, s1, _, _, _, _, _, _, _, hs1, _, hv⟩ := Single.execPropose_inv (show Single.execPropose
    w.prop (propEnv V w e) g content msgs vote z = .ok (w1.prop, o) from hps)
  have hget : s1.proposals.get (w.prop.count + 1) =
      some { Single.freshProposal w.prop.config e.block proposer content msgs total with status := st } := by
    rw [hs1]; simp only [AMap.get_set_self]; rfl
  rcases hv with ⟨hv, hw1, _⟩ | ⟨v', r', o', hv, hx, _⟩
  · refine ⟨hv, ?_⟩
    rintro ⟨⟨w3, out3⟩, hs3⟩
    rw [← hw1] at hget
    obtain ⟨_, _, hrl⟩ := prop_history (h.run hr1)
    have hreach2 := (h.run hr1).run hr
    -- the proposal keeps its expiration
    have keep : ∀ {w2 : World S} {b2 : Block} {l : List (Event S E C)}, (sys V decode).Run w1 e.block l w2 b2 →
        ∃ p, w2.prop.proposals.get (w.prop.count + 1) = some p ∧
          p.expiration = w.prop.config.maxVotingPeriod.after e.block := by
      intro w2 b2 l hr
      induction hr with
      | refl => exact ⟨_, hget, rfl⟩
      | @step s1 s2 b3 log' env call out hr hb3 hs ih =>
        obtain ⟨p, hp, hx⟩ := ih
        obtain ⟨_, _, hrl⟩ := prop_history ((h.run hr1).run hr)
        cases call with
        | core c =>
          obtain ⟨_, _, hw, _⟩ := core_effect (V := V) (decode := decode) hs
          rw [hw]; exact ⟨p, hp, hx⟩
        | vote ve c =>
          obtain ⟨_, _, hw, _⟩ := vote_effect (decode := decode) hs
          rw [hw]; exact ⟨p, hp, hx⟩
        | prop c =>
          obtain ⟨⟨o, ho, hps⟩, _⟩ := prop_effect (decode := decode) hs
          obtain ⟨p', hp', hsr, _⟩ := Single.run_prop (.step (b := env.block) (env := propEnv V s1 env) .refl
            (Block.le_refl _) hps) (Single.inv_reach hrl) hp
          exact ⟨p', hp', by rw [hsr.expiration]; exact hx⟩
    obtain ⟨p, hp, hx⟩ := keep hr
    replace hs3 : step V decode w2 f (.prop (.vote (w.prop.count + 1) v r)) = .ok (w3, out3) := hs3
    obtain ⟨⟨o3, _, hps3⟩, _⟩ := prop_effect (decode := decode) hs3
    obtain ⟨q, _, _, _, _, hq, hexp, _⟩ := Single.execVote_inv (show Single.execVote
      w2.prop (propEnv V w2 f) f.sender (w.prop.count + 1) v r = .ok (w3.prop, o3) from hps3)
    rw [hp] at hq; injection hq with hq; subst hq
    rw [hx, show (propEnv V w2 f).block = f.block from rfl, hzero _ (Block.le_trans hr.block_le hf)] at hexp
    cases hexp
  · exfalso
    obtain ⟨q, _, _, _, _, hq, hexp, _⟩ := Single.execVote_inv hx
    rw [hget] at hq; injection hq with hq; subst hq
    rw [show (propEnv V w e).block = e.block from rfl] at hexp
    have := hzero e.block (Block.le_refl _)
    simp only [Single.freshProposal] at hexp
    rw [this] at hexp; cases hexp

end Verif.WholeDao
