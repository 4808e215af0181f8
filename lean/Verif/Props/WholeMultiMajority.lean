import Verif.Props.WholeMultiOne
import Verif.Props.WholeDaoMajority
import Verif.Proofs.MultipleReject
/-!
# C104: a majority can always act in a DAO with a multiple choice module, and nobody can stop it
-/

namespace Verif.Spec.WholeMulti
open Verif Verif.Voting Verif.WholeMulti

/-- With `n` of `total` behind it an option wins at the end of the voting period, whatever the rest of the power is
behind: the quorum is met and every other option has less. -/
def Decisive (quorum : PercentageThreshold) (total n : Nat) : Prop :=
  ∀ (k i : Nat) (f : Nat → Nat), i < k → n ≤ f i → castSum k f ≤ total →
    Meets (castSum k f) total quorum ∧ ∀ j, j < k → j ≠ i → f j < f i

end Verif.Spec.WholeMulti

namespace Verif.WholeMulti
open Verif
open Verif.Voting hiding Vote Votes
open Verif.Spec hiding StablePowers isExecuteOf isExecuteOnDao lastVote ballotCast
open Verif.Spec.WholeMulti Verif.Spec.Multi
open Verif.WholeDao (VotingModule sum_sub)
open Verif.Spec.WholeDao (Lawful)

variable {S E C O : Type} {V : VotingModule S E C O} {N : TotalNow S} {decode : Nat → DaoCore.CosmosMsg}

/-- **C104.** A proposal for one option of which the members have decided is never recorded as rejected or closed. -/
theorem C104_never_lost (hV : Lawful V) {w : World S} {b : Block} {log : List (Event S E C)}
    (h : (sys V N decode).Reach w b log) (hst : Steady log) {id i : Nat}
    {p : Multiple.Proposal} (hp : w.prop.proposals.get id = some p)
    (htot : p.totalPower = V.total w.vote p.startHeight) {b' : Block} (hb : b.le b')
    (hdec : Decided V N log w.vote b' id p i) : p.status ≠ .rejected ∧ p.status ≠ .closed := by
  obtain ⟨bp, l, hbp, hrl, hll, hpl, hbd⟩ := prop_one hV h hst
  obtain ⟨hs, _⟩ := tally_one hV h hst hp htot
  obtain ⟨hpass, _⟩ := decided_passed_one hV h hst hp htot hdec
  obtain ⟨r, hr1, hr2⟩ := Multiple.isPassed_spec hs b'
  rw [hpass] at hr1
  injection hr1 with hr1
  have key := fun hl => Multiple.lost_not_passed_one hrl hpl hbd hp htot hl (Block.le_trans hbp hb) (hr2.1 hr1.symm)
  exact ⟨fun hs => key (by rw [hs]; trivial), fun hs => key (by rw [hs]; trivial)⟩

/-- **C104.** What the members have decided for is carried out or still can be: unless the proposal has been executed
already, anybody (with members-only execution, any member) can execute it, whatever happened in between; the DAO then has
to send exactly the messages of the option decided for. -/
theorem C104_carried_out (hV : Lawful V) {w : World S} {b : Block} {log : List (Event S E C)}
    (h : (sys V N decode).Reach w b log) (hst : Steady log)
    (hnow : w.core.core.voting = some w.voteAddr ∧ w.prop.config.dao = w.core.core.me)
    {id i : Nat} {p : Multiple.Proposal} (hp : w.prop.proposals.get id = some p)
    (htot : p.totalPower = V.total w.vote p.startHeight) (hveto : p.veto = none) {e : Env}
    (hb : b.le e.block) (hdec : Decided V N log w.vote e.block id p i)
    (hmem : w.prop.config.onlyMembersExecute = true → V.power w.vote e.sender p.startHeight ≠ 0)
    (hpause : DaoCore.isPaused w.core.core e.block = false) (hen : DaoCore.Enabled w.core.core w.propAddr) :
    (p.status = .executed ∨ p.status = .executionFailed) ∨
    ∃ c w' out, p.choices[i]? = some c ∧ (sys V N decode).step w e (.prop (.execute id false)) = .ok (w', out) ∧
      out.core = c.msgs.map (fun n => .send (decode n)) ∧ w'.core.stack = out.core ++ w.core.stack := by
  obtain ⟨hl1, hl2⟩ := C104_never_lost hV h hst hp htot hb hdec
  obtain ⟨_, _, hrl⟩ := prop_history h
  obtain ⟨_, hv⟩ := Multiple.ruleInv_reach hrl id p hp
  obtain ⟨hv1, hv2⟩ := hv hveto
  have key := fun ho => C81_carried_out_one hV h hst hnow hp htot ho hveto hdec hmem hpause hen
  cases hs : p.status with
  | opened => exact Or.inr (key (Or.inl hs))
  | passed => exact Or.inr (key (Or.inr hs))
  | executed => exact Or.inl (Or.inl rfl)
  | executionFailed => exact Or.inl (Or.inr rfl)
  | rejected => exact absurd hs hl1
  | closed => exact absurd hs hl2
  | vetoed => exact absurd hs hv1
  | vetoTimelock e => exact absurd hs (hv2 e)

/-- **C104.** Everybody with power at the start of a proposal can vote for any of its options until its voting period is
over, once, or again for something else where votes may be changed. Nothing that happened before stands in the way. -/
theorem C104_vote_accepted (hV : Lawful V) {w : World S} {b : Block} {log : List (Event S E C)}
    (h : (sys V N decode).Reach w b log) (hst : Steady log)
    (hnow : w.core.core.voting = some w.voteAddr ∧ w.prop.config.dao = w.core.core.me)
    {id v : Nat} {p : Multiple.Proposal} (hp : w.prop.proposals.get id = some p)
    (htot : p.totalPower = V.total w.vote p.startHeight) {e : Env} {r : Option Nat}
    (hv : v < p.choices.length)
    (hopen : p.expiration.isExpired e.block = false) (hpow : V.power w.vote e.sender p.startHeight ≠ 0)
    (hlast : lastVote e.sender id (propLog V N log) = none ∨
      (p.allowRevoting = true ∧ lastVote e.sender id (propLog V N log) ≠ some v)) :
    ∃ w' out, (sys V N decode).step w e (.prop (.vote id v r)) = .ok (w', out) := by
  obtain ⟨bp, l, hbp, hrl, hll, hpl, hbd⟩ := prop_one hV h hst
  have hwired : Wired w w.prop.config.dao := ⟨hnow.2, hnow.1⟩
  have hbal := Multiple.C07_last_vote hrl e.sender id
  rw [hll, lastVote_pow] at hbal
  have hb : w.prop.ballots.get (id, (propEnv V N w e).sender) = none ∨ (p.allowRevoting = true ∧ ∃ bal,
      w.prop.ballots.get (id, (propEnv V N w e).sender) = some bal ∧ bal.vote ≠ v) := by
    show w.prop.ballots.get (id, e.sender) = none ∨ (p.allowRevoting = true ∧ ∃ bal,
      w.prop.ballots.get (id, e.sender) = some bal ∧ bal.vote ≠ v)
    cases hg : w.prop.ballots.get (id, e.sender) with
    | none => exact Or.inl rfl
    | some bal =>
      rw [hg] at hbal
      rw [← hbal] at hlast
      rcases hlast with hl | ⟨h1, h2⟩
      · cases hl
      · exact Or.inr ⟨h1, bal, rfl, fun hx => h2 (by simp [hx])⟩
  obtain ⟨s', o, hs⟩ := Multiple.C61_vote_accepted_one (env := propEnv V N w e) (v := v) (r := r) hrl hpl hbd hp htot hv hopen
    (by simp only [propEnv, if_pos hwired]) hpow hb
  have hno := Multiple.execVote_not_exec (s := w.prop) (env := propEnv V N w e) (voter := (propEnv V N w e).sender) hs
  refine ⟨{ w with prop := s' }, ⟨some o, []⟩, ?_⟩
  simp only [sys, step, hs, ok_bind, passOn, daoFails, Bool.false_eq_true, if_false, handOn_none hno]

/-- **C104.** Nobody can stop a majority: if members with a decisive share of the power stand by an option, not "none of
the above", then once the voting period is over the proposal has been executed or anybody can execute it, with the
messages of this option, whatever the others voted and whatever anybody did in the meantime. -/
theorem C104_unstoppable (hV : Lawful V) {w : World S} {b : Block} {log : List (Event S E C)}
    (h : (sys V N decode).Reach w b log) (hst : Steady log)
    (hnow : w.core.core.voting = some w.voteAddr ∧ w.prop.config.dao = w.core.core.me)
    {id i : Nat} {p : Multiple.Proposal} (hp : w.prop.proposals.get id = some p)
    (htot : p.totalPower = V.total w.vote p.startHeight) (hveto : p.veto = none)
    (hi : i + 1 < p.choices.length)
    {ys : List Addr} (hys : ys.Nodup) (hyes : ∀ a ∈ ys, lastVote a id (propLog V N log) = some i)
    (hwin : Decisive p.quorum (V.total w.vote p.startHeight) (powerOf V w.vote p.startHeight ys)) {e : Env}
    (hb : b.le e.block) (hend : p.expiration.isExpired e.block = true)
    (hmem : w.prop.config.onlyMembersExecute = true → V.power w.vote e.sender p.startHeight ≠ 0)
    (hpause : DaoCore.isPaused w.core.core e.block = false) (hen : DaoCore.Enabled w.core.core w.propAddr) :
    (p.status = .executed ∨ p.status = .executionFailed) ∨
    ∃ c w' out, p.choices[i]? = some c ∧ (sys V N decode).step w e (.prop (.execute id false)) = .ok (w', out) ∧
      out.core = c.msgs.map (fun n => .send (decode n)) ∧ w'.core.stack = out.core ++ w.core.stack := by
  refine C104_carried_out hV h hst hnow hp htot hveto hb ?_ hmem hpause hen
  obtain ⟨_, _, hrl⟩ := prop_history h
  obtain ⟨hs, voters, hv1, hv2⟩ := tally_one hV h hst hp htot
  have ht := htot
  have hfit := hs.fits
  rw [cast_eq hs.shape hv2, ht] at hfit
  obtain ⟨hq, hlead⟩ := hwin p.choices.length i (fun j => powerOf V w.vote p.startHeight (voters j)) (by omega)
    (sum_sub _ ys (voters i) hys (hv1 i).1 (fun a ha => ((hv1 i).2 a).2 (hyes a ha))) hfit
  exact ⟨fun _ => hend, fun m hm => (Multiple.ruleInv_reach hrl id p hp).1 m hm _ hend, hi, voters, hv1, hq, hlead,
    Or.inl hend⟩

/-! ### From any state -/

theorem alive_current {p : Multiple.Proposal} {b : Block} {st : Status} (hv : p.veto = none)
    (h : p.status = .opened ∨ p.status = .passed ∨ p.status = .rejected) (hc : p.currentStatus b = .ok st) :
    st = .opened ∨ st = .passed ∨ st = .rejected := by
  unfold Multiple.Proposal.currentStatus at hc
  split at hc
  · simp only [bind_ok, hv] at hc
    obtain ⟨passed, _, hc⟩ := hc
    split at hc
    · injection hc with hc; subst hc; simp
    · split at hc
      · injection hc with hc; subst hc; simp
      · simp only [bind_ok] at hc
        obtain ⟨r, _, hc⟩ := hc
        split at hc <;> injection hc with hc <;> subst hc <;> simp
  · rename_i e he; rw [he] at h; simp at h
  · injection hc with hc; subst hc; exact h

/-- What stays as it was while votes are cast. -/
structure Still (w w' : World S) : Prop where
  core : w'.core = w.core
  vote : w'.vote = w.vote
  propAddr : w'.propAddr = w.propAddr
  voteAddr : w'.voteAddr = w.voteAddr
  config : w'.prop.config = w.prop.config

theorem Still.trans {w w' w'' : World S} (h : Still w w') (h' : Still w' w'') : Still w w'' :=
  ⟨h'.1.trans h.1, h'.2.trans h.2, h'.3.trans h.3, h'.4.trans h.4, h'.5.trans h.5⟩

/-- Casting the votes of a list for one option, one after the other, in one block. -/
theorem votes_run (hV : Lawful V) (e : Env) (id i : Nat) : ∀ (ys : List Addr) {w : World S} {log : List (Event S E C)}
    {p : Multiple.Proposal}, (sys V N decode).Reach w e.block log → Steady log →
    (w.core.core.voting = some w.voteAddr ∧ w.prop.config.dao = w.core.core.me) →
    w.prop.proposals.get id = some p → p.totalPower = V.total w.vote p.startHeight → p.veto = none → i < p.choices.length →
    (p.status = .opened ∨ p.status = .passed ∨ p.status = .rejected) → p.expiration.isExpired e.block = false →
    ys.Nodup → (∀ a ∈ ys, V.power w.vote a p.startHeight ≠ 0 ∧ lastVote a id (propLog V N log) = none) →
    ∃ w' l p', (sys V N decode).Run w e.block l w' e.block ∧ Steady (l ++ log) ∧
      Still w w' ∧
      l.map (fun ev => (ev.env, ev.call)) =
        ys.reverse.map (fun a => ({ e with sender := a }, Call.prop (.vote id i none))) ∧
      w'.prop.proposals.get id = some p' ∧ Multiple.SameRules p p' ∧
      (p'.status = .opened ∨ p'.status = .passed ∨ p'.status = .rejected) ∧
      ∀ a, lastVote a id (propLog V N (l ++ log)) = if a ∈ ys then some i else lastVote a id (propLog V N log) := by
  intro ys
  induction ys with
  | nil =>
    intro w log p h hst hnow hp htot hveto hi hal hopen _ _
    exact ⟨w, [], p, .refl, hst, ⟨rfl, rfl, rfl, rfl, rfl⟩, rfl, hp, .refl _, hal, by simp⟩
  | cons a ys ih =>
    intro w log p h hst hnow hp htot hveto hi hal hopen hnd hy
    rw [List.nodup_cons] at hnd
    obtain ⟨hpow, hlast⟩ := hy a (by simp)
    obtain ⟨w1, out, hs⟩ := C104_vote_accepted hV h hst hnow hp htot (e := { e with sender := a }) (v := i) (r := none)
      hi hopen hpow (Or.inl hlast)
    replace hs : step V N decode w { e with sender := a } (.prop (.vote id i none)) = .ok (w1, out) := hs
    obtain ⟨⟨o, ho, hps⟩, hvote, hpa, hva, hc⟩ := prop_effect (decode := decode) hs
    have hcore : w1.core = w.core := by
      rcases hc with hc | ⟨_, _, _, hc, _⟩
      · exact hc.1
      · cases hc
    obtain ⟨q, power, wd, votes, st, hq, _, _, _, _, _, _, _, hcur, hw1, _⟩ := Multiple.execVote_inv (show Multiple.execVote
      w.prop (propEnv V N w { e with sender := a }) a id i none = .ok (w1.prop, o) from hps)
    rw [hp] at hq; injection hq with hq; subst hq
    have hcfg : w1.prop.config = w.prop.config := by rw [hw1]
    have hget : w1.prop.proposals.get id = some { p with votes := votes, status := st } := by
      rw [hw1]; simp only [AMap.get_set_self]
    have hreach := Sys.Reach.step (M := sys V N decode) (env := { e with sender := a })
      (call := .prop (.vote id i none)) (out := out) h (Block.le_refl _) hs
    have hst1 : Steady ((⟨w, { e with sender := a }, .prop (.vote id i none), out, w1⟩ : Event S E C) :: log) := by
      intro ev hev
      rcases List.mem_cons.1 hev with rfl | hev
      · exact hnow
      · exact hst ev hev
    have hpl : propLog V N ((⟨w, { e with sender := a }, .prop (.vote id i none), out, w1⟩ : Event S E C) :: log) =
        ⟨w.prop, propEnv V N w { e with sender := a }, .vote id i none, o, w1.prop⟩ :: propLog V N log := by
      simp only [propLog, ho]
    have hlv : ∀ x, lastVote x id (propLog V N ((⟨w, { e with sender := a }, .prop (.vote id i none), out, w1⟩ :
        Event S E C) :: log)) = if a = x then some i else lastVote x id (propLog V N log) := by
      intro x
      rw [hpl]
      simp only [lastVote, ballotCast, propEnv, and_true]
    obtain ⟨w2, l, p', hr, hst2, hstill, hl, hget', hsr, hal', hlast'⟩ := ih
      (p := { p with votes := votes, status := st }) hreach hst1 ⟨by rw [hcore, hva]; exact hnow.1,
        by rw [hcfg, hcore]; exact hnow.2⟩ hget (by rw [hvote]; exact htot) hveto hi
      (alive_current (p := { p with votes := votes }) hveto hal hcur) hopen hnd.2 (by
        intro x hx
        have hax : a ≠ x := fun he => hnd.1 (he ▸ hx)
        rw [hvote, hlv, if_neg hax]
        exact hy x (List.mem_cons_of_mem _ hx))
    refine ⟨w2, l ++ [⟨w, { e with sender := a }, .prop (.vote id i none), out, w1⟩], p', ?_, ?_,
      Still.trans ⟨hcore, hvote, hpa, hva, hcfg⟩ hstill, ?_, hget', ?_, hal', ?_⟩
    · exact (Sys.Run.step (M := sys V N decode) (env := { e with sender := a })
        (call := .prop (.vote id i none)) (out := out) .refl (Block.le_refl _) hs).append hr
    · rw [List.append_assoc]; exact hst2
    · rw [List.map_append, hl, List.reverse_cons, List.map_append]; rfl
    · exact ⟨hsr.1, hsr.2, hsr.3, hsr.4, hsr.5, hsr.6, hsr.7, hsr.8, hsr.9, hsr.10⟩
    · intro x
      rw [List.append_assoc]
      show lastVote x id (propLog V N (l ++ ((⟨w, { e with sender := a }, .prop (.vote id i none), out, w1⟩ :
        Event S E C) :: log))) = _
      rw [hlast', hlv]
      by_cases h1 : x ∈ ys
      · simp [h1]
      · by_cases h2 : a = x
        · subst h2; simp
        · simp [h1, h2, Ne.symm h2]

theorem fresh_sane {c : Multiple.Config} (hc : Multiple.validateConfig c = .ok ()) (b : Block) (proposer : Addr)
    (content : Nat) {options : List (Nat × List Nat)} {choices : List Multiple.Choice}
    (ho : Multiple.intoChecked options = .ok choices) {total : Nat} (ht : total < U128) :
    (Multiple.freshProposal c b proposer content choices total).Sane := by
  obtain ⟨h1, h2, h3⟩ := Multiple.shape_checked ho
  refine ⟨?_, ht, (Multiple.validateConfig_parts hc).1, ?_, h1, fun i c hi => (h3 i c hi).1, fun i c hi => (h3 i c hi).2⟩
  · show (List.replicate choices.length 0).sum ≤ total
    simp
  · show choices.length = (List.replicate choices.length 0).length
    simp

/-- Proposing, in a block above the last one. -/
theorem propose_step (hV : Lawful V) {w : World S} {b : Block} {log : List (Event S E C)}
    (h : (sys V N decode).Reach w b log)
    (hnow : w.core.core.voting = some w.voteAddr ∧ w.prop.config.dao = w.core.core.me)
    {g : Option Addr} {proposer : Addr} {e : Env} (hper : w.prop.policy.isPermitted e.sender = true)
    (hres : Multiple.resolveProposer g w.prop.policy e.sender = .ok proposer)
    (hveto : w.prop.config.veto = none) (hid : w.prop.count + 1 < U64)
    (hact : e.active = true) (htot : N w.vote e.block < U128)
    (content : Nat) {options : List (Nat × List Nat)} {choices : List Multiple.Choice}
    (hopt : Multiple.intoChecked options = .ok choices) :
    ∃ w' out o st, step V N decode w e (.prop (.propose g content options none true)) = .ok (w', out) ∧
      out.prop = some o ∧ Still w w' ∧
      w'.prop.proposals.get (w.prop.count + 1) = some { Multiple.freshProposal w.prop.config e.block proposer content
        choices (N w.vote e.block) with status := st } ∧
      (st = .opened ∨ st = .passed ∨ st = .rejected) := by
  have hwired : Wired w w.prop.config.dao := ⟨hnow.2, hnow.1⟩
  obtain ⟨_, _, hrl⟩ := prop_history h
  have hi := Multiple.inv_reach hrl
  have hq : Multiple.queryTotal (propEnv V N w e) w.prop.config.dao = .ok (N w.vote e.block) := by
    unfold Multiple.queryTotal
    simp only [propEnv, if_pos hwired, if_pos htot]
  obtain ⟨st, hcur⟩ := Multiple.currentStatus_total (fresh_sane hi.cfg e.block proposer content hopt htot) (fun v hv => by
      rw [show (Multiple.freshProposal w.prop.config e.block proposer content choices (N w.vote e.block)).veto =
        w.prop.config.veto from rfl, hveto] at hv
      cases hv) e.block
  have hps : Multiple.step w.prop (propEnv V N w e) (.propose g content options none true) =
      .ok ({ w.prop with
        count := w.prop.count + 1
        proposals := w.prop.proposals.set (w.prop.count + 1)
          { Multiple.freshProposal w.prop.config e.block proposer content choices (N w.vote e.block) with status := st } },
        { msgs := Multiple.newProposalHooks w.prop.proposalHooks (w.prop.count + 1) proposer
          newId := some (w.prop.count + 1) }) := by
    have hadd : add64 w.prop.count 1 = .ok (w.prop.count + 1) := (add64_ok _ _ _).2 ⟨hid, rfl⟩
    have hup : (Multiple.freshProposal w.prop.config e.block proposer content choices (N w.vote e.block)).updateStatus e.block =
        .ok { Multiple.freshProposal w.prop.config e.block proposer content choices (N w.vote e.block) with status := st } :=
      Multiple.updateStatus_ok.2 ⟨st, hcur, rfl⟩
    simp only [Multiple.step, Multiple.execPropose]
    rw [show (propEnv V N w e).active = true from hact, show (propEnv V N w e).block = e.block from rfl, hq,
      show (propEnv V N w e).sender = e.sender from rfl, hper, hres, hopt]
    simp only [require, if_true, ok_bind, hup, hadd]
  have hno : ∀ m ∈ Multiple.newProposalHooks w.prop.proposalHooks (w.prop.count + 1) proposer,
      isExecuteOnDao m.msg = false := Multiple.hooks_not_exec
  have hstep : ∀ s' o, Multiple.step w.prop (propEnv V N w e) (.propose g content options none true) = .ok (s', o) →
      (∀ m ∈ o.msgs, isExecuteOnDao m.msg = false) →
      step V N decode w e (.prop (.propose g content options none true)) = .ok ({ w with prop := s' }, ⟨some o, []⟩) := by
    intro s' o hs hno
    simp only [step, hs, ok_bind, passOn, daoFails, Bool.false_eq_true, if_false, handOn_none hno]
  have halive := alive_current (p := Multiple.freshProposal w.prop.config e.block proposer content choices
    (N w.vote e.block)) hveto (Or.inl rfl) hcur
  have := hstep _ _ hps hno
  exact ⟨_, _, _, st, this, rfl, ⟨rfl, rfl, rfl, rfl, rfl⟩, by simp only [AMap.get_set_self], halive⟩

/-- The options of a new proposal, in order. -/
theorem numbered_at : ∀ (os : List (Nat × List Nat)) (n i : Nat) (o : Nat × List Nat), os[i]? = some o →
    (Multiple.numbered n os)[i]? = some ⟨n + i, false, o.1, o.2⟩ := by
  intro os
  induction os with
  | nil => intro n i o h; simp at h
  | cons x os ih =>
    intro n i o h
    cases i with
    | zero => simp only [List.getElem?_cons_zero, Option.some.injEq] at h; subst h; rfl
    | succ i =>
      simp only [List.getElem?_cons_succ] at h
      simp only [Multiple.numbered, List.getElem?_cons_succ]
      rw [ih (n + 1) i o h]
      congr 2
      omega

theorem choice_at {options : List (Nat × List Nat)} {choices : List Multiple.Choice}
    (h : Multiple.intoChecked options = .ok choices) {i : Nat} {o : Nat × List Nat} (ho : options[i]? = some o) :
    i + 1 < choices.length ∧ choices[i]? = some ⟨i, false, o.1, o.2⟩ := by
  have hl := (Multiple.shape_checked h).2.1
  have hi : i < options.length := by
    rcases Nat.lt_or_ge i options.length with h | h
    · exact h
    · rw [List.getElem?_eq_none h] at ho; cases ho
  unfold Multiple.intoChecked at h
  split at h
  · cases h
  · injection h with h
    refine ⟨by omega, ?_⟩
    rw [← h, List.getElem?_append_left (by rw [Multiple.numbered_length]; exact hi), numbered_at _ _ _ _ ho, Nat.zero_add]

/-- Voting for and executing a proposal just made. -/
theorem after_proposed (hV : Lawful V) {w w1 : World S} {b : Block} {log : List (Event S E C)}
    (h : (sys V N decode).Reach w b log) (hst : Steady log)
    (hnow : w.core.core.voting = some w.voteAddr ∧ w.prop.config.dao = w.core.core.me)
    (hveto : w.prop.config.veto = none) {e : Env} (hb : b.le e.block) (hlater : b.height < e.block.height)
    (hNe : N w.vote e.block = V.totalWeight w.vote)
    (hopen : (w.prop.config.maxVotingPeriod.after e.block).isExpired e.block = false)
    {g : Option Addr} {proposer : Addr} {content i title : Nat} {options : List (Nat × List Nat)} {msgs : List Nat}
    {choices : List Multiple.Choice} {out1 : Out} {o1 : Multiple.Out} {st : Status}
    (hchk : Multiple.intoChecked options = .ok choices) (hopt : options[i]? = some (title, msgs))
    (hs1 : step V N decode w e (.prop (.propose g content options none true)) = .ok (w1, out1))
    (ho1 : out1.prop = some o1) (hstill1 : Still w w1)
    (hget1 : w1.prop.proposals.get (w.prop.count + 1) = some { Multiple.freshProposal w.prop.config e.block proposer content
      choices (N w.vote e.block) with status := st })
    (hal1 : st = .opened ∨ st = .passed ∨ st = .rejected)
    {ys : List Addr} (hys : ys.Nodup) (hstake : ∀ a ∈ ys, V.weight w.vote a ≠ 0)
    (hwin : Decisive w.prop.config.quorum (V.totalWeight w.vote) (ys.map (V.weight w.vote)).sum)
    {f : Env} (hf : e.block.le f.block) (hend : (w.prop.config.maxVotingPeriod.after e.block).isExpired f.block = true)
    (hmem : w.prop.config.onlyMembersExecute = true → V.weight w.vote f.sender ≠ 0)
    (hpause : DaoCore.isPaused w.core.core f.block = false) (hen : DaoCore.Enabled w.core.core w.propAddr) :
    ∃ w2 l2 w3 out3, (sys V N decode).Run w1 e.block l2 w2 e.block ∧
      l2.map (fun ev => (ev.env, ev.call)) =
        ys.reverse.map (fun a => ({ e with sender := a }, Call.prop (.vote (w.prop.count + 1) i none))) ∧
      step V N decode w2 f (.prop (.execute (w.prop.count + 1) false)) = .ok (w3, out3) ∧
      out3.core = msgs.map (fun n => DaoCore.Sub.send (decode n)) ∧
      w3.core.stack = msgs.map (fun n => DaoCore.Sub.send (decode n)) ++ w.core.stack := by
  obtain ⟨hilt, hich⟩ := choice_at hchk hopt
  have hr1 := Sys.Run.step (M := sys V N decode) (env := e) (call := .prop (.propose g content options none true))
    (out := out1) .refl hb hs1
  have hreach1 := h.run hr1
  have hst1 : Steady (([⟨w, e, .prop (.propose g content options none true), out1, w1⟩] : List (Event S E C)) ++ log) := by
    intro ev hev
    rcases List.mem_cons.1 hev with rfl | hev
    · exact hnow
    · exact hst ev hev
  have hnow1 : w1.core.core.voting = some w1.voteAddr ∧ w1.prop.config.dao = w1.core.core.me := by
    rw [hstill1.core, hstill1.voteAddr, hstill1.config]; exact hnow
  obtain ⟨hpw, htw⟩ := C81_weights hV h hr1 hlater (by
    intro ev hev
    rw [List.mem_singleton.1 hev]
    exact Nat.le_refl _)
  have hpl1 : propLog V N (([⟨w, e, .prop (.propose g content options none true), out1, w1⟩] : List (Event S E C)) ++ log) =
      ⟨w.prop, propEnv V N w e, .propose g content options none true, o1, w1.prop⟩ :: propLog V N log := by
    simp only [List.cons_append, List.nil_append, propLog, ho1]
  have hnone : ∀ a, lastVote a (w.prop.count + 1) (propLog V N (([⟨w, e, .prop (.propose g content options none true),
      out1, w1⟩] : List (Event S E C)) ++ log)) = none := by
    intro a
    obtain ⟨_, _, hrl⟩ := prop_history h
    rw [hpl1]
    simp only [lastVote, ballotCast]
    rw [← Multiple.C07_last_vote hrl]
    cases hg : w.prop.ballots.get (w.prop.count + 1, a) with
    | none => rfl
    | some bal =>
      have h1 := (Multiple.inv_reach hrl).bal _ _ _ hg
      have h2 := ((Multiple.inv_reach hrl).ids _).1 h1
      omega
  obtain ⟨w2, l2, p, hr2, hst2, hstill2, hl2, hget2, hsr, hal2, hlast2⟩ := votes_run (decode := decode) hV e
    (w.prop.count + 1) i ys hreach1 hst1 hnow1 hget1
    (by rw [show (Multiple.freshProposal w.prop.config e.block proposer content choices
      (N w.vote e.block)).startHeight = e.block.height from rfl, htw, ← hNe]; rfl) hveto (show i < choices.length by omega) hal1 hopen hys (by
      intro a ha
      exact ⟨by rw [show (Multiple.freshProposal w.prop.config e.block proposer content choices
        (N w.vote e.block)).startHeight = e.block.height from rfl, hpw]; exact hstake a ha, hnone a⟩)
  have hstill := hstill1.trans hstill2
  have hreach2 := hreach1.run hr2
  have hpwr : ∀ a, V.power w2.vote a p.startHeight = V.weight w.vote a := by
    intro a
    rw [hstill2.vote, hsr.startHeight]; exact hpw a
  have htwr : V.total w2.vote p.startHeight = V.totalWeight w.vote := by
    rw [hstill2.vote, hsr.startHeight]; exact htw
  have hx : p.expiration.isExpired f.block = true := by rw [hsr.expiration]; exact hend
  have hch : p.choices = choices := hsr.choices
  have hfin := C104_unstoppable hV hreach2 hst2 ⟨by rw [hstill.core, hstill.voteAddr]; exact hnow.1,
      by rw [hstill.core, hstill.config]; exact hnow.2⟩ hget2
    (by rw [htwr, ← hNe, hsr.totalPower]; rfl) (by rw [hsr.veto]; exact hveto) (i := i)
    (by rw [hch]; exact hilt) hys (fun a ha => by rw [hlast2, if_pos ha])
    (by rw [hsr.quorum, htwr]; simp only [powerOf, hpwr]; exact hwin) (e := f) hf hx
    (by rw [hstill.config, hpwr]; exact hmem) (by rw [hstill.core]; exact hpause)
    (by rw [hstill.core, hstill.propAddr]; exact hen)
  rcases hfin with hfin | ⟨c, w3, out3, hc, hs3, ho3, hstk⟩
  · rcases hfin with hfin | hfin <;> rw [hfin] at hal2 <;> simp at hal2
  · rw [hch, hich] at hc
    injection hc with hc
    rw [← hc] at ho3
    rw [hstill.core, ho3] at hstk
    exact ⟨w2, l2, w3, out3, hr2, hl2, hs3, ho3, hstk⟩

/-- **C104.** A majority can always act. In any reachable state of a DAO in which anybody may propose, without a veto,
take members with a decisive share of the stakes. In any later block somebody can make a proposal with any two to twenty
options, the members can vote for one of them, all in the same block, and once the voting period is over anybody can
execute it: all these calls succeed, and the DAO then has to send exactly the messages of this option, before anything
else. -/
theorem C104_majority_acts (hV : Lawful V) {w : World S} {b : Block} {log : List (Event S E C)}
    (h : (sys V N decode).Reach w b log) (hst : Steady log)
    (hnow : w.core.core.voting = some w.voteAddr ∧ w.prop.config.dao = w.core.core.me)
    (hpol : w.prop.policy = .anyone) (hveto : w.prop.config.veto = none) (hid : w.prop.count + 1 < U64)
    (htot : V.totalWeight w.vote < U128)
    -- the block of the proposal and the votes, in which the voting period is not over already
    {e : Env} (hb : b.le e.block) (hlater : b.height < e.block.height) (hact : e.active = true)
    (hNe : N w.vote e.block = V.totalWeight w.vote)
    (hopen : (w.prop.config.maxVotingPeriod.after e.block).isExpired e.block = false)
    -- the members
    {ys : List Addr} (hys : ys.Nodup) (hstake : ∀ a ∈ ys, V.weight w.vote a ≠ 0)
    (hwin : Decisive w.prop.config.quorum (V.totalWeight w.vote) (ys.map (V.weight w.vote)).sum)
    -- the block of the execution
    {f : Env} (hf : e.block.le f.block) (hend : (w.prop.config.maxVotingPeriod.after e.block).isExpired f.block = true)
    (hmem : w.prop.config.onlyMembersExecute = true → V.weight w.vote f.sender ≠ 0)
    (hpause : DaoCore.isPaused w.core.core f.block = false) (hen : DaoCore.Enabled w.core.core w.propAddr)
    -- the options, and the one the members want
    (content : Nat) {options : List (Nat × List Nat)} (hmin : 2 ≤ options.length) (hmax : options.length ≤ 20)
    {i title : Nat} {msgs : List Nat} (hopt : options[i]? = some (title, msgs)) :
    ∃ w' log', (sys V N decode).Run w b log' w' f.block ∧
      log'.map (fun ev => (ev.env, ev.call)) =
        (f, .prop (.execute (w.prop.count + 1) false)) ::
        (ys.reverse.map (fun a => ({ e with sender := a }, Call.prop (.vote (w.prop.count + 1) i none))) ++
        [(e, .prop (.propose none content options none true))]) ∧
      log'.head?.map (fun ev => ev.out.core) = some (msgs.map (fun n => DaoCore.Sub.send (decode n))) ∧
      w'.core.stack = msgs.map (fun n => DaoCore.Sub.send (decode n)) ++ w.core.stack := by
  have hchk : ∃ choices, Multiple.intoChecked options = .ok choices := by
    unfold Multiple.intoChecked
    rw [if_neg (by simp only [Multiple.MAX_NUM_CHOICES]; omega)]
    exact ⟨_, rfl⟩
  obtain ⟨choices, hchk⟩ := hchk
  obtain ⟨w1, out1, o1, st, hs1, ho1, hstill1, hget1, hal1⟩ := propose_step (decode := decode) (g := none)
    (proposer := e.sender) (e := e) hV h hnow (by rw [hpol]; rfl) (by rw [hpol]; rfl) hveto hid hact (by rw [hNe]; exact htot) content hchk
  obtain ⟨w2, l2, w3, out3, hr2, hl2, hs3, ho3, hstk⟩ := after_proposed hV h hst hnow hveto hb hlater hNe hopen hchk hopt
    hs1 ho1 hstill1 hget1 hal1 hys hstake hwin hf hend hmem hpause hen
  have hr1 := Sys.Run.step (M := sys V N decode) (env := e) (call := .prop (.propose none content options none true))
    (out := out1) .refl hb hs1
  refine ⟨w3, _, Sys.Run.step (M := sys V N decode) (env := f) (call := .prop (.execute (w.prop.count + 1) false))
    (out := out3) (hr1.append hr2) hf hs3, ?_, ?_, hstk⟩
  · simp only [List.map_cons, List.map_append, hl2, List.map_nil]
  · simp only [List.head?_cons, Option.map_some, ho3]

/-- **C104.** The total a new proposal takes is what is staked, for voting modules of either kind, if the block is a later
one. -/
theorem C104_new_total (hV : Lawful V) (hA : AnswersNow V N ∨ AnswersNewest V N) {w : World S} {b : Block}
    {log : List (Event S E C)} (h : (sys V N decode).Reach w b log) {b' : Block} (hb : b.le b')
    (hlater : b.height < b'.height) : N w.vote b' = V.totalWeight w.vote := by
  rcases hA with hA | hA
  · obtain ⟨l, b1, h1, h2⟩ := vote_reach h
    rw [hA h1 b' (Block.le_trans h2 hb)]
    exact (C81_weights hV h .refl hlater (by simp)).2
  · exact hA _ _

/-- **C104.** A voting period of zero, which the contract accepts, silences everybody: on a proposal made under it nobody
can ever vote. -/
theorem C104_zero_period {w w1 w2 : World S} {b b2 : Block} {log l : List (Event S E C)}
    (h : (sys V N decode).Reach w b log)
    (hz : w.prop.config.maxVotingPeriod = .height 0 ∨ w.prop.config.maxVotingPeriod = .time 0) {e : Env}
    (hb : b.le e.block) {content : Nat} {options : List (Nat × List Nat)} {g : Option Addr}
    {vote : Option (Nat × Option Nat)} {z : Bool}
    {out : Out} (hs : (sys V N decode).step w e (.prop (.propose g content options vote z)) = .ok (w1, out))
    (hr : (sys V N decode).Run w1 e.block l w2 b2) {f : Env} (hf : b2.le f.block) (v : Nat) (r : Option Nat) :
    vote = none ∧ ¬ ∃ x, (sys V N decode).step w2 f (.prop (.vote (w.prop.count + 1) v r)) = .ok x := by
  have hr1 := Sys.Run.step (M := sys V N decode) (env := e) (call := .prop (.propose g content options vote z)) (out := out)
    .refl hb hs
  have hzero : ∀ b', e.block.le b' → (w.prop.config.maxVotingPeriod.after e.block).isExpired b' = true := by
    intro b' hle
    rcases hz with hz | hz <;> rw [hz] <;> simp only [Duration.after, Expiration.isExpired, decide_eq_true_eq]
    · exact hle.1
    · have := hle.2; omega
  replace hs : step V N decode w e (.prop (.propose g content options vote z)) = .ok (w1, out) := hs
  obtain ⟨⟨o, ho, hps⟩, _⟩ := prop_effect (decode := decode) hs
  obtain ⟨proposer, choices, total, st, s1, _, _, _, _, _, _, _, _, hs1, _, hv⟩ := Multiple.execPropose_inv (show
    Multiple.execPropose w.prop (propEnv V N w e) g content options vote z = .ok (w1.prop, o) from hps)
  have hget : s1.proposals.get (w.prop.count + 1) =
      some { Multiple.freshProposal w.prop.config e.block proposer content choices total with status := st } := by
    rw [hs1]; simp only [AMap.get_set_self]; rfl
  rcases hv with ⟨hv, hw1, _⟩ | ⟨v', r', o', hv, hx, _⟩
  · refine ⟨hv, ?_⟩
    rintro ⟨⟨w3, out3⟩, hs3⟩
    rw [← hw1] at hget
    -- the proposal keeps its expiration
    have keep : ∀ {w2 : World S} {b2 : Block} {l : List (Event S E C)}, (sys V N decode).Run w1 e.block l w2 b2 →
        ∃ p, w2.prop.proposals.get (w.prop.count + 1) = some p ∧
          p.expiration = w.prop.config.maxVotingPeriod.after e.block := by
      intro w2 b2 l hr
      induction hr with
      | refl => exact ⟨_, hget, rfl⟩
      | @step s1 s2 b3 log' env call out hr hb3 hs ih =>
        obtain ⟨p, hp, hx⟩ := ih
        obtain ⟨_, _, hrl⟩ := prop_history ((h.run hr1).run hr)
        cases call with
        | core c =>
          obtain ⟨_, _, hw, _⟩ := core_effect (V := V) (N := N) (decode := decode) hs
          rw [hw]; exact ⟨p, hp, hx⟩
        | vote ve c =>
          obtain ⟨_, _, hw, _⟩ := vote_effect (N := N) (decode := decode) hs
          rw [hw]; exact ⟨p, hp, hx⟩
        | prop c =>
          obtain ⟨⟨o, ho, hps⟩, _⟩ := prop_effect (decode := decode) hs
          obtain ⟨p', hp', hsr, _⟩ := Multiple.run_prop (.step (b := env.block) (env := propEnv V N s1 env) .refl
            (Block.le_refl _) hps) (Multiple.inv_reach hrl) hp
          exact ⟨p', hp', by rw [hsr.expiration]; exact hx⟩
    obtain ⟨p, hp, hx⟩ := keep hr
    replace hs3 : step V N decode w2 f (.prop (.vote (w.prop.count + 1) v r)) = .ok (w3, out3) := hs3
    obtain ⟨⟨o3, _, hps3⟩, _⟩ := prop_effect (decode := decode) hs3
    obtain ⟨q, _, _, _, _, hq, _, hexp, _⟩ := Multiple.execVote_inv (show Multiple.execVote
      w2.prop (propEnv V N w2 f) f.sender (w.prop.count + 1) v r = .ok (w3.prop, o3) from hps3)
    rw [hp] at hq; injection hq with hq; subst hq
    rw [hx, show (propEnv V N w2 f).block = f.block from rfl, hzero _ (Block.le_trans hr.block_le hf)] at hexp
    cases hexp
  · exfalso
    obtain ⟨q, _, _, _, _, hq, _, hexp, _⟩ := Multiple.execVote_inv hx
    rw [hget] at hq; injection hq with hq; subst hq
    rw [show (propEnv V N w e).block = e.block from rfl] at hexp
    have := hzero e.block (Block.le_refl _)
    simp only [Multiple.freshProposal] at hexp
    rw [this] at hexp; cases hexp

/-! ### What is decisive -/

theorem le_sum_map (f : Nat → Nat) : ∀ (l : List Nat) (x : Nat), x ∈ l → f x ≤ (l.map f).sum := by
  intro l
  induction l with
  | nil => intro x h; cases h
  | cons a l ih =>
    intro x hx
    simp only [List.map_cons, List.sum_cons]
    rcases List.mem_cons.1 hx with rfl | hx
    · omega
    · have := ih x hx; omega

theorem sum_two (f : Nat → Nat) : ∀ (l : List Nat) (i j : Nat), i ∈ l → j ∈ l → j ≠ i → f i + f j ≤ (l.map f).sum := by
  intro l
  induction l with
  | nil => intro i j h; cases h
  | cons a l ih =>
    intro i j hi hj hne
    simp only [List.map_cons, List.sum_cons]
    have one := le_sum_map f l
    rcases List.mem_cons.1 hi with h1 | h1
    · rcases List.mem_cons.1 hj with h2 | h2
      · exact absurd (h2.trans h1.symm) hne
      · have := one j h2; rw [h1]; omega
    · rcases List.mem_cons.1 hj with h2 | h2
      · have := one i h1; rw [h2]; omega
      · have := ih i j h1 h2 hne; omega

theorem meets_mono {n m total : Nat} {q : PercentageThreshold} (h : Meets n total q) (hnm : n ≤ m) : Meets m total q := by
  cases q with
  | majority => simp only [Meets] at h ⊢; omega
  | percent a =>
    simp only [Meets] at h ⊢
    exact ⟨h.1, Nat.le_trans h.2 (Nat.mul_le_mul_right _ (by omega))⟩

/-- **C104.** More than half of all power decides, if it is enough for the quorum. -/
theorem C104_half_decides {total n : Nat} {q : PercentageThreshold} (h : total < 2 * n) (hq : Meets n total q) :
    Decisive q total n := by
  intro k i f hi hn hc
  unfold castSum at hc
  have one : f i ≤ castSum k f := le_sum_map f _ i (List.mem_range.2 hi)
  refine ⟨meets_mono hq (by omega), fun j hj hne => ?_⟩
  have := sum_two f (List.range k) i j (List.mem_range.2 hi) (List.mem_range.2 hj) hne
  omega

/-- **C104.** Half of all power or less does not decide alone: the others can draw level. -/
theorem C104_half_needed {total n : Nat} {q : PercentageThreshold} (h : Decisive q total n) : total < 2 * n := by
  rcases Nat.lt_or_ge total (2 * n) with hlt | hge
  · exact hlt
  · exfalso
    have := (h 2 0 (fun _ => n) (by decide) (Nat.le_refl _) (by simp [castSum, List.range_succ]; omega)).2 1 (by decide)
      (by decide)
    exact Nat.lt_irrefl _ this

end Verif.WholeMulti
