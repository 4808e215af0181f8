import Verif.Props.MultipleExamples
/-!
# C61 (multiple choice): nobody is locked out of a multiple choice proposal

Eligible votes are accepted, due proposals are decided, passed ones can be executed and rejected ones
closed: no arithmetic panic and no check stands in the way.
-/

namespace Verif.Multiple
open Verif
open Verif.Voting hiding Vote Votes
open Verif.Spec (Edge Path Final)
open Verif.Spec.Multi

theorem currentStatus_total {p : Proposal} (hs : p.Sane)
    (hv : ∀ v, p.veto = some v → ∃ e, p.expiration.add v.timelockDuration = .ok e) (b : Block) :
    ∃ st, p.currentStatus b = .ok st := by
  unfold Proposal.currentStatus
  split
  · obtain ⟨r1, h1, _⟩ := isPassed_spec hs b
    obtain ⟨r2, h2, _⟩ := isRejected_spec hs b
    simp only [h1, h2, ok_bind]
    split
    · cases hveto : p.veto with
      | none => exact ⟨_, rfl⟩
      | some v =>
        obtain ⟨e, he⟩ := hv v hveto
        simp only [he, ok_bind]
        split <;> exact ⟨_, rfl⟩
    · split
      · exact ⟨_, rfl⟩
      · split <;> exact ⟨_, rfl⟩
  · split <;> exact ⟨_, rfl⟩
  · exact ⟨_, rfl⟩

/-- **C61.** In every reachable state, with a consistent voting module, every proposal's status query
succeeds in every block. -/
theorem C61_status_total {P : Addr → Nat → Nat} {T : Nat → Nat} {s : State} {b : Block}
    {log : List Event} (h : Reach s b log) (hpow : StablePowers log P T) {id : Nat} {p : Proposal}
    (hp : s.proposals.get id = some p) (b' : Block) : ∃ st, p.currentStatus b' = .ok st :=
  currentStatus_total (sane_prop (inv_reach h) (powInv_reach h hpow) hpow.bounded hp)
    ((inv_reach h).prop id p hp).vetoUnit b'

/-- **C61.** A proposal whose voting period is over is never reported as open. -/
theorem C61_expired_decided {p : Proposal} {b : Block} (h : p.expiration.isExpired b = true) :
    p.currentStatus b ≠ .ok .opened := by
  intro hc
  unfold Proposal.currentStatus at hc
  split at hc
  · simp only [bind_ok, h, if_true] at hc
    obtain ⟨passed, _, hc⟩ := hc
    split at hc
    · split at hc
      · simp only [bind_ok] at hc
        obtain ⟨e, _, hc⟩ := hc
        split at hc <;> cases hc
      · cases hc
    · cases hc
  · split at hc <;> cases hc
  · rename_i hne _
    injection hc with hc
    exact hne hc

theorem addVote_total {t : Votes} {v : Vote} {n : Nat} (hv : v < t.weights.length)
    (h : weight t v + n < U128) : ∃ t', t.addVote v n = .ok t' := by
  refine ⟨⟨t.weights.set v (weight t v + n)⟩, ?_⟩
  simp only [Votes.addVote, bind_ok, orErr_ok, add128_ok]
  exact ⟨_, getElem?_of_lt hv, _, ⟨h, rfl⟩, rfl⟩

theorem removeVote_total {t : Votes} {v : Vote} {n : Nat} (hv : v < t.weights.length)
    (h : n ≤ weight t v) : ∃ t', t.removeVote v n = .ok t' := by
  refine ⟨⟨t.weights.set v (weight t v - n)⟩, ?_⟩
  simp only [Votes.removeVote, bind_ok, orErr_ok, sub128_ok]
  exact ⟨_, getElem?_of_lt hv, _, ⟨h, rfl⟩, rfl⟩

theorem sum_set (l : List Nat) (i x : Nat) (h : i < l.length) :
    (l.set i x).sum + l.getD i 0 = l.sum + x := by
  induction l generalizing i with
  | nil => simp at h
  | cons a l ih =>
    cases i with
    | zero => simp only [List.set_cons_zero, List.sum_cons, List.getD_cons_zero]; omega
    | succ i =>
      have := ih i (by simpa using h)
      simp only [List.set_cons_succ, List.sum_cons, List.getD_cons_succ]; omega

theorem addVote_sum {t t' : Votes} {v : Vote} {n : Nat} (h : t.addVote v n = .ok t') :
    castTotal t' = castTotal t + n := by
  simp only [Votes.addVote, bind_ok, orErr_ok, add128_ok, Except.ok.injEq] at h
  obtain ⟨x, hx, y, ⟨_, rfl⟩, rfl⟩ := h
  obtain ⟨h1, h2⟩ := getD_of_getElem? hx
  have := sum_set t.weights v (x + n) h1
  unfold castTotal
  simp only; omega

theorem removeVote_sum {t t' : Votes} {v : Vote} {n : Nat} (h : t.removeVote v n = .ok t') :
    castTotal t' + n = castTotal t := by
  simp only [Votes.removeVote, bind_ok, orErr_ok, sub128_ok, Except.ok.injEq] at h
  obtain ⟨x, hx, y, ⟨_, rfl⟩, rfl⟩ := h
  obtain ⟨h1, h2⟩ := getD_of_getElem? hx
  have := sum_set t.weights v (x - n) h1
  unfold castTotal
  simp only; omega

/-- The votes cast and the power of an address without a ballot fit the total. -/
theorem room_for_vote {P : Addr → Nat → Nat} {T : Nat → Nat} {s : State} (hi : Inv s)
    (hp : PowInv P T s)
    (hT : ∀ h (l : List Addr), l.Nodup → (l.map (fun a => P a h)).sum ≤ T h) {id : Nat}
    {p : Proposal} (hg : s.proposals.get id = some p) {a : Addr}
    (hb : s.ballots.get (id, a) = none) : castTotal p.votes + P a p.startHeight ≤ p.totalPower := by
  have h1 := cast_le hi hg
  rw [hp.tot id p hg]
  obtain ⟨l, hn, hmem, hs⟩ := sum_filter_le s.ballots hi.wfB id (fun a => P a p.startHeight)
    (fun a b hb => hp.bal id a b p hg (AMap.get_of_mem hi.wfB hb))
  have ha : a ∉ l := by
    intro ha
    obtain ⟨b, hb'⟩ := hmem a ha
    rw [AMap.get_of_mem hi.wfB hb'] at hb; cases hb
  have := hT p.startHeight (a :: l) (List.nodup_cons.2 ⟨ha, hn⟩)
  rw [hs] at h1
  simp only [List.map_cons, List.sum_cons] at this
  omega

theorem ballot_le_count {s : State} (hi : Inv s) {id : Nat} {p : Proposal}
    (hg : s.proposals.get id = some p) {a : Addr} {bal : Ballot}
    (hb : s.ballots.get (id, a) = some bal) : bal.power ≤ weight p.votes bal.vote := by
  rw [(hi.prop id p hg).tally bal.vote]
  unfold ballotSum
  have := AMap.at_le_sum (fun (k : Nat × Addr) (b : Ballot) =>
    if k.1 = id ∧ b.vote = bal.vote then b.power else 0) s.ballots (id, a)
  simp only [AMap.at?, hb] at this
  simpa using this

/-- **C61.** Everybody with power at the proposal's start may vote until it expires: once, or with
revoting again for another position. -/
theorem C61_vote_accepted {P : Addr → Nat → Nat} {T : Nat → Nat} {s : State} {b : Block}
    {log : List Event} (h : Reach s b log) (hpow : StablePowers log P T) {id : Nat} {p : Proposal}
    (hp : s.proposals.get id = some p) {env : Env} {v : Vote} {r : Option Nat}
    (hrange : v < p.choices.length) (hopen : p.expiration.isExpired env.block = false)
    (hans : env.power s.config.dao env.sender p.startHeight = P env.sender p.startHeight)
    (h0 : P env.sender p.startHeight ≠ 0)
    (hb : s.ballots.get (id, env.sender) = none ∨
      (p.allowRevoting = true ∧ ∃ bal, s.ballots.get (id, env.sender) = some bal ∧ bal.vote ≠ v)) :
    ∃ s' out, step s env (.vote id v r) = .ok (s', out) := by
  have hi := inv_reach h
  have hpi := powInv_reach h hpow
  have hsane := sane_prop hi hpi hpow.bounded hp
  have hu := hsane.u128
  have hlen := hsane.shape.len
  have key : ∃ w votes, withdrawBallot p (s.ballots.get (id, env.sender)) v = .ok w ∧
      w.addVote v (P env.sender p.startHeight) = .ok votes ∧
      castTotal votes ≤ p.totalPower ∧ P env.sender p.startHeight < U128 := by
    rcases hb with hb | ⟨hrev, bal, hb, hne⟩
    · have hroom := room_for_vote hi hpi hpow.bounded hp hb
      have hc : weight p.votes v ≤ castTotal p.votes := getD_le_sum p.votes.weights v
      obtain ⟨votes, hv⟩ := addVote_total (t := p.votes) (v := v) (n := P env.sender p.startHeight)
        (Nat.lt_of_lt_of_eq hrange hlen) (by omega)
      refine ⟨p.votes, votes, by rw [hb]; rfl, hv, ?_, by omega⟩
      rw [addVote_sum hv]; exact hroom
    · have hle := ballot_le_count hi hp hb
      have hpw := hpi.bal id env.sender bal p hp hb
      have hbr := (hi.prop id p hp).range env.sender bal hb
      obtain ⟨w, hw⟩ := removeVote_total (Nat.lt_of_lt_of_eq hbr hlen) hle
      have hfit := hsane.fits
      have hws := removeVote_sum hw
      have hwl := removeVote_len hw
      have hcw : weight w v ≤ castTotal w := getD_le_sum w.weights v
      obtain ⟨votes, hv⟩ := addVote_total (t := w) (v := v) (n := P env.sender p.startHeight)
        (by rw [hwl]; exact Nat.lt_of_lt_of_eq hrange hlen) (by rw [← hpw]; omega)
      refine ⟨w, votes, ?_, hv, ?_, by rw [← hpw]; omega⟩
      · rw [hb]; simp [withdrawBallot, hrev, hne, hw]
      · rw [addVote_sum hv, ← hpw]; omega
  obtain ⟨w, votes, hw, hv, hfit, hlt⟩ := key
  have hs' : Proposal.Sane { p with votes := votes } := ⟨hfit, hu, hsane.valid,
    ⟨by
      show p.choices.length = votes.weights.length
      rw [addVote_len hv, withdraw_len hw]; exact hlen, hsane.shape.2, hsane.shape.3, hsane.shape.4⟩⟩
  obtain ⟨st, hst⟩ := currentStatus_total hs' (hi.prop id p hp).vetoUnit env.block
  have hq : queryPower env s.config.dao env.sender p.startHeight = .ok (P env.sender p.startHeight) := by
    unfold queryPower; rw [hans, if_pos hlt]
  simp only [step, execVote, hp, orErr, ok_bind, hrange, decide_true, hopen, Bool.not_false, require, if_true, hq, h0, ne_eq,
    not_false_eq_true, hw, hv, Proposal.updateStatus, hst]
  exact ⟨_, _, rfl⟩

/-- **C61.** A proposal reported as passed can be executed by anybody (by any member, if only members
may execute); if it has messages and they fail, this needs closing on failure to be enabled. -/
theorem C61_passed_executable_given_winner {s : State} {id : Nat} {p : Proposal} {env : Env} {f : Bool}
    (hp : s.proposals.get id = some p) (hst : p.currentStatus env.block = .ok .passed)
    (hwin : ∃ msgs, winningMsgs p = .ok msgs)
    (hmem : s.config.onlyMembersExecute = true →
      env.power s.config.dao env.sender p.startHeight ≠ 0 ∧
      env.power s.config.dao env.sender p.startHeight < U128)
    (hf : f = true → s.config.closeOnExecutionFailure = true) :
    ∃ s' out, step s env (.execute id f) = .ok (s', out) := by
  have hcan : senderCanExecute s env p = .ok true := by
    unfold senderCanExecute
    split
    · rename_i ho
      obtain ⟨h1, h2⟩ := hmem ho
      have : queryPower env s.config.dao env.sender p.startHeight
          = .ok (env.power s.config.dao env.sender p.startHeight) := by
        unfold queryPower; rw [if_pos h2]
      simp only [this, ok_bind, h1, ne_eq, not_false_eq_true, decide_true]
    · rfl
  obtain ⟨msgs, hwin⟩ := hwin
  have hwin' : winningMsgs { p with status := .passed } = .ok msgs := hwin
  simp only [step, execExecute, hp, orErr, ok_bind, hcan, Proposal.updateStatus, hst, executeCheck,
    require, if_true, hwin']
  split
  · exact ⟨_, _, rfl⟩
  · split
    · exact ⟨_, _, rfl⟩
    · rename_i hclose
      cases f with
      | true => exact absurd (hf rfl) hclose
      | false => exact ⟨_, _, rfl⟩

/-- **C61.** A proposal that is reported as passed has a winner, so anybody (any member, if only members
may execute) can execute it. -/
theorem C61_passed_executable {P : Addr → Nat → Nat} {T : Nat → Nat} {s : State} {b : Block}
    {log : List Event} (h : Reach s b log) (hpow : StablePowers log P T) {id : Nat} {p : Proposal}
    {env : Env} {f : Bool} (hb : b.le env.block)
    (hp : s.proposals.get id = some p) (hst : p.currentStatus env.block = .ok .passed)
    (hmem : s.config.onlyMembersExecute = true →
      env.power s.config.dao env.sender p.startHeight ≠ 0 ∧
      env.power s.config.dao env.sender p.startHeight < U128)
    (hf : f = true → s.config.closeOnExecutionFailure = true) :
    ∃ s' out, step s env (.execute id f) = .ok (s', out) := by
  have hs := sane_prop (inv_reach h) (powInv_reach h hpow) hpow.bounded hp
  have hw := wasPassed_current hs (fun hpl => wasPassed_mono (passInv_reach h hpow id p hp hpl) hb)
    hst trivial
  obtain ⟨_, _, _, i, hi1, _, _⟩ := passedP_of_was hs hw
  refine C61_passed_executable_given_winner hp hst ?_ hmem hf
  rcases voteResult_spec hs.shape with ⟨j, c, _, _, hr⟩ | ⟨hno, _⟩
  · exact ⟨c.msgs, by simp only [winningMsgs, hr, ok_bind]⟩
  · exact absurd hi1 (hno i)

/-- **C61.** With members-only execution an address without power at the proposal's start cannot
execute a passed proposal. -/
theorem C61_members_only {s s' : State} {id : Nat} {p : Proposal} {env : Env} {f : Bool} {out : Out}
    (hp : s.proposals.get id = some p) (hst : p.currentStatus env.block = .ok .passed)
    (honly : s.config.onlyMembersExecute = true)
    (h : step s env (.execute id f) = .ok (s', out)) :
    env.power s.config.dao env.sender p.startHeight ≠ 0 := by
  obtain ⟨q, st, st', msgs, hq, hst', _, _, _, hcan, _⟩ := execExecute_inv h
  rw [hp] at hq; injection hq with hq; subst hq
  rw [hst] at hst'; injection hst' with hst'; subst hst'
  have := hcan rfl
  unfold senderCanExecute at this
  rw [if_pos honly] at this
  simp only [bind_ok, Except.ok.injEq, decide_eq_true_eq] at this
  obtain ⟨pw, h1, h2⟩ := this
  rw [(queryPower_ok h1).1] at h2; exact h2

/-- **C61.** A proposal reported as rejected can be closed by anybody. -/
theorem C61_rejected_closable {s : State} {id : Nat} {p : Proposal} {env : Env}
    (hp : s.proposals.get id = some p) (hst : p.currentStatus env.block = .ok .rejected) :
    ∃ s' out, step s env (.close id) = .ok (s', out) := by
  simp only [step, execClose, hp, orErr, ok_bind, Proposal.updateStatus, hst, require, decide_true,
    if_true]
  exact ⟨_, _, rfl⟩

/-- The status a notification announces for proposal `id`, if it announces one. -/
def announced (id : Nat) : Msg → Option Status
  | .statusHook _ i _ new => if i = id then some new else none
  | .completedHook _ i st => if i = id then some st else none
  | _ => none

theorem announced_status {h : Hooks.HookList} {id : Nat} {old new : Status} :
    ∀ m ∈ statusChangedHooks h id old new, announced id m.msg = some new := by
  intro m hm
  unfold statusChangedHooks at hm
  split at hm
  · simp at hm
  · simp only [Hooks.prepareHooks, List.mem_map] at hm
    obtain ⟨y, _, rfl⟩ := hm
    simp [announced]

theorem announced_completed {p : CreationPolicy} {id : Nat} {st : Status} :
    ∀ m ∈ completedHooks p id st, announced id m.msg = some st := by
  intro m hm
  cases p with
  | anyone => simp [completedHooks] at hm
  | module a => simp only [completedHooks, List.mem_singleton] at hm; subst hm; simp [announced]

/-- **C62**, for vetoes, closings and executions that do not fail: every notification about the
proposal announces the status it now has recorded. (Votes: `C62_vote`. For failing executions the
claim is false: `C62_false_on_failure`.) -/
theorem C62_announced_partial {s s' : State} {env : Env} {call : Call} {out : Out} {id : Nat}
    (hc : call = .veto id ∨ call = .close id ∨ call = .execute id false)
    (h : step s env call = .ok (s', out)) {m : SubMsg} (hm : m ∈ out.msgs) {st : Status}
    (ha : announced id m.msg = some st) : ∃ p, s'.proposals.get id = some p ∧ p.status = st := by
  rcases hc with rfl | rfl | rfl
  · obtain ⟨p, st', hp, _, _, rfl, rfl⟩ := execVeto_inv h
    refine ⟨_, AMap.get_set_self _ _ _, ?_⟩
    rcases List.mem_append.1 hm with hm | hm
    · rw [announced_status m hm] at ha; injection ha
    · rw [announced_completed m hm] at ha; injection ha
  · obtain ⟨p, hp, _, rfl, rfl⟩ := execClose_inv h
    refine ⟨_, AMap.get_set_self _ _ _, ?_⟩
    rcases List.mem_append.1 hm with hm | hm
    · rw [announced_status m hm] at ha; injection ha
    · rw [announced_completed m hm] at ha; injection ha
  · obtain ⟨p, st1, st', msgs, hp, _, _, _, hst', _, rfl, ho, _⟩ := execExecute_inv h
    refine ⟨_, AMap.get_set_self _ _ _, ?_⟩
    have hx : st' = .executed := by
      rcases ho with ⟨_, h, _⟩ | ⟨_, h, _⟩
      · exact h
      · rcases hst' with h' | h'
        · exact h'
        · exact absurd (h.1 h') (by simp)
    have htail : m ∈ statusChangedHooks s.proposalHooks id st1 .executed
        ++ completedHooks s.policy id .executed := by
      rcases ho with ⟨_, _, ho⟩ | ⟨_, _, _, rid, ho⟩
      · rw [ho] at hm; exact hm
      · rw [ho] at hm
        rcases List.mem_cons.1 hm with hm | hm
        · subst hm; simp [announced] at ha
        · exact hm
    show st' = st
    rw [hx]
    rcases List.mem_append.1 htail with hm | hm
    · rw [announced_status m hm] at ha; injection ha
    · rw [announced_completed m hm] at ha; injection ha

/-- **C62.** A vote announces the status recorded by it. -/
theorem C62_vote {s s' : State} {env : Env} {out : Out} {id : Nat} {v : Vote} {r : Option Nat}
    (h : step s env (.vote id v r) = .ok (s', out)) {m : SubMsg} (hm : m ∈ out.msgs) {st : Status}
    (ha : announced id m.msg = some st) : ∃ p, s'.proposals.get id = some p ∧ p.status = st := by
  obtain ⟨p, power, w, votes, st', _, _, _, _, _, _, _, _, _, rfl, rfl⟩ := execVote_inv h
  refine ⟨_, AMap.get_set_self _ _ _, ?_⟩
  rcases List.mem_append.1 hm with hm | hm
  · rw [announced_status m hm] at ha; injection ha
  · simp only [newVoteHooks, Hooks.prepareHooks, List.mem_map] at hm
    obtain ⟨y, _, rfl⟩ := hm
    simp [announced] at ha

/-- **C62 is false** for an execution whose messages fail: everything announced says "executed", while
the recorded status is "execution failed". -/
theorem C62_false_on_failure {s s' : State} {env : Env} {out : Out} {id : Nat} {p : Proposal}
    (hp : s.proposals.get id = some p) (hne : winningMsgs p ≠ .ok [])
    (h : step s env (.execute id true) = .ok (s', out)) :
    (∃ p', s'.proposals.get id = some p' ∧ p'.status = .executionFailed) ∧
      ∀ m ∈ out.msgs, ∀ st, announced id m.msg = some st → st = .executed := by
  obtain ⟨q, st1, st', msgs, hq, _, hwm, _, hst', _, rfl, ho, _⟩ := execExecute_inv h
  rw [hp] at hq; injection hq with hq; subst hq
  rcases ho with ⟨h0, _⟩ | ⟨_, h1, _, rid, ho⟩
  · rw [h0] at hwm; exact absurd hwm hne
  refine ⟨⟨_, AMap.get_set_self _ _ _, h1.2 rfl⟩, ?_⟩
  intro m hm st ha
  rw [ho] at hm
  rcases List.mem_cons.1 hm with hm | hm
  · subst hm; simp [announced] at ha
  · rcases List.mem_append.1 hm with hm | hm
    · rw [announced_status m hm] at ha; injection ha with ha; exact ha.symm
    · rw [announced_completed m hm] at ha; injection ha with ha; exact ha.symm

/-- Such a failing execution exists: the last call of `history` is one. -/
theorem failing_execution_exists :
    (historyEnd.map fun r => r.2.2.head?.map fun e => decide (e.call = .execute 1 true)) = some (some true) := by
  decide +kernel

end Verif.Multiple
