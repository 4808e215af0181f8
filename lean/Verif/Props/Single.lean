import Verif.Proofs.SingleTime
import Verif.Props.SingleDecision
/-!
# C06-C11, C13-C15: histories of dao-proposal-single

All theorems speak of an arbitrary history: `Reach s b log` says that the successful calls `log`
(newest first), made by anybody in any order with any arguments and any answers of the voting module,
lead from some instantiation to state `s` in block `b`.
-/

namespace Verif.Single
open Verif Verif.Voting Verif.Spec

/-- **C06.** The counters of every proposal are the sums of its recorded ballots. -/
theorem C06_tally_is_ballot_sum {s : State} {b : Block} {log : List Event} (h : Reach s b log)
    {id : Nat} {p : Proposal} (hp : s.proposals.get id = some p) :
    p.votes.yes = ballotSum s id .yes ∧ p.votes.no = ballotSum s id .no ∧
      p.votes.abstain = ballotSum s id .abstain := by
  have ht := ((inv_reach h).prop id p hp).tally
  exact ⟨ht .yes, ht .no, ht .abstain⟩

/-- **C07.** At most one ballot is stored per address and proposal. -/
theorem C07_one_ballot {s : State} {b : Block} {log : List Event} (h : Reach s b log) :
    (s.ballots.map (fun e => e.1)).Nodup := (inv_reach h).wfB

/-- **C07.** Without revoting a ballot once cast keeps its vote and power for ever. -/
theorem C07_ballot_permanent {s s' : State} {b b' : Block} {log l : List Event} (h : Reach s b log)
    (hr : Run s b l s' b') {id : Nat} {a : Addr} {p : Proposal} {bal : Ballot}
    (hp : s.proposals.get id = some p) (hrev : p.allowRevoting = false)
    (hb : s.ballots.get (id, a) = some bal) :
    ∃ bal', s'.ballots.get (id, a) = some bal' ∧ bal'.vote = bal.vote ∧ bal'.power = bal.power :=
  run_ballot hr (inv_reach h) hp hrev hb

/-- **C07.** Without revoting a second vote is refused, whatever it says and whenever it comes. -/
theorem C07_second_vote_refused {s : State} {id : Nat} {p : Proposal} {bal : Ballot} {env : Env}
    {v : Vote} {r : Option Nat} (hp : s.proposals.get id = some p) (hrev : p.allowRevoting = false)
    (hb : s.ballots.get (id, env.sender) = some bal) :
    ∀ res, step s env (.vote id v r) ≠ .ok res := by
  rintro ⟨s', out⟩ h
  obtain ⟨q, power, w, votes, st, hq, _, _, _, _, hw, _⟩ := execVote_inv h
  rw [hp] at hq; injection hq with hq; subst hq
  rw [hb] at hw
  simp [withdrawBallot, hrev] at hw

/-- **C07.** A vote records exactly the sender's position with the sender's power at the proposal's
start height, replacing an earlier ballot (C06 then says it is the only one counted), and touches no
other ballot. It is refused after expiry and for addresses without power. -/
theorem C07_vote_recorded {s s' : State} {id : Nat} {env : Env} {v : Vote} {r : Option Nat}
    {out : Out} (h : step s env (.vote id v r) = .ok (s', out)) :
    ∃ p, s.proposals.get id = some p ∧ p.expiration.isExpired env.block = false ∧
      s'.ballots.get (id, env.sender) = some ⟨env.power s.config.dao env.sender p.startHeight, v, r⟩ ∧
      env.power s.config.dao env.sender p.startHeight ≠ 0 ∧
      ∀ k, k ≠ (id, env.sender) → s'.ballots.get k = s.ballots.get k := by
  obtain ⟨p, power, w, votes, st, hp, hexp, hpow, _, h0, _, _, _, rfl, _⟩ := execVote_inv h
  subst hpow
  refine ⟨p, hp, hexp, by simp, h0, fun k hk => ?_⟩
  simp only [AMap.get_set]
  rw [if_neg (fun he => hk he.symm)]

/-- **C07.** The ballots of an address change only by its own call, or by a proposal made on its
behalf through the pre-propose module (vote-with-proposal). -/
theorem C07_only_the_voter {s s' : State} {env : Env} {call : Call} {out : Out} {id : Nat} {a : Addr}
    (h : step s env call = .ok (s', out))
    (hne : s'.ballots.get (id, a) ≠ s.ballots.get (id, a)) :
    env.sender = a ∨ ∃ c m v r z, call = .propose (some a) c m (some (v, r)) z ∧
      s.policy = .module env.sender := by
  have hv : ∀ {s1 : State} {voter : Addr} {id' : Nat} {v : Vote} {r : Option Nat} {o : Out},
      s1.ballots = s.ballots → execVote s1 env voter id' v r = .ok (s', o) → voter = a := by
    intro s1 voter id' v r o hs hx
    obtain ⟨p, power, w, votes, st, hp, hexp, hpow, _, h0, _, _, _, rfl, _⟩ := execVote_inv hx
    simp only [AMap.get_set] at hne
    by_cases he : (id', voter) = (id, a)
    · injection he
    · rw [if_neg he, hs] at hne; exact absurd rfl hne
  cases call with
  | vote id' v r => exact Or.inl (hv rfl h)
  | propose g c m vo z =>
    obtain ⟨proposer, total, st, s1, h1, h2, _, _, _, _, _, h8, _, h9⟩ := execPropose_inv h
    rcases h9 with ⟨_, rfl, _⟩ | ⟨v, r, o, hvo, hx, _⟩
    · rw [h8] at hne; exact absurd rfl hne
    · have hpa := hv (by rw [h8]) hx
      subst hvo; subst hpa
      unfold resolveProposer at h2
      split at h2
      · injection h2 with h2; exact Or.inl h2
      · rename_i a' m' hpol
        injection h2 with h2; subst h2
        right
        refine ⟨c, m, v, r, z, rfl, ?_⟩
        rw [hpol] at h1
        simp [CreationPolicy.isPermitted] at h1
        rw [hpol, h1]
      · cases h2
  | updateRationale id' r =>
    unfold step execUpdateRationale at h
    simp only [bind_ok, orErr_ok, Except.ok.injEq, Prod.mk.injEq] at h
    obtain ⟨b, hb, rfl, _⟩ := h
    simp only [AMap.get_set] at hne
    by_cases he : (id', env.sender) = (id, a)
    · injection he with _ he; exact Or.inl he
    · rw [if_neg he] at hne; exact absurd rfl hne
  | execute id' f =>
    obtain ⟨p, st, st', hp, hst, hm, _, _, rfl, _⟩ := execExecute_inv h
    exact absurd rfl hne
  | close id' =>
    obtain ⟨p, hp, hst, rfl, _⟩ := execClose_inv h
    exact absurd rfl hne
  | veto id' =>
    obtain ⟨p, st, hp, hst, hm, rfl, _⟩ := execVeto_inv h
    exact absurd rfl hne
  | updateConfig c =>
    unfold step execUpdateConfig at h
    simp only [bind_ok, require_ok, Except.ok.injEq, Prod.mk.injEq] at h
    obtain ⟨_, _, _, hv, rfl, _⟩ := h
    exact absurd rfl hne
  | updatePreProposeInfo i =>
    unfold step execUpdatePolicy at h
    simp only [bind_ok, require_ok, Except.ok.injEq, Prod.mk.injEq] at h
    obtain ⟨_, _, rfl, _⟩ := h
    exact absurd rfl hne
  | addProposalHook a =>
    unfold step execAddProposalHook at h
    simp only [bind_ok, require_ok, Except.ok.injEq, Prod.mk.injEq] at h
    obtain ⟨_, _, _, _, rfl, _⟩ := h
    exact absurd rfl hne
  | removeProposalHook a =>
    unfold step execRemoveProposalHook at h
    simp only [bind_ok, require_ok, Except.ok.injEq, Prod.mk.injEq] at h
    obtain ⟨_, _, _, _, rfl, _⟩ := h
    exact absurd rfl hne
  | addVoteHook a =>
    unfold step execAddVoteHook at h
    simp only [bind_ok, require_ok, Except.ok.injEq, Prod.mk.injEq] at h
    obtain ⟨_, _, _, _, rfl, _⟩ := h
    exact absurd rfl hne
  | removeVoteHook a =>
    unfold step execRemoveVoteHook at h
    simp only [bind_ok, require_ok, Except.ok.injEq, Prod.mk.injEq] at h
    obtain ⟨_, _, _, _, rfl, _⟩ := h
    exact absurd rfl hne
  | replyFailedProposalHook i =>
    unfold step replyProposalHook at h
    simp only [bind_ok, Except.ok.injEq, Prod.mk.injEq, Prod.exists] at h
    obtain ⟨_, _, _, rfl, _⟩ := h
    exact absurd rfl hne
  | replyFailedVoteHook i =>
    unfold step replyVoteHook at h
    simp only [bind_ok, Except.ok.injEq, Prod.mk.injEq, Prod.exists] at h
    obtain ⟨_, _, _, rfl, _⟩ := h
    exact absurd rfl hne
  | replyPreProposeInstantiated a =>
    simp only [step, Except.ok.injEq, Prod.mk.injEq] at h
    obtain ⟨rfl, _⟩ := h
    exact absurd rfl hne
  | replyFailedPreProposeHook =>
    simp only [step, replyPreProposeFailed] at h
    split at h
    · simp at h
    · simp only [Except.ok.injEq, Prod.mk.injEq] at h
      obtain ⟨rfl, _⟩ := h
      exact absurd rfl hne

/-- **C08.** If the voting module is consistent (powers fixed per height and adding up to at most the
total), the counted votes never exceed the total power of the proposal. -/
theorem C08_votes_within_power {P : Addr → Nat → Nat} {T : Nat → Nat} {s : State} {b : Block}
    {log : List Event} (h : Reach s b log) (hpow : StablePowers log P T) {id : Nat} {p : Proposal}
    (hp : s.proposals.get id = some p) : WithinPower p.votes p.totalPower :=
  fits_of (inv_reach h) (powInv_reach h hpow) hpow.bounded hp

/-- **C09.** The recorded status moves along the allowed edges only; the proposal never disappears. -/
theorem C09_lifecycle {s s' : State} {b b' : Block} {log l : List Event} (h : Reach s b log)
    (hr : Run s b l s' b') {id : Nat} {p : Proposal} (hp : s.proposals.get id = some p) :
    ∃ p', s'.proposals.get id = some p' ∧ Path p.status p'.status := by
  obtain ⟨p', h1, _, h2⟩ := run_prop hr (inv_reach h) hp
  exact ⟨p', h1, h2⟩

/-- **C09.** The status a query reports is the recorded one or one allowed change later. -/
theorem C09_reported {p : Proposal} {b : Block} {st : Status} (h : p.currentStatus b = .ok st) :
    st = p.status ∨ Edge p.status st := by
  have := currentStatus_path h
  unfold Proposal.currentStatus at h
  split at h
  · rename_i hs; rw [hs]
    simp only [bind_ok] at h
    obtain ⟨passed, _, h⟩ := h
    split at h
    · split at h
      · simp only [bind_ok] at h
        obtain ⟨e, _, h⟩ := h
        split at h <;> injection h with h <;> subst h
        · exact Or.inr .pass
        · exact Or.inr (.lock _)
      · injection h with h; subst h; exact Or.inr .pass
    · split at h
      · injection h with h; subst h; exact Or.inr .reject
      · simp only [bind_ok] at h
        obtain ⟨r, _, h⟩ := h
        split at h <;> injection h with h <;> subst h
        · exact Or.inr .reject
        · exact Or.inl rfl
  · rename_i e hs; rw [hs]
    split at h <;> injection h with h <;> subst h
    · exact Or.inr (.unlock _)
    · exact Or.inl rfl
  · injection h with h; exact Or.inl h.symm

/-- **C09.** Executed, execution failed, closed and vetoed are final, recorded and reported. -/
theorem C09_final {s s' : State} {b b' : Block} {log l : List Event} (h : Reach s b log)
    (hr : Run s b l s' b') {id : Nat} {p : Proposal} (hp : s.proposals.get id = some p)
    (hf : Final p.status) :
    ∃ p', s'.proposals.get id = some p' ∧ p'.status = p.status ∧
      ∀ b'', p'.currentStatus b'' = .ok p.status := by
  obtain ⟨p', h1, _, h2⟩ := run_prop hr (inv_reach h) hp
  have h3 := h2.final hf
  refine ⟨p', h1, h3, fun b'' => ?_⟩
  unfold Proposal.currentStatus
  rw [h3]
  cases hst : p.status <;> rw [hst] at hf <;> first | rfl | exact False.elim hf

/-! ### C10 -/

theorem step_execute {s s' : State} {env : Env} {call : Call} {out : Out} {id : Nat}
    (h : step s env call = .ok (s', out)) (hc : isExecuteOf id call = true) :
    ∃ p st p', s.proposals.get id = some p ∧ p.currentStatus env.block = .ok st ∧
      (st = .passed ∨ ∃ e v, st = .vetoTimelock e ∧ p.veto = some v ∧ v.vetoer = env.sender ∧
        v.earlyExecute = true) ∧
      s'.proposals.get id = some p' ∧ (p'.status = .executed ∨ p'.status = .executionFailed) := by
  cases call <;> simp [isExecuteOf] at hc
  subst hc
  obtain ⟨p, st, st', hp, hst, hm, hst', _, rfl, _⟩ := execExecute_inv h
  refine ⟨p, st, _, hp, hst, ?_, AMap.get_set_self _ _ _, hst'⟩
  cases hm with
  | close => rcases hst' with h | h <;> cases h
  | veto => rcases hst' with h | h <;> cases h
  | exec h _ => exact h

theorem final_not_exec {s : State} {env : Env} {call : Call} {id : Nat} {p : Proposal}
    (hp : s.proposals.get id = some p) (hf : Final p.status)
    (hc : isExecuteOf id call = true) : ∀ res, step s env call ≠ .ok res := by
  rintro ⟨s', out⟩ h
  obtain ⟨q, st, _, hq, hst, hx, _⟩ := step_execute h hc
  rw [hp] at hq; injection hq with hq; subst hq
  have := currentStatus_final hst hf
  rw [← this] at hf
  rcases hx with rfl | ⟨_, _, rfl, _⟩ <;> exact hf

/-- **C10.** Over any history a proposal is executed at most once. -/
theorem C10_execute_once {s : State} {b : Block} {log : List Event} (h : Reach s b log) (id : Nat) :
    (log.filter (fun e => isExecuteOf id e.call)).length ≤ 1 := by
  obtain ⟨env, c, i, s0, out, h0, hr⟩ := h
  have key : ∀ {s b log}, Run s0 env.block log s b →
      (log.filter (fun e => isExecuteOf id e.call)).length ≤ 1 ∧
      ((log.filter (fun e => isExecuteOf id e.call)).length = 1 →
        ∃ p, s.proposals.get id = some p ∧ Final p.status) := by
    intro s b log hr
    induction hr with
    | refl => exact ⟨by simp, by simp⟩
    | @step s1 s2 b1 log env' call out' hr hb h ih =>
      have hinv := inv_run hr (inv_init h0)
      by_cases hc : isExecuteOf id call = true
      · have hlen : (log.filter (fun e => isExecuteOf id e.call)).length = 0 := by
          by_cases h1 : (log.filter (fun e => isExecuteOf id e.call)).length = 1
          · obtain ⟨p, hp, hf⟩ := ih.2 h1
            exact absurd h (final_not_exec hp hf hc _)
          · omega
        refine ⟨by simp [hc, hlen], fun _ => ?_⟩
        obtain ⟨_, _, p', _, _, _, hp', hst⟩ := step_execute h hc
        exact ⟨p', hp', by rcases hst with h | h <;> rw [h] <;> trivial⟩
      · simp only [List.filter_cons, hc, Bool.false_eq_true, if_false]
        refine ⟨ih.1, fun h1 => ?_⟩
        obtain ⟨p, hp, hf⟩ := ih.2 h1
        obtain ⟨p', hp', _, hpath⟩ := run_prop (.step .refl hb h) hinv hp
        exact ⟨p', hp', by rw [hpath.final hf]; exact hf⟩
  exact (key hr).1

theorem hooks_not_exec {h : Hooks.HookList} {id : Nat} {x : Addr} :
    ∀ m ∈ newProposalHooks h id x, isExecuteOnDao m.msg = false := by
  intro m hm
  simp only [newProposalHooks, Hooks.prepareHooks, List.mem_map] at hm
  obtain ⟨y, _, rfl⟩ := hm; rfl

theorem status_not_exec {h : Hooks.HookList} {id : Nat} {a b : Status} :
    ∀ m ∈ statusChangedHooks h id a b, isExecuteOnDao m.msg = false := by
  intro m hm
  unfold statusChangedHooks at hm
  split at hm
  · simp at hm
  · simp only [Hooks.prepareHooks, List.mem_map] at hm
    obtain ⟨y, _, rfl⟩ := hm; rfl

theorem vote_not_exec {h : Hooks.HookList} {id : Nat} {a : Addr} {v : Vote} :
    ∀ m ∈ newVoteHooks h id a v, isExecuteOnDao m.msg = false := by
  intro m hm
  simp only [newVoteHooks, Hooks.prepareHooks, List.mem_map] at hm
  obtain ⟨y, _, rfl⟩ := hm; rfl

theorem completed_not_exec {p : CreationPolicy} {id : Nat} {a : Status} :
    ∀ m ∈ completedHooks p id a, isExecuteOnDao m.msg = false := by
  intro m hm
  cases p with
  | anyone => simp [completedHooks] at hm
  | module a =>
    simp only [completedHooks, List.mem_singleton] at hm
    subst hm; rfl

theorem initial_not_exec {i : PreProposeInfo} :
    ∀ m ∈ (initialPolicy i).2, isExecuteOnDao m.msg = false := by
  intro m hm
  cases i with
  | anyoneMayPropose => simp [initialPolicy] at hm
  | moduleMayPropose =>
    simp only [initialPolicy, List.mem_singleton] at hm
    subst hm; rfl

theorem execVote_not_exec {s s' : State} {env : Env} {voter : Addr} {id : Nat} {v : Vote}
    {r : Option Nat} {out : Out} (h : execVote s env voter id v r = .ok (s', out)) :
    ∀ m ∈ out.msgs, isExecuteOnDao m.msg = false := by
  obtain ⟨p, power, w, votes, st, hp, hexp, hpow, _, h0, _, _, _, rfl, rfl⟩ := execVote_inv h
  intro m hm
  simp only [List.mem_append] at hm
  rcases hm with hm | hm
  · exact status_not_exec m hm
  · exact vote_not_exec m hm

/-- **C10.** Only an execution asks the DAO to run messages, and then it asks once, for exactly the
messages of the executed proposal. -/
theorem C10_only_execute_sends {s s' : State} {env : Env} {call : Call} {out : Out}
    (h : step s env call = .ok (s', out)) {m : SubMsg} (hm : m ∈ out.msgs)
    (hx : isExecuteOnDao m.msg = true) :
    ∃ id p f, call = .execute id f ∧ s.proposals.get id = some p ∧
      m.msg = .executeOnDao s.config.dao p.msgs ∧
      (out.msgs.filter (fun m => isExecuteOnDao m.msg)).length = 1 := by
  have no : ∀ {l : List SubMsg}, (∀ m ∈ l, isExecuteOnDao m.msg = false) → m ∈ l → False := by
    intro l hl hml
    rw [hl m hml] at hx; cases hx
  cases call with
  | execute id f =>
    obtain ⟨p, st, st', hp, hst, _, _, _, rfl, ho, _⟩ := execExecute_inv h
    have htail : ∀ m ∈ statusChangedHooks s.proposalHooks id st .executed
        ++ completedHooks s.policy id .executed, isExecuteOnDao m.msg = false := by
      intro m hm
      rcases List.mem_append.1 hm with hm | hm
      · exact status_not_exec m hm
      · exact completed_not_exec m hm
    rcases ho with ⟨_, _, ho⟩ | ⟨_, _, _, rid, ho⟩
    · rw [ho] at hm; exact absurd hm (fun h => no htail h)
    · refine ⟨id, p, f, rfl, hp, ?_, ?_⟩
      · rw [ho] at hm
        rcases List.mem_cons.1 hm with hm | hm
        · rw [hm]
        · exact absurd hm (fun h => no htail h)
      · rw [ho, List.filter_cons]
        rw [List.filter_eq_nil_iff.2 (fun m hm => by rw [htail m hm]; simp)]
        rfl
  | vote id v r => exact absurd hm (fun h' => no (execVote_not_exec h) h')
  | propose g c ms vo z =>
    obtain ⟨proposer, total, st, s1, h1, h2, _, _, _, _, _, h8, _, h9⟩ := execPropose_inv h
    rcases h9 with ⟨_, rfl, ho⟩ | ⟨v, r, o, hvo, hx', ho⟩
    · rw [ho] at hm; exact absurd hm (fun h => no hooks_not_exec h)
    · rw [ho] at hm
      rcases List.mem_append.1 hm with hm | hm
      · exact absurd hm (fun h => no hooks_not_exec h)
      · exact absurd hm (fun h => no (execVote_not_exec hx') h)
  | updateRationale id' r =>
    unfold step execUpdateRationale at h
    simp only [bind_ok, orErr_ok, Except.ok.injEq, Prod.mk.injEq] at h
    obtain ⟨b, hb, _, rfl⟩ := h
    simp at hm
  | close id' =>
    obtain ⟨p, hp, hst, _, rfl⟩ := execClose_inv h
    rcases List.mem_append.1 hm with hm | hm
    · exact absurd hm (fun h => no status_not_exec h)
    · exact absurd hm (fun h => no completed_not_exec h)
  | veto id' =>
    obtain ⟨p, st, hp, hst, _, _, rfl⟩ := execVeto_inv h
    rcases List.mem_append.1 hm with hm | hm
    · exact absurd hm (fun h => no status_not_exec h)
    · exact absurd hm (fun h => no completed_not_exec h)
  | updateConfig c =>
    unfold step execUpdateConfig at h
    simp only [bind_ok, require_ok, Except.ok.injEq, Prod.mk.injEq] at h
    obtain ⟨_, _, _, hv, _, rfl⟩ := h
    simp at hm
  | updatePreProposeInfo i =>
    unfold step execUpdatePolicy at h
    simp only [bind_ok, require_ok, Except.ok.injEq, Prod.mk.injEq] at h
    obtain ⟨_, _, _, rfl⟩ := h
    exact absurd hm (fun h => no initial_not_exec h)
  | addProposalHook a =>
    unfold step execAddProposalHook at h
    simp only [bind_ok, require_ok, Except.ok.injEq, Prod.mk.injEq] at h
    obtain ⟨_, _, _, _, _, rfl⟩ := h
    simp at hm
  | removeProposalHook a =>
    unfold step execRemoveProposalHook at h
    simp only [bind_ok, require_ok, Except.ok.injEq, Prod.mk.injEq] at h
    obtain ⟨_, _, _, _, _, rfl⟩ := h
    simp at hm
  | addVoteHook a =>
    unfold step execAddVoteHook at h
    simp only [bind_ok, require_ok, Except.ok.injEq, Prod.mk.injEq] at h
    obtain ⟨_, _, _, _, _, rfl⟩ := h
    simp at hm
  | removeVoteHook a =>
    unfold step execRemoveVoteHook at h
    simp only [bind_ok, require_ok, Except.ok.injEq, Prod.mk.injEq] at h
    obtain ⟨_, _, _, _, _, rfl⟩ := h
    simp at hm
  | replyFailedProposalHook i =>
    unfold step replyProposalHook at h
    simp only [bind_ok, Except.ok.injEq, Prod.mk.injEq, Prod.exists] at h
    obtain ⟨_, _, _, _, rfl⟩ := h
    simp at hm
  | replyFailedVoteHook i =>
    unfold step replyVoteHook at h
    simp only [bind_ok, Except.ok.injEq, Prod.mk.injEq, Prod.exists] at h
    obtain ⟨_, _, _, _, rfl⟩ := h
    simp at hm
  | replyPreProposeInstantiated a =>
    simp only [step, Except.ok.injEq, Prod.mk.injEq] at h
    obtain ⟨_, rfl⟩ := h
    simp at hm
  | replyFailedPreProposeHook =>
    simp only [step, replyPreProposeFailed] at h
    split at h
    · simp at h
    · simp only [Except.ok.injEq, Prod.mk.injEq] at h
      obtain ⟨_, rfl⟩ := h
      simp at hm

/-- What `propose` stores: the given content and messages, the configuration's rules and the total
power of the current height. -/
theorem propose_stores {s s' : State} {env : Env} {g : Option Addr} {c : Nat} {ms : List Nat}
    {vo : Option (Vote × Option Nat)} {z : Bool} {out : Out}
    (hi : Inv s) (h : step s env (.propose g c ms vo z) = .ok (s', out)) :
    ∃ p, out.newId = some (s.count + 1) ∧ s'.count = s.count + 1 ∧
      s'.proposals.get (s.count + 1) = some p ∧ p.content = c ∧ p.msgs = ms ∧
      p.threshold = s.config.threshold ∧ p.expiration = s.config.maxVotingPeriod.after env.block ∧
      p.minVotingPeriod = s.config.minVotingPeriod.map (fun d => d.after env.block) ∧
      p.startHeight = env.block.height ∧
      p.totalPower = env.total s.config.dao env.block.height ∧
      p.allowRevoting = s.config.allowRevoting ∧ p.veto = s.config.veto := by
  obtain ⟨proposer, total, st, s1, h1, h2, _, h4, h5, h6, h7, h8, h10, h9⟩ := execPropose_inv h
  have hm := Micro.create (env := env) (s := s) h4 h5 h6 h7
  rcases h9 with ⟨_, rfl, ho⟩ | ⟨v, r, o, hvo, hx', ho⟩
  · subst h8
    refine ⟨_, h10, rfl, AMap.get_set_self _ _ _, rfl, rfl, rfl, rfl, rfl, rfl, h4, rfl, rfl⟩
  · have hi1 := inv_micro hi hm
    rw [← h8] at hi1
    have hg : s1.proposals.get (s.count + 1) = some
        { freshProposal s.config env.block proposer c ms total with status := st } := by
      rw [h8]; simp only [AMap.get_set_self]
    obtain ⟨p', hp', hsr, _⟩ := micro_prop hi1 (execVote_micro hx') hg
    have hcount : s'.count = s1.count := by
      obtain ⟨p, power, w, votes, st, hp, hexp, hpow, _, h0, _, _, _, rfl, _⟩ := execVote_inv hx'
      rfl
    refine ⟨p', h10, by rw [hcount, h8], hp', hsr.content, hsr.msgs, hsr.threshold, hsr.expiration,
      hsr.minVotingPeriod, hsr.startHeight, hsr.totalPower.trans h4, hsr.allowRevoting, hsr.veto⟩

/-- **C10.** The messages executed are those proposed: if call `e` created proposal `id` with messages
`ms`, then in every later state the proposal carries `ms` (which is what an execution sends, by
`C10_only_execute_sends`). -/
theorem C10_messages_unaltered {s : State} {b : Block} {log : List Event} (h : Reach s b log)
    {e : Event} (he : e ∈ log) {g : Option Addr} {c : Nat} {ms : List Nat}
    {vo : Option (Vote × Option Nat)} {z : Bool} (hc : e.call = .propose g c ms vo z) :
    ∃ id p, e.out.newId = some id ∧ s.proposals.get id = some p ∧ p.msgs = ms ∧ p.content = c := by
  obtain ⟨l1, l2, b1, _, h1, _, h3, h4⟩ := reach_split h he
  rw [hc] at h3
  obtain ⟨p, hn, _, hp, hcont, hms, _⟩ := propose_stores (inv_reach h1) h3
  have hinv : Inv e.post := by
    rcases step_micro h3 with hm | ⟨s1, _, hm1, hm2⟩
    · exact inv_micro (inv_reach h1) hm
    · exact inv_micro (inv_micro (inv_reach h1) hm1) hm2
  obtain ⟨p', hp', hsr, _⟩ := run_prop h4 hinv hp
  exact ⟨_, p', hn, hp', hsr.msgs.trans hms, hsr.content.trans hcont⟩

/-- A percentage test without votes passes only for a percentage below 10^-9. -/
theorem passB_zero {n : Nat} {pt : PercentageThreshold} (h : passB 0 n pt = true) :
    ∃ a, pt = .percent a ∧ a < 10 ^ 9 := by
  cases pt with
  | majority => simp [passB] at h
  | percent a =>
    refine ⟨a, rfl, ?_⟩
    simp only [passB, Bool.and_eq_true, decide_eq_true_eq] at h
    have h2 := (pass_iff_aux 0 n a).1 h.2
    have h0 : 1 ≤ n := by omega
    have h3 : 1 * a ≤ n * a := Nat.mul_le_mul_right _ h0
    rw [pow9]; omega

/-- The passing percentage (not the quorum) of a threshold is below 10^-9. -/
def TinyThreshold : Threshold → Prop
  | .absolutePercentage p => ∃ a, p = .percent a ∧ a < 10 ^ 9
  | .thresholdQuorum t _ => ∃ a, t = .percent a ∧ a < 10 ^ 9
  | .absoluteCount _ => False

theorem passedB_zero {p : Proposal} {b : Block} (hv : p.threshold.validate = .ok ())
    (hy : p.votes.yes = 0) (h : passedB p b = true) : TinyThreshold p.threshold := by
  unfold passedB at h
  split at h
  · cases h
  split at h
  · cases h
  rw [hy] at h
  cases hth : p.threshold with
  | absolutePercentage pct => rw [hth] at h; exact passB_zero h
  | thresholdQuorum t q =>
    rw [hth] at h
    simp only [Bool.and_eq_true] at h
    exact passB_zero h.2
  | absoluteCount t =>
    rw [hth] at h hv
    simp only [Threshold.validate] at hv
    split at hv
    · cases hv
    · have := of_decide_eq_true h; omega

/-- **C10.** A proposal is executed only if it passed: with a consistent voting module, at the moment
of execution the decision function says so. (The only exception needs a passing percentage below
10^-9 and a tally without a single yes vote.) -/
theorem C10_executed_passed {P : Addr → Nat → Nat} {T : Nat → Nat} {s : State} {b : Block}
    {log : List Event} (h : Reach s b log) (hpow : StablePowers log P T) {e : Event} (he : e ∈ log)
    {id : Nat} {f : Bool} (hc : e.call = .execute id f) :
    ∃ p, e.pre.proposals.get id = some p ∧
      (p.isPassed e.env.block = .ok true ∨ (p.votes.yes = 0 ∧ TinyThreshold p.threshold)) := by
  obtain ⟨l1, l2, b1, hl, h1, hb, h3, h4⟩ := reach_split h he
  have hpow' : StablePowers l2 P T :=
    ⟨fun e' he' => hpow.power e' (by rw [hl]; simp [he']),
     fun e' he' => hpow.total e' (by rw [hl]; simp [he']), hpow.bounded⟩
  have hi := inv_reach h1
  have hpi := powInv_reach h1 hpow'
  have hpass := passInv_reach h1 hpow'
  obtain ⟨p, st, p', hp, hst, hx, _⟩ := step_execute (id := id) h3 (by rw [hc]; simp [isExecuteOf])
  have hs := sane_prop hi hpi hpow.bounded hp
  refine ⟨p, hp, ?_⟩
  rw [isPassed_eq hs]
  have hl : PassedLike st := by rcases hx with rfl | ⟨_, _, rfl, _⟩ <;> trivial
  have hw := wasPassed_current hs (fun hpl => wasPassed_mono (hpass id p hp hpl) hb) hst hl
  by_cases hy : p.votes.yes = 0
  · right
    obtain ⟨b0, q, _, hsr, hext, hpb, _⟩ := hw
    refine ⟨hy, ?_⟩
    rw [hsr.threshold]
    exact passedB_zero (by rw [← hsr.threshold]; exact hs.valid)
      (by have := hext.1; omega) hpb
  · left; rw [passedB_of_was hw hs.fits (by omega)]

/-- With at most nine decimals a passing percentage needs a vote. -/
theorem passB_needs_vote {n : Nat} {pt : PercentageThreshold} (h9 : NineDec pt)
    (hv : validatePercentage pt = .ok ()) : passB 0 n pt = false := by
  rw [← Bool.not_eq_true]
  intro h
  have hm := meets_of_passB h9 h
  cases pt with
  | majority => have : n ≠ 0 ∧ n < 2 * 0 := hm; omega
  | percent a =>
    obtain ⟨h0, hm⟩ : n ≠ 0 ∧ n * a ≤ 0 * 10 ^ 18 := hm
    have ha : a ≠ 0 := by
      intro ha; subst ha; simp [validatePercentage] at hv
    have : 0 < n * a := Nat.mul_pos (by omega) (by omega)
    omega

theorem passedB_needs_yes {p : Proposal} {b : Block} (h9 : NineDecThreshold p.threshold)
    (hv : p.threshold.validate = .ok ()) (h : passedB p b = true) : 0 < p.votes.yes := by
  by_cases hy : p.votes.yes = 0
  · exfalso
    unfold passedB at h
    split at h
    · cases h
    split at h
    · cases h
    rw [hy] at h
    cases hth : p.threshold with
    | absolutePercentage pct =>
      rw [hth] at h h9 hv
      simp only [passB_needs_vote (show NineDec pct from h9) hv, Bool.false_eq_true] at h
    | thresholdQuorum t q =>
      rw [hth] at h h9 hv
      simp only [Threshold.validate, bind_ok] at hv
      obtain ⟨_, hv, _⟩ := hv
      simp only [passB_needs_vote (show NineDec t from h9) hv, Bool.and_false, Bool.false_eq_true] at h
    | absoluteCount t =>
      rw [hth] at h hv
      simp only [Threshold.validate] at hv
      split at hv
      · cases hv
      · have := of_decide_eq_true h; omega
  · omega

/-- **C10.** With percentages of at most nine decimals: whenever a proposal is executed, its tally at
that moment meets its own threshold (in exact arithmetic, with the quorum), the minimum voting period
is over, and with revoting the voting period is over. -/
theorem C10_executed_met {P : Addr → Nat → Nat} {T : Nat → Nat} {s : State} {b : Block}
    {log : List Event} (h : Reach s b log) (hpow : StablePowers log P T) {e : Event} (he : e ∈ log)
    {id : Nat} {f : Bool} (hc : e.call = .execute id f) :
    ∃ p, e.pre.proposals.get id = some p ∧
      (NineDecAll p.threshold → MayPass p e.env.block ∧
        ShouldPass p.threshold p.totalPower p.votes (p.expiration.isExpired e.env.block)) := by
  obtain ⟨l1, l2, b1, hl, h1, hb, h3, h4⟩ := reach_split h he
  have hpow' : StablePowers l2 P T :=
    ⟨fun e' he' => hpow.power e' (by rw [hl]; simp [he']),
     fun e' he' => hpow.total e' (by rw [hl]; simp [he']), hpow.bounded⟩
  have hi := inv_reach h1
  have hpi := powInv_reach h1 hpow'
  have hpass := passInv_reach h1 hpow'
  obtain ⟨p, st, p', hp, hst, hx, _⟩ := step_execute (id := id) h3 (by rw [hc]; simp [isExecuteOf])
  have hs := sane_prop hi hpi hpow.bounded hp
  refine ⟨p, hp, fun h9 => ?_⟩
  have hl : PassedLike st := by rcases hx with rfl | ⟨_, _, rfl, _⟩ <;> trivial
  have hw := wasPassed_current hs (fun hpl => wasPassed_mono (hpass id p hp hpl) hb) hst hl
  have hy : 0 < p.votes.yes := by
    obtain ⟨b0, q, _, hsr, hext, hpb, _⟩ := hw
    have h9' : NineDecThreshold q.threshold := by
      rw [← hsr.threshold]
      cases hth : p.threshold with
      | absolutePercentage x => rw [hth] at h9; exact h9
      | thresholdQuorum x y => rw [hth] at h9; exact h9.1
      | absoluteCount n => trivial
    have := passedB_needs_yes h9' (by rw [← hsr.threshold]; exact hs.valid) hpb
    exact Nat.lt_of_lt_of_le this hext.1
  have := passedB_of_was hw hs.fits hy
  exact (C10_pass_iff p e.env.block h9 hs.valid hs.u128 hs.fits).1 (by rw [isPassed_eq hs, this])

/-! ### C11 -/

/-- **C11.** A proposal with a veto configuration is executed only after its timelock, or by the vetoer
with early execution enabled. -/
theorem C11_execute_after_timelock {s : State} {b : Block} {log : List Event} (h : Reach s b log)
    {e : Event} (he : e ∈ log) {id : Nat} {f : Bool} (hc : e.call = .execute id f) :
    ∃ p, e.pre.proposals.get id = some p ∧ ∀ v, p.veto = some v →
      ∃ t, p.expiration.add v.timelockDuration = .ok t ∧
        (t.isExpired e.env.block = true ∨ (e.env.sender = v.vetoer ∧ v.earlyExecute = true)) := by
  obtain ⟨l1, l2, b1, hl, h1, hb, h3, h4⟩ := reach_split h he
  have ht := timeInv_reach h1
  obtain ⟨p, st, p', hp, hst, hx, _⟩ := step_execute (id := id) h3 (by rw [hc]; simp [isExecuteOf])
  refine ⟨p, hp, fun v hv => ?_⟩
  have hto := timeOk_current (timeOk_mono (ht id p hp) hb) hst
  rcases hx with rfl | ⟨t, v', rfl, hv', hs, hx⟩
  · obtain ⟨t, h1, h2⟩ := hto.2 rfl v hv
    exact ⟨t, h1, Or.inl h2⟩
  · rw [hv] at hv'; injection hv' with hv'; subst hv'
    obtain ⟨v', hv', ht⟩ := hto.1 t rfl
    rw [hv] at hv'; injection hv' with hv'; subst hv'
    exact ⟨t, ht, Or.inr ⟨hs.symm, hx⟩⟩

/-- **C11.** A veto comes from the vetoer, never after the timelock ended, and before the proposal
passed only if that is enabled. -/
theorem C11_veto_conditions {s : State} {b : Block} {log : List Event} (h : Reach s b log)
    {e : Event} (he : e ∈ log) {id : Nat} (hc : e.call = .veto id) :
    ∃ p v p', e.pre.proposals.get id = some p ∧ p.veto = some v ∧ e.env.sender = v.vetoer ∧
      e.post.proposals.get id = some p' ∧ p'.status = .vetoed ∧
      ((p.currentStatus e.env.block = .ok .opened ∧ v.vetoBeforePassed = true) ∨
        ∃ t, p.expiration.add v.timelockDuration = .ok t ∧ t.isExpired e.env.block = false ∧
          p.currentStatus e.env.block = .ok (.vetoTimelock t)) := by
  obtain ⟨l1, l2, b1, hl, h1, hb, h3, h4⟩ := reach_split h he
  have ht := timeInv_reach h1
  rw [hc] at h3
  obtain ⟨p, st, hp, hst, hm, hs', _⟩ := execVeto_inv h3
  have hto := timeOk_current (timeOk_mono (ht id p hp) hb) hst
  generalize hst2 : Status.vetoed = st2 at hm
  cases hm with
  | close => cases hst2
  | exec _ h' => rcases h' with rfl | rfl <;> cases hst2
  | veto v hv hs hx =>
    refine ⟨p, v, { p with status := .vetoed }, hp, hv, hs, ?_, rfl, ?_⟩
    · rw [hs']; simp only [AMap.get_set_self]
    · rcases hx with ⟨rfl, hx⟩ | ⟨t, rfl, hx⟩
      · exact Or.inl ⟨hst, hx⟩
      · obtain ⟨v', hv', hta⟩ := hto.1 t rfl
        rw [hv] at hv'; injection hv' with hv'; subst hv'
        exact Or.inr ⟨t, hta, hx, hst⟩

theorem final_excl {s s' : State} {b : Block} {l1 l2 : List Event} {e : Event} {env : Env}
    {s0 : State} (hr : Run s0 b (l1 ++ e :: l2) s env.block) (hi : Inv s0) {id : Nat} {p : Proposal}
    (hp : e.post.proposals.get id = some p) (hf : Final p.status) {call : Call} {out : Out}
    (hc : isExecuteOf id call = true) : step s env call ≠ .ok (s', out) := by
  obtain ⟨b1, h1, h2, h3, h4⟩ := run_split hr
  have hinv : Inv e.post := by
    rcases step_micro h3 with hm | ⟨s1, _, hm1, hm2⟩
    · exact inv_micro (inv_run h1 hi) hm
    · exact inv_micro (inv_micro (inv_run h1 hi) hm1) hm2
  obtain ⟨p', hp', _, hpath⟩ := run_prop h4 hinv hp
  exact final_not_exec hp' (by rw [hpath.final hf]; exact hf) hc _

/-- **C11.** A vetoed proposal is never executed: no history contains both a veto and an execution of
the same proposal, in either order. -/
theorem C11_vetoed_never_executed {s : State} {b : Block} {log : List Event} (h : Reach s b log)
    {e e' : Event} (he : e ∈ log) (he' : e' ∈ log) {id : Nat} (hv : isVetoOf id e.call = true) :
    isExecuteOf id e'.call = false := by
  rw [← Bool.not_eq_true]
  intro hx
  have fin : ∀ {e : Event} {l : List Event} {b1 : Block}, Reach e.pre b1 l → b1.le e.env.block →
      step e.pre e.env e.call = .ok (e.post, e.out) →
      (isVetoOf id e.call = true ∨ isExecuteOf id e.call = true) →
      Inv e.post ∧ ∃ p, e.post.proposals.get id = some p ∧ Final p.status := by
    intro e l b1 h1 hb h3 hc
    refine ⟨?_, ?_⟩
    · rcases step_micro h3 with hm | ⟨s1, _, hm1, hm2⟩
      · exact inv_micro (inv_reach h1) hm
      · exact inv_micro (inv_micro (inv_reach h1) hm1) hm2
    · rcases hc with hc | hc
      · cases hcall : e.call <;> rw [hcall] at hc <;> simp [isVetoOf] at hc
        subst hc
        rw [hcall] at h3
        obtain ⟨p, st, hp, hst, hm, hs', _⟩ := execVeto_inv h3
        rw [hs']
        exact ⟨_, AMap.get_set_self _ _ _, trivial⟩
      · obtain ⟨_, _, p', _, _, _, hp', hst⟩ := step_execute h3 hc
        exact ⟨p', hp', by rcases hst with h | h <;> rw [h] <;> trivial⟩
  have novet : ∀ {s s' : State} {env : Env} {call : Call} {out : Out} {p : Proposal},
      s.proposals.get id = some p → Final p.status → isVetoOf id call = true →
      step s env call ≠ .ok (s', out) := by
    intro s s' env call out p hp hf hc h3
    cases hcall : call <;> rw [hcall] at hc <;> simp [isVetoOf] at hc
    subst hc
    rw [hcall] at h3
    obtain ⟨q, st, hq, hst, hm, hs', _⟩ := execVeto_inv h3
    rw [hp] at hq; injection hq with hq; subst hq
    have := currentStatus_final hst hf
    rw [← this] at hf
    generalize hst2 : Status.vetoed = st2 at hm
    cases hm with
    | close => cases hst2
    | exec _ h' => rcases h' with rfl | rfl <;> cases hst2
    | veto v hv hs hx =>
      rcases hx with ⟨rfl, _⟩ | ⟨_, rfl, _⟩ <;> exact hf
  obtain ⟨l1, l2, b1, hl, h1, hb, h3, h4⟩ := reach_split h he
  obtain ⟨hinv, p, hp, hf⟩ := fin h1 hb h3 (Or.inl hv)
  rw [hl] at he'
  rcases List.mem_append.1 he' with hm | hm
  · -- the execution comes later
    obtain ⟨k1, k2, rfl⟩ := mem_split hm
    obtain ⟨b2, g1, g2, g3, _⟩ := run_split h4
    obtain ⟨p', hp', _, hpath⟩ := run_prop g1 hinv hp
    exact final_not_exec hp' (by rw [hpath.final hf]; exact hf) hx _ g3
  · rcases List.mem_cons.1 hm with rfl | hm
    · cases hcall : e'.call <;> rw [hcall] at hv hx <;> simp [isVetoOf, isExecuteOf] at hv hx
    · -- the execution came earlier
      obtain ⟨k1, k2, b2, _, g1, g2, g3, g4⟩ := reach_split h1 hm
      obtain ⟨hinv', q, hq, hfq⟩ := fin g1 g2 g3 (Or.inr hx)
      obtain ⟨q', hq', _, hpath⟩ := run_prop g4 hinv' hq
      exact novet hq' (by rw [hpath.final hfq]; exact hfq) hv h3

/-! ### C13 -/

theorem newId_step {s s' : State} {env : Env} {call : Call} {out : Out} (hi : Inv s)
    (h : step s env call = .ok (s', out)) :
    (out.newId = some (s.count + 1) ∧ s'.count = s.count + 1) ∨
      (out.newId = none ∧ s'.count = s.count) := by
  cases call with
  | propose g c m v z =>
    obtain ⟨p, h1, h2, _⟩ := propose_stores hi h
    exact Or.inl ⟨h1, h2⟩
  | vote id v r =>
    obtain ⟨p, power, w, votes, st, _, _, _, _, _, _, _, _, rfl, rfl⟩ := execVote_inv h
    exact Or.inr ⟨rfl, rfl⟩
  | updateRationale id' r =>
    unfold step execUpdateRationale at h
    simp only [bind_ok, orErr_ok, Except.ok.injEq, Prod.mk.injEq] at h
    obtain ⟨b, hb, rfl, rfl⟩ := h
    exact Or.inr ⟨rfl, rfl⟩
  | execute id' f =>
    obtain ⟨p, st, st', hp, hst, hm, _, _, rfl, _, hn⟩ := execExecute_inv h
    exact Or.inr ⟨hn, rfl⟩
  | close id' =>
    obtain ⟨p, hp, hst, rfl, rfl⟩ := execClose_inv h
    exact Or.inr ⟨rfl, rfl⟩
  | veto id' =>
    obtain ⟨p, st, hp, hst, hm, rfl, rfl⟩ := execVeto_inv h
    exact Or.inr ⟨rfl, rfl⟩
  | updateConfig c =>
    unfold step execUpdateConfig at h
    simp only [bind_ok, require_ok, Except.ok.injEq, Prod.mk.injEq] at h
    obtain ⟨_, _, _, hv, rfl, rfl⟩ := h
    exact Or.inr ⟨rfl, rfl⟩
  | updatePreProposeInfo i =>
    unfold step execUpdatePolicy at h
    simp only [bind_ok, require_ok, Except.ok.injEq, Prod.mk.injEq] at h
    obtain ⟨_, _, rfl, rfl⟩ := h
    exact Or.inr ⟨rfl, rfl⟩
  | addProposalHook a =>
    unfold step execAddProposalHook at h
    simp only [bind_ok, require_ok, Except.ok.injEq, Prod.mk.injEq] at h
    obtain ⟨_, _, _, _, rfl, rfl⟩ := h
    exact Or.inr ⟨rfl, rfl⟩
  | removeProposalHook a =>
    unfold step execRemoveProposalHook at h
    simp only [bind_ok, require_ok, Except.ok.injEq, Prod.mk.injEq] at h
    obtain ⟨_, _, _, _, rfl, rfl⟩ := h
    exact Or.inr ⟨rfl, rfl⟩
  | addVoteHook a =>
    unfold step execAddVoteHook at h
    simp only [bind_ok, require_ok, Except.ok.injEq, Prod.mk.injEq] at h
    obtain ⟨_, _, _, _, rfl, rfl⟩ := h
    exact Or.inr ⟨rfl, rfl⟩
  | removeVoteHook a =>
    unfold step execRemoveVoteHook at h
    simp only [bind_ok, require_ok, Except.ok.injEq, Prod.mk.injEq] at h
    obtain ⟨_, _, _, _, rfl, rfl⟩ := h
    exact Or.inr ⟨rfl, rfl⟩
  | replyFailedProposalHook i =>
    unfold step replyProposalHook at h
    simp only [bind_ok, Except.ok.injEq, Prod.mk.injEq, Prod.exists] at h
    obtain ⟨_, _, _, rfl, rfl⟩ := h
    exact Or.inr ⟨rfl, rfl⟩
  | replyFailedVoteHook i =>
    unfold step replyVoteHook at h
    simp only [bind_ok, Except.ok.injEq, Prod.mk.injEq, Prod.exists] at h
    obtain ⟨_, _, _, rfl, rfl⟩ := h
    exact Or.inr ⟨rfl, rfl⟩
  | replyPreProposeInstantiated a =>
    simp only [step, Except.ok.injEq, Prod.mk.injEq] at h
    obtain ⟨rfl, rfl⟩ := h
    exact Or.inr ⟨rfl, rfl⟩
  | replyFailedPreProposeHook =>
    simp only [step, replyPreProposeFailed] at h
    split at h
    · simp at h
    · simp only [Except.ok.injEq, Prod.mk.injEq] at h
      obtain ⟨rfl, rfl⟩ := h
      exact Or.inr ⟨rfl, rfl⟩

/-- **C13.** The ids handed out over a history are 1, 2, 3, ... in order, without gap or repetition,
and the proposal count is their number. -/
theorem C13_ids_consecutive {s : State} {b : Block} {log : List Event} (h : Reach s b log) :
    log.reverse.filterMap (fun e => e.out.newId) = List.range' 1 s.count := by
  obtain ⟨env, c, i, s0, out, h0, hr⟩ := h
  have hi := inv_init h0
  have hc0 : s0.count = 0 := by
    unfold instantiate at h0
    simp only [bind_ok, Except.ok.injEq, Prod.mk.injEq] at h0
    obtain ⟨_, hv, rfl, _⟩ := h0
    rfl
  induction hr with
  | refl => simp [hc0]
  | @step s1 s2 b1 log env' call out' hr hb h ih =>
    rw [List.reverse_cons, List.filterMap_append, ih]
    rcases newId_step (inv_run hr hi) h with ⟨h1, h2⟩ | ⟨h1, h2⟩
    · rw [h2]
      simp only [List.filterMap_cons, List.filterMap_nil, h1]
      rw [List.range'_concat]; simp [Nat.add_comm]
    · rw [h2]
      simp only [List.filterMap_cons, List.filterMap_nil, h1, List.append_nil]

/-- **C13.** Exactly the ids handed out exist; all larger ids (and 0) are unknown. -/
theorem C13_ids_exist {s : State} {b : Block} {log : List Event} (h : Reach s b log) (id : Nat) :
    (s.proposals.get id).isSome = true ↔ 1 ≤ id ∧ id ≤ s.count := (inv_reach h).ids id

/-- **C14.** Nothing changes the rules of a running proposal: in every later state it has the same
content, proposer, start height, minimum voting period, expiration, threshold, total power, messages,
revoting flag and veto configuration. -/
theorem C14_rules_fixed {s s' : State} {b b' : Block} {log l : List Event} (h : Reach s b log)
    (hr : Run s b l s' b') {id : Nat} {p : Proposal} (hp : s.proposals.get id = some p) :
    ∃ p', s'.proposals.get id = some p' ∧
      p'.content = p.content ∧ p'.proposer = p.proposer ∧ p'.startHeight = p.startHeight ∧
      p'.minVotingPeriod = p.minVotingPeriod ∧ p'.expiration = p.expiration ∧
      p'.threshold = p.threshold ∧ p'.totalPower = p.totalPower ∧ p'.msgs = p.msgs ∧
      p'.allowRevoting = p.allowRevoting ∧ p'.veto = p.veto := by
  obtain ⟨p', h1, h2, _⟩ := run_prop hr (inv_reach h) hp
  exact ⟨p', h1, h2.1, h2.2, h2.3, h2.4, h2.5, h2.6, h2.7, h2.8, h2.9, h2.10⟩

/-- **C14.** A new proposal takes its rules from the configuration, the block and the voting module's
total power at that block. -/
theorem C14_rules_of_new_proposal {s s' : State} {b : Block} {log : List Event} (hr : Reach s b log)
    {env : Env} {g : Option Addr} {c : Nat} {ms : List Nat}
    {vo : Option (Vote × Option Nat)} {z : Bool} {out : Out}
    (h : step s env (.propose g c ms vo z) = .ok (s', out)) :
    ∃ p, s'.proposals.get (s.count + 1) = some p ∧ p.content = c ∧ p.msgs = ms ∧
      p.threshold = s.config.threshold ∧ p.expiration = s.config.maxVotingPeriod.after env.block ∧
      p.minVotingPeriod = s.config.minVotingPeriod.map (fun d => d.after env.block) ∧
      p.startHeight = env.block.height ∧
      p.totalPower = env.total s.config.dao env.block.height ∧
      p.allowRevoting = s.config.allowRevoting ∧ p.veto = s.config.veto := by
  obtain ⟨p, _, _, h⟩ := propose_stores (inv_reach hr) h
  exact ⟨p, h⟩

/-- **C15.** A call by anyone but the DAO changes neither the configuration nor the creation policy
nor the hook lists. (Replies, which only the runtime can make, are the documented exception; they
never touch the configuration.) -/
theorem C15_only_dao {s s' : State} {env : Env} {call : Call} {out : Out}
    (h : step s env call = .ok (s', out)) (hs : env.sender ≠ s.config.dao) :
    s'.config = s.config ∧ (isReply call = false →
      s'.policy = s.policy ∧ s'.proposalHooks = s.proposalHooks ∧ s'.voteHooks = s.voteHooks) := by
  have hvote : ∀ {s : State} {voter : Addr} {id' : Nat} {v : Vote} {r : Option Nat} {o : Out},
      execVote s env voter id' v r = .ok (s', o) → s'.config = s.config ∧ s'.policy = s.policy ∧
        s'.proposalHooks = s.proposalHooks ∧ s'.voteHooks = s.voteHooks := by
    intro s voter id' v r o hx
    obtain ⟨p, power, w, votes, st, _, _, _, _, _, _, _, _, rfl, _⟩ := execVote_inv hx
    exact ⟨rfl, rfl, rfl, rfl⟩
  cases call with
  | propose g c m v z =>
    obtain ⟨proposer, total, st, s1, h1, h2, _, _, _, _, _, h8, _, h9⟩ := execPropose_inv h
    rcases h9 with ⟨_, rfl, _⟩ | ⟨v, r, o, hvo, hx, _⟩
    · subst h8; exact ⟨rfl, fun _ => ⟨rfl, rfl, rfl⟩⟩
    · have := hvote hx
      subst h8; exact ⟨this.1, fun _ => this.2⟩
  | vote id v r => have := hvote h; exact ⟨this.1, fun _ => this.2⟩
  | updateRationale id' r =>
    unfold step execUpdateRationale at h
    simp only [bind_ok, orErr_ok, Except.ok.injEq, Prod.mk.injEq] at h
    obtain ⟨b, hb, rfl, rfl⟩ := h
    exact ⟨rfl, fun _ => ⟨rfl, rfl, rfl⟩⟩
  | execute id' f =>
    obtain ⟨p, st, st', hp, hst, hm, _, _, rfl, _, hn⟩ := execExecute_inv h
    exact ⟨rfl, fun _ => ⟨rfl, rfl, rfl⟩⟩
  | close id' =>
    obtain ⟨p, hp, hst, rfl, rfl⟩ := execClose_inv h
    exact ⟨rfl, fun _ => ⟨rfl, rfl, rfl⟩⟩
  | veto id' =>
    obtain ⟨p, st, hp, hst, hm, rfl, rfl⟩ := execVeto_inv h
    exact ⟨rfl, fun _ => ⟨rfl, rfl, rfl⟩⟩
  | updateConfig c =>
    unfold step execUpdateConfig at h
    simp only [bind_ok, require_ok, decide_eq_true_eq] at h
    obtain ⟨_, hd, _⟩ := h
    exact absurd hd hs
  | updatePreProposeInfo i =>
    unfold step execUpdatePolicy at h
    simp only [bind_ok, require_ok, decide_eq_true_eq] at h
    obtain ⟨_, hd, _⟩ := h
    exact absurd hd hs
  | addProposalHook a =>
    unfold step execAddProposalHook at h
    simp only [bind_ok, require_ok, decide_eq_true_eq] at h
    obtain ⟨_, hd, _⟩ := h
    exact absurd hd hs
  | removeProposalHook a =>
    unfold step execRemoveProposalHook at h
    simp only [bind_ok, require_ok, decide_eq_true_eq] at h
    obtain ⟨_, hd, _⟩ := h
    exact absurd hd hs
  | addVoteHook a =>
    unfold step execAddVoteHook at h
    simp only [bind_ok, require_ok, decide_eq_true_eq] at h
    obtain ⟨_, hd, _⟩ := h
    exact absurd hd hs
  | removeVoteHook a =>
    unfold step execRemoveVoteHook at h
    simp only [bind_ok, require_ok, decide_eq_true_eq] at h
    obtain ⟨_, hd, _⟩ := h
    exact absurd hd hs
  | replyFailedProposalHook i =>
    unfold step replyProposalHook at h
    simp only [bind_ok, Except.ok.injEq, Prod.mk.injEq, Prod.exists] at h
    obtain ⟨_, _, _, rfl, rfl⟩ := h
    exact ⟨rfl, fun h => (by cases h)⟩
  | replyFailedVoteHook i =>
    unfold step replyVoteHook at h
    simp only [bind_ok, Except.ok.injEq, Prod.mk.injEq, Prod.exists] at h
    obtain ⟨_, _, _, rfl, rfl⟩ := h
    exact ⟨rfl, fun h => (by cases h)⟩
  | replyPreProposeInstantiated a =>
    simp only [step, Except.ok.injEq, Prod.mk.injEq] at h
    obtain ⟨rfl, rfl⟩ := h
    exact ⟨rfl, fun h => (by cases h)⟩
  | replyFailedPreProposeHook =>
    simp only [step, replyPreProposeFailed] at h
    split at h
    · simp at h
    · simp only [Except.ok.injEq, Prod.mk.injEq] at h
      obtain ⟨rfl, rfl⟩ := h
      exact ⟨rfl, fun h => (by cases h)⟩

end Verif.Single
