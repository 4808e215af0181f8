import Verif.Proofs.CondorcetTally
import Verif.Proofs.Voting
/-!
# Histories of the Condorcet proposal module
-/

namespace Verif.Condorcet
open Verif Verif.Voting Verif.Spec.Condorcet

theorem answer_ok {n m : Nat} (h : answer n = .ok m) : m = n ∧ n < U128 := by
  unfold answer at h; split at h
  · injection h with h; exact ⟨h.symm, by assumption⟩
  · cases h

/-- The largest proposal id. -/
def top (s : State) : Nat := (s.proposals.map Prod.fst).foldl max 0

theorem foldl_max_ge (l : List Nat) (a : Nat) : a ≤ l.foldl max a ∧ ∀ x ∈ l, x ≤ l.foldl max a := by
  induction l generalizing a with
  | nil => simp
  | cons b l ih =>
    obtain ⟨h1, h2⟩ := ih (max a b)
    refine ⟨by simp only [List.foldl_cons]; omega, ?_⟩
    intro x hx
    simp only [List.foldl_cons]
    rcases List.mem_cons.1 hx with rfl | hx
    · omega
    · exact h2 x hx

theorem foldl_max_mem (l : List Nat) (a : Nat) : l.foldl max a = a ∨ l.foldl max a ∈ l := by
  induction l generalizing a with
  | nil => simp
  | cons b l ih =>
    simp only [List.foldl_cons, List.mem_cons]
    rcases ih (max a b) with h | h
    · rw [h]
      rcases Nat.le_total a b with hab | hab
      · rw [Nat.max_eq_right hab]; simp
      · rw [Nat.max_eq_left hab]; simp
    · exact Or.inr (Or.inr h)

theorem le_top {s : State} {id : Nat} {p : Proposal} (h : s.proposals.get id = some p) : id ≤ top s :=
  (foldl_max_ge _ 0).2 id ((AMap.mem_keys_iff _ _).2 (by simp [h]))

theorem nextProposalId_eq {s : State} {id : Nat} (h : nextProposalId s = .ok id) :
    id = top s + 1 ∧ id < U32 := by
  unfold nextProposalId at h
  simp only at h
  split at h
  · injection h with h; subst h; exact ⟨rfl, by assumption⟩
  · cases h

/-- `top` after adding the next proposal. -/
theorem top_set {s : State} {p : Proposal} {s' : State}
    (hs : s'.proposals = s.proposals.set (top s + 1) p) : top s' = top s + 1 := by
  have h1 : top s' ≤ top s + 1 := by
    have hm := foldl_max_mem (s'.proposals.map Prod.fst) 0
    change top s' = 0 ∨ top s' ∈ _ at hm
    rcases hm with h | h
    · omega
    · rw [hs, AMap.keys_set] at h
      rcases h with h | h
      · omega
      · have := (foldl_max_ge (s.proposals.map Prod.fst) 0).2 _ h
        change top s' ≤ top s at this
        omega
  have h2 : top s + 1 ≤ top s' := by
    refine (foldl_max_ge (s'.proposals.map Prod.fst) 0).2 _ ?_
    rw [hs, AMap.keys_set]; exact Or.inl rfl
  omega

/-- The invariant of one proposal. -/
structure PropInv (p : Proposal) (t : Tally) (id : Nat) (bs : List Ballot) : Prop where
  tally : TallyOf t p.choices.length p.totalPower bs
  quorum : PctOk p.quorum
  ident : p.id = id
  notPassed : ∀ w, p.lastStatus ≠ .passed w

structure Inv (s : State) (log : List Event) : Prop where
  config : PctOk s.config.quorum
  wfP : s.proposals.WF
  wfT : s.tallies.WF
  wfV : s.votes.WF
  both : ∀ id, (s.tallies.get id).isSome ↔ (s.proposals.get id).isSome
  ids : ∀ id, (s.proposals.get id).isSome ↔ 1 ≤ id ∧ id ≤ top s
  prop : ∀ id t p, s.tallies.get id = some t → s.proposals.get id = some p →
    PropInv p t id (ballotsOn id log)
  unborn : ∀ id, s.tallies.get id = none → ballotsOn id log = [] ∧ votersOn id log = []
  voted : ∀ id a, (s.votes.get (id, a)).isSome ↔ a ∈ votersOn id log
  once : ∀ id, (votersOn id log).Nodup

theorem checked_ok {c c' : Config} (h : c.intoChecked = .ok c') : c' = c ∧ PctOk c.quorum := by
  simp only [Config.intoChecked, bind_ok, Except.ok.injEq] at h
  obtain ⟨u, hq, _, _, rfl⟩ := h
  exact ⟨rfl, pctOk_of_validateQuorum hq⟩

theorem inv_init {env : Env} {c : Config} {s : State} (h : instantiate env c = .ok s) : Inv s [] := by
  simp only [instantiate, bind_ok, Except.ok.injEq] at h
  obtain ⟨c', hc, rfl⟩ := h
  obtain ⟨rfl, hq⟩ := checked_ok hc
  exact {
    config := hq, wfP := AMap.WF_nil, wfT := AMap.WF_nil, wfV := AMap.WF_nil
    both := by simp [AMap.get]
    ids := by intro id; simp [AMap.get, top]; omega
    prop := by intro id t p h; simp [AMap.get] at h
    unborn := by intro id _; exact ⟨rfl, rfl⟩
    voted := by intro id a; simp [AMap.get, votersOn]
    once := by intro id; simp [votersOn] }

/-! ## What successful calls do -/

theorem propose_inv {s s' : State} {env : Env} {choices : List (List Nat)} {out : Out}
    (h : execPropose s env choices = .ok (s', out)) :
    ∃ t st total, total = env.totalNow s.dao ∧ total < U128 ∧ top s + 1 < U32 ∧ choices ≠ [] ∧
      env.powerNow s.dao env.sender ≠ 0 ∧
      newTally (choices ++ [[]]).length total env.block.height (s.config.votingPeriod.after env.block) = .ok t ∧
      (freshProposal env.block s.config env.sender (top s + 1) (choices ++ [[]]) total).status t env.block = .ok st ∧
      s' = { s with tallies := s.tallies.set (top s + 1) t
                    proposals := s.proposals.set (top s + 1)
                      { freshProposal env.block s.config env.sender (top s + 1) (choices ++ [[]]) total with
                        lastStatus := st } } ∧
      out = { newId := some (top s + 1) } := by
  simp only [execPropose, bind_ok, require_ok, decide_eq_true_eq, Except.ok.injEq, Prod.mk.injEq] at h
  obtain ⟨pw, hpw, _, hpw0, id, hid, total, htot, _, hne, t, ht, st, hst, rfl, rfl⟩ := h
  obtain ⟨rfl, _⟩ := answer_ok hpw
  obtain ⟨rfl, hT⟩ := answer_ok htot
  obtain ⟨rfl, hu⟩ := nextProposalId_eq hid
  exact ⟨t, st, _, rfl, hT, hu, hne, hpw0, ht, hst, rfl, rfl⟩

theorem vote_inv {s s' : State} {env : Env} {id : Nat} {v : List Nat} {out : Out}
    (h : execVote s env id v = .ok (s', out)) :
    ∃ t t', s.tallies.get id = some t ∧ env.power s.dao env.sender t.startHeight ≠ 0 ∧
      env.power s.dao env.sender t.startHeight < U128 ∧
      s.votes.get (id, env.sender) = none ∧ t.expiration.isExpired env.block = false ∧
      IsRanking t.m.n v ∧ t.addVote v (env.power s.dao env.sender t.startHeight) = .ok t' ∧
      s' = { s with votes := s.votes.set (id, env.sender) v, tallies := s.tallies.set id t' } ∧
      out = {} := by
  simp only [execVote, bind_ok, require_ok, orErr_ok, decide_eq_true_eq, Except.ok.injEq, Prod.mk.injEq,
    Bool.not_eq_true'] at h
  obtain ⟨t, ht, pw, hpw, _, hpw0, _, hno, _, hexp, r, hr, t', ht', rfl, rfl⟩ := h
  obtain ⟨rfl, hu⟩ := answer_ok hpw
  obtain ⟨rfl, hrank⟩ := newVote_spec hr
  exact ⟨t, t', ht, hpw0, hu, hno, hexp, hrank, ht', rfl, rfl⟩

theorem execute_inv {s s' : State} {env : Env} {id : Nat} {f : Bool} {out : Out}
    (h : execExecute s env id f = .ok (s', out)) :
    ∃ t p w msgs st, s.tallies.get id = some t ∧ s.proposals.get id = some p ∧
      env.power s.dao env.sender t.startHeight ≠ 0 ∧
      p.status t env.block = .ok (.passed w) ∧ p.choices[w]? = some msgs ∧
      (st = .executed ∧ f = false ∨ st = .executionFailed ∧ f = true ∧ p.closeOnExecutionFailure = true) ∧
      s' = { s with proposals := s.proposals.set id { p with lastStatus := st } } ∧
      out = { toDao := some (s.dao, msgs) } := by
  simp only [execExecute, bind_ok, require_ok, orErr_ok, decide_eq_true_eq] at h
  obtain ⟨t, ht, pw, hpw, _, hpw0, p, hp, st, hst, h⟩ := h
  obtain ⟨rfl, _⟩ := answer_ok hpw
  split at h
  · rename_i w
    simp only [bind_ok, orErr_ok, Except.ok.injEq, Prod.mk.injEq] at h
    obtain ⟨msgs, hm, p', hp', rfl, rfl⟩ := h
    unfold setExecuted at hp'
    split at hp'
    · split at hp'
      · injection hp' with hp'; subst hp'
        rename_i hf hc
        exact ⟨t, p, w, msgs, _, ht, hp, hpw0, hst, hm, Or.inr ⟨rfl, hf, hc⟩, rfl, rfl⟩
      · cases hp'
    · injection hp' with hp'; subst hp'
      rename_i hf
      exact ⟨t, p, w, msgs, _, ht, hp, hpw0, hst, hm, Or.inl ⟨rfl, by simpa using hf⟩, rfl, rfl⟩
  · cases h

theorem close_inv {s s' : State} {env : Env} {id : Nat} {out : Out}
    (h : execClose s env id = .ok (s', out)) :
    ∃ t p, s.tallies.get id = some t ∧ s.proposals.get id = some p ∧
      p.status t env.block = .ok .rejected ∧
      s' = { s with proposals := s.proposals.set id { p with lastStatus := .closed } } ∧ out = {} := by
  simp only [execClose, bind_ok, require_ok, orErr_ok, decide_eq_true_eq, Except.ok.injEq,
    Prod.mk.injEq] at h
  obtain ⟨t, ht, p, hp, st, hst, _, rfl, rfl, rfl⟩ := h
  exact ⟨t, p, ht, hp, hst, rfl, rfl⟩

theorem setConfig_inv {s s' : State} {env : Env} {c : Config} {out : Out}
    (h : execSetConfig s env c = .ok (s', out)) :
    env.sender = s.dao ∧ PctOk c.quorum ∧ s' = { s with config := c } ∧ out = {} := by
  simp only [execSetConfig, bind_ok, require_ok, decide_eq_true_eq, Except.ok.injEq, Prod.mk.injEq] at h
  obtain ⟨_, hs, c', hc, rfl, rfl⟩ := h
  obtain ⟨rfl, hq⟩ := checked_ok hc
  exact ⟨hs, hq, rfl, rfl⟩

/-! ## Statuses -/

theorem status_open {p : Proposal} {t : Tally} {b : Block} (h : p.lastStatus = .opened) :
    p.status t b = (if p.minPeriodRunning b then .ok .opened
      else sub128 p.totalPower t.outstanding >>= fun voted =>
        doesVoteCountPass voted p.totalPower p.quorum >>= fun q =>
        .ok (decideStatus t.winner (t.expiration.isExpired b) q)) := by
  unfold Proposal.status; rw [h]

theorem status_other {p : Proposal} {t : Tally} {b : Block} (h : p.lastStatus ≠ .opened) :
    p.status t b = .ok p.lastStatus := by
  unfold Proposal.status
  split
  · rename_i h'; exact absurd h' h
  · rfl

/-- The status of an open proposal in closed form. -/
theorem status_eq {p : Proposal} {t : Tally} {bs : List Ballot} {id : Nat} (hi : PropInv p t id bs)
    (h : p.lastStatus = .opened) (b : Block) :
    p.status t b = .ok (if p.minPeriodRunning b then .opened
      else decideStatus t.winner (t.expiration.isExpired b) (passB (castPower bs) p.totalPower p.quorum)) := by
  rw [status_open h]
  split
  · rfl
  · have hout := hi.tally.out
    have hf := hi.tally.fits
    have h1 : sub128 p.totalPower t.outstanding = .ok (castPower bs) := by
      unfold sub128; rw [if_pos (by omega)]; congr 1; omega
    have h2 := pass_eq (w := castPower bs) (n := p.totalPower) (pt := p.quorum) (by omega) hf hi.quorum
    simp only [h1, ok_bind, h2]

theorem status_total {p : Proposal} {t : Tally} {bs : List Ballot} {id : Nat} (hi : PropInv p t id bs)
    (b : Block) : ∃ st, p.status t b = .ok st := by
  by_cases h : p.lastStatus = .opened
  · exact ⟨_, status_eq hi h b⟩
  · exact ⟨_, status_other h⟩

/-- What reporting "passed" means. -/
theorem status_passed {p : Proposal} {t : Tally} {bs : List Ballot} {id w : Nat} {b : Block}
    (hi : PropInv p t id bs) (h : p.status t b = .ok (.passed w)) :
    p.lastStatus = .opened ∧ p.minPeriodRunning b = false ∧
      passB (castPower bs) p.totalPower p.quorum = true ∧
      (t.winner = .undisputed w ∨ t.winner = .some w ∧ t.expiration.isExpired b = true) := by
  by_cases ho : p.lastStatus = .opened
  · rw [status_eq hi ho] at h
    injection h with h
    by_cases hm : p.minPeriodRunning b = true
    · rw [if_pos hm] at h; cases h
    · rw [if_neg hm] at h
      unfold decideStatus at h
      refine ⟨ho, by simpa using hm, ?_⟩
      split at h
      · cases h
      · cases hw : t.winner <;> rw [hw] at h <;> simp only at h
        · cases h
        · split at h <;> cases h
        · split at h
          · rename_i hh; injection h with h; subst h
            simp only [Bool.and_eq_true] at hh
            exact ⟨hh.2, Or.inr ⟨rfl, hh.1⟩⟩
          · cases h
        · split at h
          · rename_i hh; injection h with h; subst h
            exact ⟨hh, Or.inl rfl⟩
          · cases h
  · rw [status_other ho] at h
    injection h with h
    exact absurd h (hi.notPassed w)

/-- The winner a tally reports as `some` or `undisputed` is one. -/
theorem winner_posCol {t : Tally} {n total w : Nat} {bs : List Ballot} (h : TallyOf t n total bs)
    (hw : t.winner = .undisputed w ∨ t.winner = .some w) : w < n ∧ CondorcetWinner n bs w := by
  have := h.winner
  rcases hw with hw | hw <;> rw [hw] at this
  · obtain ⟨h1, h2, _⟩ := this
    rw [h.holds.size] at h1
    exact ⟨h1, (posCol_iff h.holds h1).1 h2⟩
  · obtain ⟨h1, h2, _⟩ := this
    rw [h.holds.size] at h1
    exact ⟨h1, (posCol_iff h.holds h1).1 h2⟩

theorem winner_unique {n : Nat} {bs : List Ballot} {c d : Nat} (h1 : CondorcetWinner n bs c)
    (h2 : CondorcetWinner n bs d) : c = d := by
  by_contra hne
  have a := h1.2 d h2.1 (Ne.symm hne)
  have b := h2.2 c h1.1 hne
  omega

theorem never_iff {t : Tally} {n total : Nat} {bs : List Ballot} (h : TallyOf t n total bs) :
    t.winner = .never ↔ ∀ extra, Allowed n t.outstanding extra → ∀ c, ¬ CondorcetWinner n (bs ++ extra) c := by
  have hsz := h.holds.size
  have hw := h.winner
  constructor
  · intro hn extra hex c hc
    rw [hn] at hw
    obtain ⟨h1, h2⟩ := hw
    rw [hsz] at h1 h2
    have hcn := hc.1
    exact h2 c hcn ((canWin_iff h.holds hcn h.two (h1 c hcn)).2 ⟨extra, hex, hc⟩)
  · intro hall
    have hno : ∀ c, ¬ CondorcetWinner n bs c := by
      intro c hc
      have := hall [] ⟨by simp, by simp [castPower]⟩ c
      rw [List.append_nil] at this; exact this hc
    cases hwin : t.winner with
    | never => rfl
    | undisputed c => exact absurd (winner_posCol h (Or.inl hwin)).2 (hno c)
    | some c => exact absurd (winner_posCol h (Or.inr hwin)).2 (hno c)
    | none =>
      rw [hwin] at hw
      obtain ⟨h1, c, hc, hcw⟩ := hw
      rw [hsz] at hc h1
      obtain ⟨extra, he1, he2⟩ := (canWin_iff h.holds hc h.two (h1 c hc)).1 hcw
      exact absurd he2 (hall extra he1 c)

theorem undisputed_iff {t : Tally} {n total c : Nat} {bs : List Ballot} (h : TallyOf t n total bs) :
    t.winner = .undisputed c ↔
      ∀ extra, Allowed n t.outstanding extra → CondorcetWinner n (bs ++ extra) c := by
  have hsz := h.holds.size
  have hw := h.winner
  constructor
  · intro hn
    rw [hn] at hw
    obtain ⟨h1, h2, h3⟩ := hw
    rw [hsz] at h1
    exact (unassailable_iff h.holds h1 h2).1 h3
  · intro hall
    have hc : CondorcetWinner n bs c := by
      have := hall [] ⟨by simp, by simp [castPower]⟩
      rwa [List.append_nil] at this
    have hp := (posCol_iff h.holds hc.1).2 hc
    have hu := (unassailable_iff h.holds hc.1 hp).2 hall
    have hcn : c < t.m.n := by rw [hsz]; exact hc.1
    cases hwin : t.winner with
    | never => rw [hwin] at hw; exact absurd hp (hw.1 c hcn)
    | none => rw [hwin] at hw; exact absurd hp (hw.1 c hcn)
    | undisputed d =>
      rw [winner_unique hc (winner_posCol h (Or.inl hwin)).2]
    | some d =>
      rw [hwin] at hw
      obtain ⟨h1, h2, h3⟩ := hw
      have := posCol_unique hcn h1 hp h2
      subst this
      exact absurd hu h3

/-- A further ballot keeps "undisputed" and "never". -/
theorem allowed_more {n : Nat} {extra : List Ballot} {r : List Nat} {o power : Nat}
    (hr : IsRanking n r) (hle : power ≤ o) (h : Allowed n (o - power) extra) :
    Allowed n o ([⟨r, power⟩] ++ extra) := by
  refine ⟨?_, ?_⟩
  · intro b hb
    rcases List.mem_append.1 hb with hb | hb
    · simp at hb; subst hb; exact hr
    · exact h.1 b hb
  · rw [castPower_append]; simp only [castPower]; have := h.2; omega

theorem addVote_keeps {n total power : Nat} {t t' : Tally} {bs : List Ballot} {r : List Nat}
    (ht : TallyOf t n total bs) (hr : IsRanking n r) (hp : power ≠ 0) (h : t.addVote r power = .ok t') :
    (∀ c, t.winner = .undisputed c → t'.winner = .undisputed c) ∧ (t.winner = .never → t'.winner = .never) := by
  obtain ⟨ht', _, _, hle⟩ := addVote_of ht hr hp h
  have hout : t'.outstanding = t.outstanding - power := by
    have h1 := ht.out
    have h2 := ht'.out
    rw [castPower_append] at h2
    simp only [castPower] at h2
    omega
  constructor
  · intro c hc
    rw [undisputed_iff ht'] 
    rw [undisputed_iff ht] at hc
    intro extra hex
    rw [hout] at hex
    have := hc _ (allowed_more hr hle hex)
    rwa [List.append_assoc]
  · intro hn
    rw [never_iff ht']
    rw [never_iff ht] at hn
    intro extra hex
    rw [hout] at hex
    have := hn _ (allowed_more hr hle hex)
    rwa [List.append_assoc]

/-! ## The invariant is kept -/

theorem ballotsOn_other {id : Nat} {e : Event} {log : List Event} (h : ∀ r, e.call ≠ .vote id r) :
    ballotsOn id (e :: log) = ballotsOn id log ∧ votersOn id (e :: log) = votersOn id log := by
  rw [ballotsOn, votersOn]
  cases hc : e.call with
  | vote i r =>
    have : i ≠ id := by rintro rfl; exact h r hc
    simp [this]
  | _ => simp

theorem ballotsOn_vote {id : Nat} {e : Event} {log : List Event} {r : List Nat} {t : Tally}
    (h : e.call = .vote id r) (ht : e.pre.tallies.get id = some t) :
    ballotsOn id (e :: log) = ballotsOn id log ++ [⟨r, e.env.power e.pre.dao e.env.sender t.startHeight⟩] ∧
      votersOn id (e :: log) = votersOn id log ++ [e.env.sender] := by
  rw [ballotsOn, votersOn, h]
  simp [ht]

theorem propInv_status {p : Proposal} {t : Tally} {id : Nat} {bs : List Ballot} {st : Status}
    (h : PropInv p t id bs) (h1 : ∀ w, st ≠ .passed w) :
    PropInv { p with lastStatus := st } t id bs :=
  ⟨h.tally, h.quorum, h.ident, h1⟩

/-- Recording a final status keeps the invariant. -/
theorem inv_final {s : State} {log : List Event} {env : Env} {call : Call} {out : Out} (hi : Inv s log)
    {id : Nat} {p : Proposal} (hp : s.proposals.get id = some p) {st : Status} (hf : Spec.Condorcet.Final st)
    (hcall : ∀ i r, call ≠ .vote i r) {s' : State}
    (hs' : s' = { s with proposals := s.proposals.set id { p with lastStatus := st } }) :
    Inv s' (⟨s, env, call, out, s'⟩ :: log) := by
  have hlog : ∀ i, ballotsOn i (⟨s, env, call, out, s'⟩ :: log) = ballotsOn i log ∧
      votersOn i (⟨s, env, call, out, s'⟩ :: log) = votersOn i log := fun i =>
    ballotsOn_other (fun r => hcall i r)
  have hsome : ∀ i, ((s.proposals.set id { p with lastStatus := st }).get i).isSome ↔
      (s.proposals.get i).isSome := by
    intro i; rw [AMap.get_set]
    by_cases h : id = i
    · subst h; simp [hp]
    · simp [h]
  have htop : top s' = top s := by
    subst hs'
    have keys : ∀ q, q ∈ (s.proposals.set id { p with lastStatus := st }).map Prod.fst ↔
        q ∈ s.proposals.map Prod.fst := by
      intro q; rw [AMap.mem_keys_iff, AMap.mem_keys_iff, hsome]
    unfold top
    apply Nat.le_antisymm
    · rcases foldl_max_mem ((s.proposals.set id { p with lastStatus := st }).map Prod.fst) 0 with h | h
      · show List.foldl max 0 _ ≤ _
        rw [h]; omega
      · exact (foldl_max_ge _ 0).2 _ ((keys _).1 h)
    · rcases foldl_max_mem (s.proposals.map Prod.fst) 0 with h | h
      · rw [h]; omega
      · exact (foldl_max_ge _ 0).2 _ ((keys _).2 h)
  refine
    { config := by subst hs'; exact hi.config
      wfP := by subst hs'; exact AMap.WF_set hi.wfP _ _
      wfT := by subst hs'; exact hi.wfT
      wfV := by subst hs'; exact hi.wfV
      both := by subst hs'; intro i; rw [hi.both]; exact (hsome i).symm
      ids := by intro i; rw [htop, ← hi.ids]; subst hs'; exact hsome i
      prop := ?_
      unborn := by intro i h; rw [(hlog i).1, (hlog i).2]; subst hs'; exact hi.unborn i h
      voted := by intro i a; rw [(hlog i).2]; subst hs'; exact hi.voted i a
      once := by intro i; rw [(hlog i).2]; exact hi.once i }
  intro i t q ht hq
  rw [(hlog i).1]
  subst hs'
  simp only at ht hq
  rw [AMap.get_set] at hq
  split at hq
  · rename_i h; subst h; injection hq with hq; subst hq
    exact propInv_status (hi.prop id t p ht hp) (by intro w h; subst h; exact hf)
  · exact hi.prop i t q ht hq

theorem status_fresh {b : Block} {c : Config} {a : Addr} {id : Nat} {ch : List (List Nat)} {T : Nat}
    {t : Tally} {st : Status} (ht : TallyOf t ch.length T []) (hq : PctOk c.quorum)
    (h : (freshProposal b c a id ch T).status t b = .ok st) :
    PropInv { freshProposal b c a id ch T with lastStatus := st } t id [] := by
  have hi : PropInv (freshProposal b c a id ch T) t id [] :=
    ⟨ht, hq, rfl, by intro w; simp [freshProposal]⟩
  have hno : ∀ w, ¬ CondorcetWinner ch.length [] w := by
    rintro w ⟨h1, h2⟩
    have h2' := ht.two
    by_cases h0 : w = 0
    · have := h2 1 (by omega) (by omega); simp [support] at this
    · have := h2 0 (by omega) (by omega); simp [support] at this
  refine ⟨ht, hq, rfl, ?_⟩
  intro w hw
  simp only at hw; subst hw
  obtain ⟨_, _, _, h4⟩ := status_passed hi h
  exact hno w (winner_posCol ht (h4.imp (fun h => h) And.left)).2

theorem inv_step {s s' : State} {log : List Event} {env : Env} {call : Call} {out : Out} (hi : Inv s log)
    (h : step s env call = .ok (s', out)) : Inv s' (⟨s, env, call, out, s'⟩ :: log) := by
  cases call with
  | propose choices =>
    simp only [step] at h
    obtain ⟨t, st, total, rfl, hT, hu, hne, _, ht, hst, hs', hout⟩ := propose_inv h
    have htop := top_set (s := s) (s' := s') (by rw [hs'])
    have hlog : ∀ i, ballotsOn i (⟨s, env, .propose choices, out, s'⟩ :: log) = ballotsOn i log ∧
        votersOn i (⟨s, env, .propose choices, out, s'⟩ :: log) = votersOn i log := fun i =>
      ballotsOn_other (fun r => by simp)
    have hnoP : s.proposals.get (top s + 1) = none := by
      cases hg : s.proposals.get (top s + 1) with
      | none => rfl
      | some q => have := le_top hg; omega
    have hnoT : s.tallies.get (top s + 1) = none := by
      have := hi.both (top s + 1)
      rw [hnoP] at this; simpa using this
    have h2 : 2 ≤ (choices ++ [[]]).length := by
      cases choices with
      | nil => exact absurd rfl hne
      | cons a l => simp
    obtain ⟨hto, _, _⟩ := newTally_of h2 hT ht
    have hpi := status_fresh hto hi.config hst
    subst hs'
    refine
      { config := hi.config
        wfP := AMap.WF_set hi.wfP _ _
        wfT := AMap.WF_set hi.wfT _ _
        wfV := hi.wfV
        both := ?_, ids := ?_, prop := ?_, unborn := ?_
        voted := by intro i a; rw [(hlog i).2]; exact hi.voted i a
        once := by intro i; rw [(hlog i).2]; exact hi.once i }
    · intro i
      simp only [AMap.get_set]
      by_cases h : top s + 1 = i
      · simp [h]
      · simp [h]; simpa using hi.both i
    · intro i
      rw [htop]
      simp only [AMap.get_set]
      by_cases h : top s + 1 = i
      · simp [h]; omega
      · simp only [h, if_false]; rw [hi.ids]; omega
    · intro i t' p ht' hp
      rw [(hlog i).1]
      simp only [AMap.get_set] at ht' hp
      by_cases h : top s + 1 = i
      · subst h
        simp only [if_true, Option.some.injEq] at ht' hp
        subst ht'; subst hp
        rw [(hi.unborn _ hnoT).1]
        exact hpi
      · simp only [h, if_false] at ht' hp
        exact hi.prop i t' p ht' hp
    · intro i hn
      rw [(hlog i).1, (hlog i).2]
      simp only [AMap.get_set] at hn
      by_cases h : top s + 1 = i
      · simp [h] at hn
      · simp only [h, if_false] at hn
        exact hi.unborn i hn
  | vote id v =>
    simp only [step] at h
    obtain ⟨t, t', ht, hp0, hpu, hno, hexp, hr, hadd, hs', hout⟩ := vote_inv h
    have hsomeP : (s.proposals.get id).isSome := (hi.both id).1 (by simp [ht])
    obtain ⟨p, hp⟩ := Option.isSome_iff_exists.1 hsomeP
    have hpi := hi.prop id t p ht hp
    have hsz := hpi.tally.holds.size
    rw [hsz] at hr
    obtain ⟨hto, he, hsh, _⟩ := addVote_of hpi.tally hr hp0 hadd
    obtain ⟨hb1, hb2⟩ := ballotsOn_vote (id := id) (e := ⟨s, env, .vote id v, out, s'⟩) (log := log)
      (r := v) rfl ht
    have hlog : ∀ i, i ≠ id → ballotsOn i (⟨s, env, .vote id v, out, s'⟩ :: log) = ballotsOn i log ∧
        votersOn i (⟨s, env, .vote id v, out, s'⟩ :: log) = votersOn i log := fun i hne =>
      ballotsOn_other (fun r => by simp only [ne_eq, Call.vote.injEq, not_and]; intro h; exact absurd h.symm hne)
    have hnew : env.sender ∉ votersOn id log := by
      rw [← hi.voted, hno]; simp
    subst hs'
    refine
      { config := hi.config
        wfP := hi.wfP
        wfT := AMap.WF_set hi.wfT _ _
        wfV := AMap.WF_set hi.wfV _ _
        both := ?_, ids := hi.ids, prop := ?_, unborn := ?_, voted := ?_, once := ?_ }
    · intro i
      simp only [AMap.get_set]
      by_cases h : id = i
      · subst h; simp [hp]
      · simp only [h, if_false]; exact hi.both i
    · intro i t'' q ht'' hq
      simp only [AMap.get_set] at ht''
      by_cases h : id = i
      · subst h
        simp only [if_true, Option.some.injEq] at ht''
        subst ht''
        simp only at hq
        rw [hp] at hq; injection hq with hq; subst hq
        rw [hb1]
        exact ⟨hto, hpi.quorum, hpi.ident, hpi.notPassed⟩
      · simp only [h, if_false] at ht''
        rw [(hlog i (Ne.symm h)).1]
        exact hi.prop i t'' q ht'' hq
    · intro i hn
      simp only [AMap.get_set] at hn
      by_cases h : id = i
      · simp [h] at hn
      · simp only [h, if_false] at hn
        rw [(hlog i (Ne.symm h)).1, (hlog i (Ne.symm h)).2]
        exact hi.unborn i hn
    · intro i a
      simp only [AMap.get_set, Prod.mk.injEq]
      by_cases h : id = i
      · subst h
        rw [hb2, List.mem_append]
        by_cases ha : env.sender = a
        · subst ha; simp
        · have ha' : ¬ a = env.sender := fun h => ha h.symm
          simp only [ha, and_false, if_false, List.mem_singleton, ha', or_false]
          exact hi.voted id a
      · simp only [h, false_and, if_false]
        rw [(hlog i (Ne.symm h)).2]
        exact hi.voted i a
    · intro i
      by_cases h : id = i
      · subst h
        rw [hb2, List.nodup_append]
        refine ⟨hi.once id, by simp, ?_⟩
        intro a ha b hb
        simp at hb; subst hb; rintro rfl; exact hnew ha
      · rw [(hlog i (Ne.symm h)).2]; exact hi.once i
  | execute id f =>
    simp only [step] at h
    obtain ⟨t, p, w, msgs, st, _, hp, _, _, _, hst, hs', _⟩ := execute_inv h
    exact inv_final hi hp (by rcases hst with ⟨rfl, _⟩ | ⟨rfl, _⟩ <;> trivial) (by simp) hs'
  | close id =>
    simp only [step] at h
    obtain ⟨t, p, _, hp, _, hs', _⟩ := close_inv h
    exact inv_final (st := .closed) hi hp trivial (by simp) hs'
  | setConfig c =>
    simp only [step] at h
    obtain ⟨_, hq, hs', _⟩ := setConfig_inv h
    have hlog : ∀ i, ballotsOn i (⟨s, env, .setConfig c, out, s'⟩ :: log) = ballotsOn i log ∧
        votersOn i (⟨s, env, .setConfig c, out, s'⟩ :: log) = votersOn i log := fun i =>
      ballotsOn_other (fun r => by simp)
    subst hs'
    exact
      { config := hq, wfP := hi.wfP, wfT := hi.wfT, wfV := hi.wfV, both := hi.both, ids := hi.ids
        prop := by intro i t p ht hp; rw [(hlog i).1]; exact hi.prop i t p ht hp
        unborn := by intro i h; rw [(hlog i).1, (hlog i).2]; exact hi.unborn i h
        voted := by intro i a; rw [(hlog i).2]; exact hi.voted i a
        once := by intro i; rw [(hlog i).2]; exact hi.once i }

theorem inv_reach {s : State} {b : Block} {log : List Event} (h : Reach s b log) : Inv s log := by
  obtain ⟨env, c, s0, h0, hr⟩ := h
  induction hr with
  | refl => exact inv_init h0
  | step hr hb hs ih => exact inv_step ih hs

/-- A longer history reaches what the continuation reaches. -/
theorem reach_run {s : State} {b : Block} {log : List Event} (h : Reach s b log) {s' : State} {b' : Block}
    {log' : List Event} (hr : Run s b log' s' b') : Reach s' b' (log' ++ log) := by
  obtain ⟨env, c, s0, h0, h1⟩ := h
  refine ⟨env, c, s0, h0, ?_⟩
  induction hr with
  | refl => simpa using h1
  | step hr hb hs ih => exact Run.step ih hb hs

theorem run_block {s : State} {b : Block} {s' : State} {b' : Block} {log' : List Event}
    (hr : Run s b log' s' b') : b.le b' := by
  induction hr with
  | refl => exact Block.le_refl _
  | step hr hb hs ih => exact Block.le_trans ih hb

end Verif.Condorcet
