import Verif.Proofs.CondorcetHistory
/-!
# C22-C25: Condorcet proposals
-/

namespace Verif.Condorcet
open Verif Verif.Voting Verif.Spec.Condorcet

/-- In a reachable state a proposal and its tally come together and satisfy the invariant. -/
theorem reach_prop {s : State} {b : Block} {log : List Event} (h : Reach s b log) {id : Nat} {p : Proposal}
    {t : Tally} (hp : s.proposals.get id = some p) (ht : s.tallies.get id = some t) :
    PropInv p t id (ballotsOn id log) :=
  (inv_reach h).prop id t p ht hp

/-! ## C22 -/

/-- **C22.** In every reachable state and for any two candidates, the entry of the stored matrix is the
power of the voters who ranked the first above the second minus the power of those who ranked it
below. -/
theorem C22_margins {s : State} {b : Block} {log : List Event} (h : Reach s b log) {id : Nat} {p : Proposal}
    {t : Tally} (hp : s.proposals.get id = some p) (ht : s.tallies.get id = some t) {x y : Nat}
    (hx : x < p.choices.length) (hy : y < p.choices.length) (hxy : x ≠ y) :
    ∃ c, t.m.get x y = .ok c ∧
      cellValue c = (support (ballotsOn id log) x y : Int) - support (ballotsOn id log) y x := by
  have hi := (reach_prop h hp ht).tally
  have hsz := hi.holds.size
  obtain ⟨c, h1, h2, _⟩ := get_ok hi.holds.ok hxy (by rw [hsz]; exact hx) (by rw [hsz]; exact hy)
  exact ⟨c, h1, by rw [h2, hi.holds.val x y hx hy hxy]⟩

/-- **C22.** Every accepted ballot ranks each choice of the proposal exactly once. -/
theorem C22_ballots_complete {s : State} {b : Block} {log : List Event} (h : Reach s b log) {id : Nat}
    {p : Proposal} {t : Tally} (hp : s.proposals.get id = some p) (ht : s.tallies.get id = some t) :
    ∀ bal ∈ ballotsOn id log, IsRanking p.choices.length bal.ranking ∧ bal.power ≠ 0 :=
  (reach_prop h hp ht).tally.ranks

/-- **C22.** The outstanding power is the total power minus the power that voted. -/
theorem C22_outstanding {s : State} {b : Block} {log : List Event} (h : Reach s b log) {id : Nat}
    {p : Proposal} {t : Tally} (hp : s.proposals.get id = some p) (ht : s.tallies.get id = some t) :
    t.outstanding + castPower (ballotsOn id log) = p.totalPower :=
  (reach_prop h hp ht).tally.out

/-! ## C23, C24 -/

/-- **C23.** A reported winner beats every other candidate pairwise. -/
theorem C23_winner_sound {s : State} {b : Block} {log : List Event} (h : Reach s b log) {id : Nat}
    {p : Proposal} {t : Tally} (hp : s.proposals.get id = some p) (ht : s.tallies.get id = some t) {w : Nat}
    (hw : t.winner = .some w ∨ t.winner = .undisputed w) :
    CondorcetWinner p.choices.length (ballotsOn id log) w :=
  (winner_posCol (reach_prop h hp ht).tally hw.symm).2

/-- **C23.** There is at most one candidate that beats every other. -/
theorem C23_winner_unique {n : Nat} {bs : List Ballot} {c d : Nat} (h1 : CondorcetWinner n bs c)
    (h2 : CondorcetWinner n bs d) : c = d := winner_unique h1 h2

/-- **C23.** Whenever a candidate beats every other the tally reports it. -/
theorem C23_winner_complete {s : State} {b : Block} {log : List Event} (h : Reach s b log) {id : Nat}
    {p : Proposal} {t : Tally} (hp : s.proposals.get id = some p) (ht : s.tallies.get id = some t) {w : Nat}
    (hw : CondorcetWinner p.choices.length (ballotsOn id log) w) :
    t.winner = .some w ∨ t.winner = .undisputed w := by
  have hi := (reach_prop h hp ht).tally
  have hsz := hi.holds.size
  have hpos := (posCol_iff hi.holds hw.1).2 hw
  have hs := hi.winner
  have hwn : w < t.m.n := by rw [hsz]; exact hw.1
  cases hwin : t.winner with
  | never => rw [hwin] at hs; exact absurd hpos (hs.1 w hwn)
  | none => rw [hwin] at hs; exact absurd hpos (hs.1 w hwn)
  | some c => rw [winner_unique hw (winner_posCol hi (Or.inr hwin)).2]; exact Or.inl rfl
  | undisputed c => rw [winner_unique hw (winner_posCol hi (Or.inl hwin)).2]; exact Or.inr rfl

/-- **C23.** A winner is reported as undisputed exactly when it stays the winner however the outstanding
power votes. -/
theorem C23_undisputed_iff {s : State} {b : Block} {log : List Event} (h : Reach s b log) {id : Nat}
    {p : Proposal} {t : Tally} (hp : s.proposals.get id = some p) (ht : s.tallies.get id = some t) {w : Nat} :
    t.winner = .undisputed w ↔
      ∀ extra, Allowed p.choices.length t.outstanding extra →
        CondorcetWinner p.choices.length (ballotsOn id log ++ extra) w :=
  undisputed_iff (reach_prop h hp ht).tally

/-- **C24.** "Never" is reported exactly when no way of casting the outstanding power produces a
winner. -/
theorem C24_never_iff {s : State} {b : Block} {log : List Event} (h : Reach s b log) {id : Nat}
    {p : Proposal} {t : Tally} (hp : s.proposals.get id = some p) (ht : s.tallies.get id = some t) :
    t.winner = .never ↔
      ∀ extra, Allowed p.choices.length t.outstanding extra →
        ∀ c, ¬ CondorcetWinner p.choices.length (ballotsOn id log ++ extra) c :=
  never_iff (reach_prop h hp ht).tally

/-- One call keeps proposals and tallies, apart from the recorded status and the effect of a vote. -/
theorem step_keeps {s s' : State} {b : Block} {log : List Event} (h : Reach s b log) {env : Env}
    {call : Call} {out : Out} (hs : step s env call = .ok (s', out)) {id : Nat} {p : Proposal} {t : Tally}
    (hp : s.proposals.get id = some p) (ht : s.tallies.get id = some t) :
    ∃ p' t', s'.proposals.get id = some p' ∧ s'.tallies.get id = some t' ∧
      p' = { p with lastStatus := p'.lastStatus } ∧
      ((p' = p ∧ t' = t) ∨
       (p' = p ∧ (∃ r, call = .vote id r) ∧ t.expiration.isExpired env.block = false ∧
          ∃ r pw, IsRanking p.choices.length r ∧ pw ≠ 0 ∧ t.addVote r pw = .ok t') ∨
       (t' = t ∧ (∃ f, call = .execute id f) ∧ (∃ w, p.status t env.block = .ok (.passed w)) ∧
          (p'.lastStatus = .executed ∨ p'.lastStatus = .executionFailed)) ∨
       (t' = t ∧ call = .close id ∧ p.status t env.block = .ok .rejected ∧ p'.lastStatus = .closed)) := by
  have hi := inv_reach h
  cases call with
  | propose choices =>
    simp only [step] at hs
    obtain ⟨t1, st, total, rfl, hT, hu, hne, _, _, hst, rfl, hout⟩ := propose_inv hs
    have hle := le_top hp
    have hn : top s + 1 ≠ id := by omega
    exact ⟨p, t, by simp only [AMap.get_set, hn, if_false, hp], by simp only [AMap.get_set, hn, if_false, ht],
      rfl, Or.inl ⟨rfl, rfl⟩⟩
  | vote i v =>
    simp only [step] at hs
    obtain ⟨t1, t', ht1, hp0, hpu, hno, hexp, hr, hadd, rfl, hout⟩ := vote_inv hs
    by_cases hid : i = id
    · subst hid
      rw [ht] at ht1; injection ht1 with ht1; subst ht1
      have hsz := (hi.prop i t p ht hp).tally.holds.size
      rw [hsz] at hr
      exact ⟨p, t', hp, AMap.get_set_self _ _ _, rfl,
        Or.inr (Or.inl ⟨rfl, ⟨v, rfl⟩, hexp, v, _, hr, hp0, hadd⟩)⟩
    · exact ⟨p, t, hp, by simp only [AMap.get_set, hid, if_false, ht], rfl, Or.inl ⟨rfl, rfl⟩⟩
  | execute i f =>
    simp only [step] at hs
    obtain ⟨t1, p1, w, msgs, st, ht1, hp1, _, hst1, _, hst, rfl, _⟩ := execute_inv hs
    by_cases hid : i = id
    · subst hid
      rw [ht] at ht1; injection ht1 with ht1; subst ht1
      rw [hp] at hp1; injection hp1 with hp1; subst hp1
      refine ⟨{ p with lastStatus := st }, t, AMap.get_set_self _ _ _, ht, rfl,
        Or.inr (Or.inr (Or.inl ⟨rfl, ⟨f, rfl⟩, ⟨w, hst1⟩, ?_⟩))⟩
      rcases hst with ⟨rfl, _⟩ | ⟨rfl, _⟩
      · exact Or.inl rfl
      · exact Or.inr rfl
    · exact ⟨p, t, by simp only [AMap.get_set, hid, if_false, hp], ht, rfl, Or.inl ⟨rfl, rfl⟩⟩
  | close i =>
    simp only [step] at hs
    obtain ⟨t1, p1, ht1, hp1, hst1, rfl, _⟩ := close_inv hs
    by_cases hid : i = id
    · subst hid
      rw [ht] at ht1; injection ht1 with ht1; subst ht1
      rw [hp] at hp1; injection hp1 with hp1; subst hp1
      exact ⟨{ p with lastStatus := .closed }, t, AMap.get_set_self _ _ _, ht, rfl,
        Or.inr (Or.inr (Or.inr ⟨rfl, rfl, hst1, rfl⟩))⟩
    · exact ⟨p, t, by simp only [AMap.get_set, hid, if_false, hp], ht, rfl, Or.inl ⟨rfl, rfl⟩⟩
  | setConfig c =>
    simp only [step] at hs
    obtain ⟨_, _, rfl, _⟩ := setConfig_inv hs
    exact ⟨p, t, hp, ht, rfl, Or.inl ⟨rfl, rfl⟩⟩

/-- **C23, C24.** Over every continuation of a history an undisputed winner stays the undisputed winner,
and "never" stays "never". -/
theorem C23_C24_stay {s : State} {b : Block} {log : List Event} (h : Reach s b log) {id : Nat} {p : Proposal}
    {t : Tally} (hp : s.proposals.get id = some p) (ht : s.tallies.get id = some t) {s' : State} {b' : Block}
    {log' : List Event} (hr : Run s b log' s' b') :
    ∃ t', s'.tallies.get id = some t' ∧
      (∀ w, t.winner = .undisputed w → t'.winner = .undisputed w) ∧
      (t.winner = .never → t'.winner = .never) := by
  suffices hh : ∃ t' p', s'.tallies.get id = some t' ∧ s'.proposals.get id = some p' ∧
      (∀ w, t.winner = .undisputed w → t'.winner = .undisputed w) ∧
      (t.winner = .never → t'.winner = .never) by
    obtain ⟨t', _, h1, _, h2⟩ := hh; exact ⟨t', h1, h2⟩
  induction hr with
  | refl => exact ⟨t, p, ht, hp, fun _ h => h, fun h => h⟩
  | step hr hb hs ih =>
    obtain ⟨t1, p1, ht1, hp1, h1, h2⟩ := ih
    have hreach := reach_run h hr
    obtain ⟨p', t', hp', ht', _, hcase⟩ := step_keeps hreach hs hp1 ht1
    refine ⟨t', p', ht', hp', ?_⟩
    rcases hcase with ⟨_, rfl⟩ | ⟨_, _, _, r, pw, hrk, hpw, hadd⟩ | ⟨rfl, _⟩ | ⟨rfl, _⟩
    · exact ⟨h1, h2⟩
    · obtain ⟨k1, k2⟩ := addVote_keeps (reach_prop hreach hp1 ht1).tally hrk hpw hadd
      exact ⟨fun w hw => k1 w (h1 w hw), fun hn => k2 (h2 hn)⟩
    · exact ⟨h1, h2⟩
    · exact ⟨h1, h2⟩

/-! ## C25 -/

/-- **C25.** A voter votes at most once on a proposal: no address occurs twice among the voters of a
history, and the addresses with a stored ballot are exactly the voters. -/
theorem C25_one_vote {s : State} {b : Block} {log : List Event} (h : Reach s b log) (id : Nat) :
    (votersOn id log).Nodup ∧ ∀ a, (s.votes.get (id, a)).isSome ↔ a ∈ votersOn id log :=
  ⟨(inv_reach h).once id, (inv_reach h).voted id⟩

/-- **C25.** A second vote is refused. -/
theorem C25_second_vote_refused {s : State} {id : Nat} {env : Env} {r : List Nat} {v : List Nat}
    (hv : s.votes.get (id, env.sender) = some r) (s' : State) (out : Out) :
    step s env (.vote id v) ≠ .ok (s', out) := by
  intro h
  simp only [step] at h
  obtain ⟨_, _, _, _, _, hno, _⟩ := vote_inv h
  rw [hv] at hno; cases hno

/-- **C25.** A stored ballot never changes. -/
theorem C25_ballot_permanent {s : State} {b : Block} {s' : State} {b' : Block} {log' : List Event}
    (hr : Run s b log' s' b') {id : Nat} {a : Addr} {r : List Nat} (hv : s.votes.get (id, a) = some r) :
    s'.votes.get (id, a) = some r := by
  induction hr with
  | refl => exact hv
  | step hr hb hs ih =>
    rename_i s1 s2 b1 log env call out
    cases call with
    | propose c => simp only [step] at hs; obtain ⟨_, _, _, _, _, _, _, _, _, _, rfl, _⟩ := propose_inv hs; exact ih
    | vote i v =>
      simp only [step] at hs
      obtain ⟨_, _, _, _, _, hno, _, _, _, rfl, _⟩ := vote_inv hs
      simp only [AMap.get_set, Prod.mk.injEq]
      split
      · rename_i heq; obtain ⟨rfl, rfl⟩ := heq; rw [ih] at hno; cases hno
      · exact ih
    | execute i f => simp only [step] at hs; obtain ⟨_, _, _, _, _, _, _, _, _, _, _, rfl, _⟩ := execute_inv hs; exact ih
    | close i => simp only [step] at hs; obtain ⟨_, _, _, _, _, rfl, _⟩ := close_inv hs; exact ih
    | setConfig c => simp only [step] at hs; obtain ⟨_, _, rfl, _⟩ := setConfig_inv hs; exact ih

theorem _root_.Verif.Spec.Condorcet.Path.trans {a b c : Status} (h : Path a b) (h' : Path b c) : Path a c := by
  induction h' with
  | refl => exact h
  | tail _ e ih => exact Path.tail ih e

theorem _root_.Verif.Spec.Condorcet.Path.one {a b : Status} (e : Edge a b) : Path a b := .tail (.refl a) e

theorem _root_.Verif.Spec.Condorcet.Path.final {a b : Status} (h : Path a b) (hf : Spec.Condorcet.Final a) : b = a := by
  induction h with
  | refl => rfl
  | tail h e ih => subst ih; cases e <;> exact hf.elim

theorem path_decide (w : Winner) (e q : Bool) : Path .opened (decideStatus w e q) := by
  unfold decideStatus
  split
  · exact .one .reject
  · cases w <;> simp only
    · exact .one .reject
    · split
      · exact .one .reject
      · exact .refl _
    · split
      · exact .one (.pass _)
      · exact .refl _
    · split
      · exact .one (.pass _)
      · exact .refl _

/-- Waiting moves the reported status along the lifecycle. -/
theorem path_time {p : Proposal} {t : Tally} {bs : List Ballot} {id : Nat} (hi : PropInv p t id bs)
    {b b' : Block} (hb : b.le b') {st st' : Status} (h : p.status t b = .ok st)
    (h' : p.status t b' = .ok st') : Path st st' := by
  by_cases ho : p.lastStatus = .opened
  · rw [status_eq hi ho] at h h'
    injection h with h; injection h' with h'
    subst h; subst h'
    by_cases hm : p.minPeriodRunning b = true
    · rw [if_pos hm]
      split
      · exact .refl _
      · exact path_decide _ _ _
    · have hm' : ¬ p.minPeriodRunning b' = true := by
        intro h'
        apply hm
        unfold Proposal.minPeriodRunning at h' ⊢
        cases hmp : p.minVotingPeriod with
        | none => rw [hmp] at h'; exact h'
        | some m =>
          rw [hmp] at h'
          simp only [Bool.not_eq_true'] at h' ⊢
          by_contra hc
          rw [Bool.not_eq_false] at hc
          rw [Expiration.isExpired_mono hb hc] at h'; cases h'
      rw [if_neg hm, if_neg hm']
      by_cases he : t.expiration.isExpired b = true
      · rw [he, Expiration.isExpired_mono hb he]; exact .refl _
      · rw [Bool.not_eq_true] at he
        rw [he]
        cases t.expiration.isExpired b' with
        | false => exact .refl _
        | true =>
          generalize passB _ _ _ = q
          unfold decideStatus
          cases q <;> cases t.winner <;> simp <;>
            first | exact .refl _ | exact .one .reject | exact .one (.pass _)
  · rw [status_other ho] at h h'
    injection h with h; injection h' with h'
    subst h; subst h'; exact .refl _

/-- A vote moves the reported status along the lifecycle. -/
theorem path_vote {p : Proposal} {t t' : Tally} {bs : List Ballot} {id : Nat} (hi : PropInv p t id bs)
    {b : Block} (hexp : t.expiration.isExpired b = false) {r : List Nat} {pw : Nat}
    (hr : IsRanking p.choices.length r) (hp0 : pw ≠ 0) (hadd : t.addVote r pw = .ok t') {st st' : Status}
    (h : p.status t b = .ok st) (h' : p.status t' b = .ok st') : Path st st' := by
  by_cases ho : p.lastStatus = .opened
  · obtain ⟨hto, he, _, _⟩ := addVote_of hi.tally hr hp0 hadd
    obtain ⟨k1, k2⟩ := addVote_keeps hi.tally hr hp0 hadd
    have hi' : PropInv p t' id (bs ++ [⟨r, pw⟩]) := ⟨hto, hi.quorum, hi.ident, hi.notPassed⟩
    rw [status_eq hi ho] at h
    rw [status_eq hi' ho] at h'
    injection h with h; injection h' with h'
    subst h; subst h'
    rw [he, hexp]
    split
    · exact .refl _
    · have hmono : passB (castPower bs) p.totalPower p.quorum = true →
          passB (castPower (bs ++ [⟨r, pw⟩])) p.totalPower p.quorum = true := by
        intro hq
        have h0 : p.totalPower ≠ 0 := by
          have h1 := hto.out
          rw [castPower_append] at h1; simp only [castPower] at h1; omega
        exact passB_mono hq (by rw [castPower_append]; omega) (Nat.le_refl _) h0
      cases hw : t.winner with
      | never => rw [k2 hw]; simp [decideStatus]; exact .refl _
      | none => exact path_decide _ _ _
      | some c => exact path_decide _ _ _
      | undisputed c =>
        rw [k1 c hw]
        cases hq : passB (castPower bs) p.totalPower p.quorum with
        | false => exact path_decide _ _ _
        | true => rw [hmono hq]; exact .refl _
  · rw [status_other ho] at h h'
    injection h with h; injection h' with h'
    subst h; subst h'; exact .refl _

/-- **C25.** Reported statuses only move along open → passed → executed or failed, and open → rejected →
closed: from any block `c` of any reachable state, through any further calls, to any later block. In
particular a proposal reported as passed (even before expiry) keeps its winner, and a rejected one never
passes. -/
theorem C25_lifecycle {s : State} {b c : Block} {log : List Event} (h : Reach s b log) (hc : b.le c)
    {id : Nat} {p : Proposal} {t : Tally} (hp : s.proposals.get id = some p) (ht : s.tallies.get id = some t)
    {s' : State} {b' c' : Block} {log' : List Event} (hr : Run s c log' s' b') (hc' : b'.le c')
    {st : Status} (hst : p.status t c = .ok st) :
    ∃ p' t' st', s'.proposals.get id = some p' ∧ s'.tallies.get id = some t' ∧
      p'.status t' c' = .ok st' ∧ Path st st' := by
  have hreach : ∀ {s1 : State} {b1 : Block} {log1 : List Event}, Run s c log1 s1 b1 →
      ∃ log2, Reach s1 b1 log2 ∨ (log1 = [] ∧ s1 = s ∧ Reach s b log2) := by
    intro s1 b1 log1 hr1
    cases hr1 with
    | refl => exact ⟨log, Or.inr ⟨rfl, rfl, h⟩⟩
    | step hr1 hb1 hs1 =>
      rename_i s2 b2 log2 env call out
      refine ⟨(⟨s2, env, call, out, s1⟩ :: log2) ++ log, Or.inl ?_⟩
      have key : ∀ {s3 : State} {b3 : Block} {log3 : List Event}, Run s c log3 s3 b3 →
          ∀ {env3 : Env} {call3 : Call} {out3 : Out} {s4 : State}, b3.le env3.block →
            step s3 env3 call3 = .ok (s4, out3) →
            Run s b (⟨s3, env3, call3, out3, s4⟩ :: log3) s4 env3.block := by
        intro s3 b3 log3 hr3
        induction hr3 with
        | refl => intro env3 call3 out3 s4 hb3 hs3; exact Run.step .refl (Block.le_trans hc hb3) hs3
        | step hr3 hb3 hs3 ih3 =>
          intro env4 call4 out4 s5 hb4 hs4
          exact Run.step (ih3 hb3 hs3) hb4 hs4
      exact reach_run h (key hr1 hb1 hs1)
  have main : ∃ p' t' st', s'.proposals.get id = some p' ∧ s'.tallies.get id = some t' ∧
      p'.status t' b' = .ok st' ∧ Path st st' := by
    clear hc'
    induction hr with
    | refl => exact ⟨p, t, st, hp, ht, hst, .refl _⟩
    | step hr hb hs ih =>
      rename_i s1 s2 b1 log1 env call out
      obtain ⟨p1, t1, st1, hp1, ht1, hst1, hpath⟩ := ih
      obtain ⟨log2, hre⟩ := hreach hr
      have hre1 : ∃ bb, Reach s1 bb log2 := by
        rcases hre with hre | ⟨_, rfl, hre⟩
        · exact ⟨_, hre⟩
        · exact ⟨_, hre⟩
      obtain ⟨bb, hre1⟩ := hre1
      have hi := reach_prop hre1 hp1 ht1
      obtain ⟨st2, hst2⟩ := status_total hi env.block
      have hp2 := path_time hi hb hst1 hst2
      obtain ⟨p', t', hp', ht', hsame, hcase⟩ := step_keeps hre1 hs hp1 ht1
      have hpath2 := Path.trans hpath hp2
      rcases hcase with ⟨rfl, rfl⟩ | ⟨rfl, _, hexp, r, pw, hrk, hpw, hadd⟩ | ⟨rfl, _, ⟨w, hw⟩, hl⟩ | ⟨rfl, _, hw, hl⟩
      · exact ⟨_, _, st2, hp', ht', hst2, hpath2⟩
      · obtain ⟨hto, _, _, _⟩ := addVote_of hi.tally hrk hpw hadd
        obtain ⟨st3, hst3⟩ := status_total (p := p') (t := t') (id := id)
          ⟨hto, hi.quorum, hi.ident, hi.notPassed⟩ env.block
        exact ⟨_, _, st3, hp', ht', hst3, Path.trans hpath2 (path_vote hi hexp hrk hpw hadd hst2 hst3)⟩
      · rw [hw] at hst2; injection hst2 with hst2; subst hst2
        refine ⟨_, _, p'.lastStatus, hp', ht', status_other ?_, ?_⟩
        · rcases hl with hl | hl <;> rw [hl] <;> simp
        · rcases hl with hl | hl <;> rw [hl]
          · exact .tail hpath2 (.execute w)
          · exact .tail hpath2 (.fail w)
      · rw [hw] at hst2; injection hst2 with hst2; subst hst2
        refine ⟨_, _, p'.lastStatus, hp', ht', status_other (by rw [hl]; simp), ?_⟩
        rw [hl]; exact .tail hpath2 .close
  obtain ⟨p', t', st1, hp', ht', hst1, hpath⟩ := main
  obtain ⟨log2, hre⟩ := hreach hr
  have hi : ∃ bs, PropInv p' t' id bs := by
    rcases hre with hre | ⟨_, rfl, hre⟩
    · exact ⟨_, reach_prop hre hp' ht'⟩
    · exact ⟨_, reach_prop hre hp' ht'⟩
  obtain ⟨bs, hi⟩ := hi
  obtain ⟨st2, hst2⟩ := status_total hi c'
  exact ⟨p', t', st2, hp', ht', hst2, Path.trans hpath (path_time hi hc' hst1 hst2)⟩

/-- **C25.** Executed, failed and closed proposals keep that status for ever. -/
theorem C25_final {s : State} {b : Block} {log : List Event} (h : Reach s b log) {id : Nat} {p : Proposal}
    {t : Tally} (hp : s.proposals.get id = some p) (ht : s.tallies.get id = some t)
    (hf : Spec.Condorcet.Final p.lastStatus) {s' : State} {b' : Block} {log' : List Event}
    (hr : Run s b log' s' b') :
    ∃ p', s'.proposals.get id = some p' ∧ p'.lastStatus = p.lastStatus := by
  have hno : p.lastStatus ≠ .opened := by intro h; rw [h] at hf; exact hf
  obtain ⟨p', t', st', hp', ht', hst', hpath⟩ := C25_lifecycle h (Block.le_refl _) hp ht hr (Block.le_refl _)
    (status_other hno)
  have := hpath.final hf
  refine ⟨p', hp', ?_⟩
  subst this
  by_cases ho : p'.lastStatus = .opened
  · rw [status_eq (reach_prop (reach_run h hr) hp' ht') ho] at hst'
    injection hst' with hst'
    have := path_decide t'.winner (t'.expiration.isExpired b')
      (passB (castPower (ballotsOn id (log' ++ log))) p'.totalPower p'.quorum)
    exfalso
    rw [← hst'] at hf
    split at hf
    · exact hf
    · unfold decideStatus at hf
      split at hf
      · exact hf
      · split at hf
        · exact hf
        · split at hf <;> exact hf
        · split at hf <;> exact hf
        · split at hf <;> exact hf
  · rw [status_other ho] at hst'
    injection hst'

/-- **C25.** An execution runs exactly the messages of the choice that beats every other choice pairwise,
with quorum met, before or after expiry as the status says; the sender had power when the proposal
began. -/
theorem C25_execute {s s' : State} {b : Block} {log : List Event} (h : Reach s b log) {env : Env} {id : Nat}
    {f : Bool} {out : Out} (hs : step s env (.execute id f) = .ok (s', out)) :
    ∃ p t w msgs, s.proposals.get id = some p ∧ s.tallies.get id = some t ∧
      p.status t env.block = .ok (.passed w) ∧
      CondorcetWinner p.choices.length (ballotsOn id log) w ∧
      doesVoteCountPass (castPower (ballotsOn id log)) p.totalPower p.quorum = .ok true ∧
      p.choices[w]? = some msgs ∧ out.toDao = some (s.dao, msgs) ∧
      env.power s.dao env.sender t.startHeight ≠ 0 := by
  simp only [step] at hs
  obtain ⟨t, p, w, msgs, st, ht, hp, hpw, hst, hm, _, _, rfl⟩ := execute_inv hs
  have hi := reach_prop h hp ht
  obtain ⟨_, _, hq, hw⟩ := status_passed hi hst
  refine ⟨p, t, w, msgs, hp, ht, hst, (winner_posCol hi.tally (hw.imp (fun h => h) And.left)).2, ?_, hm, rfl, hpw⟩
  have hout := hi.tally.out
  rw [pass_eq (by have := hi.tally.fits; omega) hi.tally.fits hi.quorum, hq]

/-- **C25.** Only executions send messages. -/
theorem C25_only_execute_sends {s s' : State} {env : Env} {call : Call} {out : Out}
    (hs : step s env call = .ok (s', out)) (hc : ∀ id f, call ≠ .execute id f) : out.toDao = none := by
  cases call with
  | propose c => simp only [step] at hs; obtain ⟨_, _, _, _, _, _, _, _, _, _, _, rfl⟩ := propose_inv hs; rfl
  | vote i v => simp only [step] at hs; obtain ⟨_, _, _, _, _, _, _, _, _, _, rfl⟩ := vote_inv hs; rfl
  | execute i f => exact absurd rfl (hc i f)
  | close i => simp only [step] at hs; obtain ⟨_, _, _, _, _, _, rfl⟩ := close_inv hs; rfl
  | setConfig c => simp only [step] at hs; obtain ⟨_, _, _, rfl⟩ := setConfig_inv hs; rfl

/-- **C25.** A proposal is executed at most once: after an execution, no continuation contains another
execution of it. -/
theorem C25_execute_once {s s1 s' : State} {b : Block} {log : List Event} (h : Reach s b log) {env : Env}
    {id : Nat} {f : Bool} {out : Out} (hb : b.le env.block) (hs : step s env (.execute id f) = .ok (s1, out))
    {b' : Block} {log' : List Event} (hr : Run s1 env.block log' s' b') :
    ∀ e ∈ log', ∀ f', e.call ≠ .execute id f' := by
  have hre : Reach s1 env.block (⟨s, env, .execute id f, out, s1⟩ :: log) := by
    obtain ⟨e0, c0, s0, h0, hr0⟩ := h
    exact ⟨e0, c0, s0, h0, Run.step hr0 hb hs⟩
  simp only [step] at hs
  obtain ⟨t, p, w, msgs, st, ht, hp, hpw, hst, hm, hfin, hs1, rfl⟩ := execute_inv hs
  have hp1 : s1.proposals.get id = some { p with lastStatus := st } := by rw [hs1]; exact AMap.get_set_self _ _ _
  have ht1 : s1.tallies.get id = some t := by rw [hs1]; exact ht
  have hf : Spec.Condorcet.Final st := by rcases hfin with ⟨rfl, _⟩ | ⟨rfl, _⟩ <;> trivial
  intro e he f' hcall
  have key : ∀ {s' : State} {b' : Block} {log' : List Event}, Run s1 env.block log' s' b' → ∀ e ∈ log',
      ∃ bb l, Run s1 env.block l e.pre bb ∧ step e.pre e.env e.call = .ok (e.post, e.out) := by
    intro s' b' log' hr
    induction hr with
    | refl => intro e he; simp at he
    | step hr hb hs ih =>
      intro e he
      rcases List.mem_cons.1 he with rfl | he
      · exact ⟨_, _, hr, hs⟩
      · exact ih e he
  obtain ⟨bb, l, hrun, hstep⟩ := key hr e he
  obtain ⟨p2, hp2, hst2⟩ := C25_final hre hp1 ht1 hf hrun
  rw [hcall] at hstep
  simp only [step] at hstep
  obtain ⟨t3, p3, w3, _, _, ht3, hp3, _, hst3, _⟩ := execute_inv hstep
  rw [hp2] at hp3; injection hp3 with hp3; subst hp3
  have := (status_passed (reach_prop (reach_run hre hrun) hp2 ht3) hst3).1
  rw [hst2] at this
  simp only at this
  rw [this] at hf; exact hf

/-- **C25.** Proposing stores the given choices followed by the empty "none of the above", under a fresh
id, with the total power, start height and deadlines of the block; no continuation changes anything about
the proposal but its status, the matrix and the outstanding power. -/
theorem C25_rules_fixed {s s1 s' : State} {b : Block} {log : List Event} (h : Reach s b log) {env : Env}
    {choices : List (List Nat)} {out : Out} (hb : b.le env.block)
    (hs : step s env (.propose choices) = .ok (s1, out)) {b' : Block} {log' : List Event}
    (hr : Run s1 env.block log' s' b') :
    ∃ id p t, out.newId = some id ∧ s.proposals.get id = none ∧ s'.proposals.get id = some p ∧
      s'.tallies.get id = some t ∧
      p.choices = choices ++ [[]] ∧ p.totalPower = env.totalNow s.dao ∧ p.quorum = s.config.quorum ∧
      p.closeOnExecutionFailure = s.config.closeOnExecutionFailure ∧ p.proposer = env.sender ∧
      p.minVotingPeriod = s.config.minVotingPeriod.map (·.after env.block) ∧
      t.expiration = s.config.votingPeriod.after env.block ∧ t.startHeight = env.block.height := by
  have hre : Reach s1 env.block (⟨s, env, .propose choices, out, s1⟩ :: log) := by
    obtain ⟨e0, c0, s0, h0, hr0⟩ := h
    exact ⟨e0, c0, s0, h0, Run.step hr0 hb hs⟩
  simp only [step] at hs
  obtain ⟨t, st, total, rfl, hT, hu, hne, _, ht, hst, hs1, rfl⟩ := propose_inv hs
  obtain ⟨_, htE, htS⟩ := newTally_of (by
    rw [List.length_append]
    have := List.length_pos_of_ne_nil hne
    simp only [List.length_cons, List.length_nil]; omega) hT ht
  refine ⟨top s + 1, ?_⟩
  have hnoP : s.proposals.get (top s + 1) = none := by
    cases hg : s.proposals.get (top s + 1) with
    | none => rfl
    | some q => have := le_top hg; omega
  have hp1 : s1.proposals.get (top s + 1) = some { freshProposal env.block s.config env.sender (top s + 1)
      (choices ++ [[]]) (env.totalNow s.dao) with lastStatus := st } := by
    rw [hs1]; exact AMap.get_set_self _ _ _
  have ht1 : s1.tallies.get (top s + 1) = some t := by rw [hs1]; exact AMap.get_set_self _ _ _
  have key : ∃ p t', s'.proposals.get (top s + 1) = some p ∧ s'.tallies.get (top s + 1) = some t' ∧
      p = { freshProposal env.block s.config env.sender (top s + 1)
        (choices ++ [[]]) (env.totalNow s.dao) with lastStatus := p.lastStatus } ∧
      t'.expiration = t.expiration ∧ t'.startHeight = t.startHeight := by
    induction hr with
    | refl => exact ⟨_, _, hp1, ht1, rfl, rfl, rfl⟩
    | step hr hb2 hs2 ih =>
      obtain ⟨p, t', hp, ht', hsame, hE, hS⟩ := ih
      obtain ⟨p', t'', hp', ht'', hs', hcase⟩ := step_keeps (reach_run hre hr) hs2 hp ht'
      refine ⟨p', t'', hp', ht'', by rw [hs', hsame], ?_⟩
      rcases hcase with ⟨_, rfl⟩ | ⟨_, _, _, r, pw, hrk, hpw, hadd⟩ | ⟨rfl, _⟩ | ⟨rfl, _⟩
      · exact ⟨hE, hS⟩
      · obtain ⟨_, k1, k2, _⟩ := addVote_of (reach_prop (reach_run hre hr) hp ht').tally hrk hpw hadd
        exact ⟨k1.trans hE, k2.trans hS⟩
      · exact ⟨hE, hS⟩
      · exact ⟨hE, hS⟩
  obtain ⟨p, t', hp, ht', hsame, hE, hS⟩ := key
  exact ⟨p, t', rfl, hnoP, hp, ht', by rw [hsame]; rfl, by rw [hsame]; rfl, by rw [hsame]; rfl,
    by rw [hsame]; rfl, by rw [hsame]; rfl, by rw [hsame]; rfl, hE.trans htE, hS.trans htS⟩

/-- **C25.** Only members propose: the proposer has power at the time. -/
theorem C25_proposer_member {s s' : State} {env : Env} {choices : List (List Nat)} {out : Out}
    (hs : step s env (.propose choices) = .ok (s', out)) : env.powerNow s.dao env.sender ≠ 0 := by
  simp only [step] at hs
  obtain ⟨_, _, _, _, _, _, _, h, _⟩ := propose_inv hs
  exact h

/-- **C25.** A vote is accepted only before expiry, from a sender with power at the start of the
proposal, and stores the sent ranking under the sender. -/
theorem C25_vote {s s' : State} {env : Env} {id : Nat} {v : List Nat} {out : Out}
    (hs : step s env (.vote id v) = .ok (s', out)) :
    ∃ t, s.tallies.get id = some t ∧ t.expiration.isExpired env.block = false ∧
      env.power s.dao env.sender t.startHeight ≠ 0 ∧ IsRanking t.m.n v ∧
      s'.votes.get (id, env.sender) = some v ∧
      ∀ k, k ≠ (id, env.sender) → s'.votes.get k = s.votes.get k := by
  simp only [step] at hs
  obtain ⟨t, t', ht, h0, _, _, he, hr, _, rfl, _⟩ := vote_inv hs
  refine ⟨t, ht, he, h0, hr, AMap.get_set_self _ _ _, fun k hk => ?_⟩
  simp only [AMap.get_set, Ne.symm hk, if_false]

/-- **C25.** Ids are consecutive from one. -/
theorem C25_ids_consecutive {s : State} {b : Block} {log : List Event} (h : Reach s b log) :
    ∃ n, ∀ id, (s.proposals.get id).isSome ↔ 1 ≤ id ∧ id ≤ n := ⟨top s, (inv_reach h).ids⟩

/-- **C25.** Only the DAO changes the configuration. -/
theorem C25_only_dao {s s' : State} {env : Env} {call : Call} {out : Out}
    (hs : step s env call = .ok (s', out)) (hne : s'.config ≠ s.config ∨ s'.dao ≠ s.dao) :
    env.sender = s.dao ∧ ∃ c, call = .setConfig c := by
  cases call with
  | propose c => simp only [step] at hs; obtain ⟨_, _, _, _, _, _, _, _, _, _, rfl, _⟩ := propose_inv hs; simp at hne
  | vote i v => simp only [step] at hs; obtain ⟨_, _, _, _, _, _, _, _, _, rfl, _⟩ := vote_inv hs; simp at hne
  | execute i f => simp only [step] at hs; obtain ⟨_, _, _, _, _, _, _, _, _, _, _, rfl, _⟩ := execute_inv hs; simp at hne
  | close i => simp only [step] at hs; obtain ⟨_, _, _, _, _, rfl, _⟩ := close_inv hs; simp at hne
  | setConfig c => simp only [step] at hs; exact ⟨(setConfig_inv hs).1, c, rfl⟩

/-- **C25.** Exactly when an open proposal is reported as passed with winner `w`: the minimum voting
period is over, quorum is met, and `w` beats every other choice now (if voting is over) or however the
outstanding power votes (if it is not). -/
theorem C25_passed_iff {s : State} {b : Block} {log : List Event} (h : Reach s b log) {id : Nat}
    {p : Proposal} {t : Tally} (hp : s.proposals.get id = some p) (ht : s.tallies.get id = some t)
    (ho : p.lastStatus = .opened) (c : Block) (w : Nat) :
    p.status t c = .ok (.passed w) ↔
      (∀ m, p.minVotingPeriod = some m → m.isExpired c = true) ∧
      doesVoteCountPass (castPower (ballotsOn id log)) p.totalPower p.quorum = .ok true ∧
      (if t.expiration.isExpired c then CondorcetWinner p.choices.length (ballotsOn id log) w
       else ∀ extra, Allowed p.choices.length t.outstanding extra →
        CondorcetWinner p.choices.length (ballotsOn id log ++ extra) w) := by
  have hi := reach_prop h hp ht
  have hout := hi.tally.out
  have hpe := pass_eq (w := castPower (ballotsOn id log)) (n := p.totalPower) (pt := p.quorum)
    (by have := hi.tally.fits; omega) hi.tally.fits hi.quorum
  have hmin : p.minPeriodRunning c = false ↔ ∀ m, p.minVotingPeriod = some m → m.isExpired c = true := by
    unfold Proposal.minPeriodRunning
    cases p.minVotingPeriod <;> simp
  rw [hpe, ← hmin]
  constructor
  · intro hst
    obtain ⟨_, h1, h2, h3⟩ := status_passed hi hst
    refine ⟨h1, by rw [h2], ?_⟩
    split
    · exact (winner_posCol hi.tally (h3.imp (fun h => h) And.left)).2
    · rename_i hne
      rcases h3 with h3 | ⟨_, h3⟩
      · exact (undisputed_iff hi.tally).1 h3
      · exact absurd h3 hne
  · rintro ⟨h1, h2, h3⟩
    injection h2 with h2
    rw [status_eq hi ho, h1, h2]
    split at h3
    · rename_i he
      rcases C23_winner_complete h hp ht h3 with hw | hw <;> rw [hw, he] <;> rfl
    · rename_i he
      rw [(undisputed_iff hi.tally).2 h3, Bool.not_eq_true _ |>.mp he]; rfl

/-! ## C61 for Condorcet proposals -/

/-- **C61.** Everybody with power who has not voted may cast any complete ranking until expiry, as long
as the powers reported do not exceed the total recorded at the start. -/
theorem C61_vote_accepted {s : State} {b : Block} {log : List Event} (h : Reach s b log) {id : Nat}
    {p : Proposal} {t : Tally} (hp : s.proposals.get id = some p) (ht : s.tallies.get id = some t)
    {env : Env} {r : List Nat} (hopen : t.expiration.isExpired env.block = false)
    (hr : IsRanking p.choices.length r) (hnew : env.sender ∉ votersOn id log)
    (h0 : env.power s.dao env.sender t.startHeight ≠ 0)
    (hle : env.power s.dao env.sender t.startHeight + castPower (ballotsOn id log) ≤ p.totalPower) :
    ∃ s' out, step s env (.vote id r) = .ok (s', out) := by
  have hi := reach_prop h hp ht
  have hout := hi.tally.out
  have hfit := hi.tally.fits
  have hsz := hi.tally.holds.size
  have hno : s.votes.get (id, env.sender) = none := by
    have := (inv_reach h).voted id env.sender
    cases hg : s.votes.get (id, env.sender) with
    | none => rfl
    | some v => rw [hg] at this; exact absurd (this.1 rfl) hnew
  obtain ⟨t', ht'⟩ := addVote_total hi.tally hr h0 (by omega)
  have ha : answer (env.power s.dao env.sender t.startHeight) = .ok (env.power s.dao env.sender t.startHeight) := by
    unfold answer; rw [if_pos (by omega)]
  have hv : newVote r t.m.n = .ok r := newVote_total (by rw [hsz]; exact hr)
  simp only [step, execVote, ht, orErr, ok_bind, ha, h0, ne_eq, not_false_eq_true, decide_true, require,
    if_true, hno, hopen, Bool.not_false, hv, ht']
  exact ⟨_, _, rfl⟩

/-- **C61.** A passed proposal can be executed by everybody who had power at its start. -/
theorem C61_passed_executable {s : State} {b : Block} {log : List Event} (h : Reach s b log) {id : Nat}
    {p : Proposal} {t : Tally} (hp : s.proposals.get id = some p) (ht : s.tallies.get id = some t)
    {env : Env} {f : Bool} {w : Nat} (hst : p.status t env.block = .ok (.passed w))
    (h0 : env.power s.dao env.sender t.startHeight ≠ 0)
    (hu : env.power s.dao env.sender t.startHeight < U128)
    (hf : f = true → p.closeOnExecutionFailure = true) :
    ∃ s' out, step s env (.execute id f) = .ok (s', out) := by
  have hi := reach_prop h hp ht
  obtain ⟨_, _, _, hw⟩ := status_passed hi hst
  have hlt := (winner_posCol hi.tally (hw.imp (fun h => h) And.left)).1
  have ha : answer (env.power s.dao env.sender t.startHeight) = .ok (env.power s.dao env.sender t.startHeight) := by
    unfold answer; rw [if_pos hu]
  have hse : ∃ p', setExecuted p f = .ok p' := by
    unfold setExecuted
    cases f with
    | false => exact ⟨_, rfl⟩
    | true => simp only [hf rfl, if_true]; exact ⟨_, rfl⟩
  obtain ⟨p', hse⟩ := hse
  simp only [step, execExecute, ht, orErr, ok_bind, ha, h0, ne_eq, not_false_eq_true, decide_true, require,
    if_true, hp, hst, List.getElem?_eq_getElem hlt, hse]
  exact ⟨_, _, rfl⟩

/-- **C61.** A rejected proposal can be closed by anybody. -/
theorem C61_rejected_closable {s : State} {id : Nat} {p : Proposal} {t : Tally}
    (hp : s.proposals.get id = some p) (ht : s.tallies.get id = some t) {env : Env}
    (hst : p.status t env.block = .ok .rejected) :
    ∃ s' out, step s env (.close id) = .ok (s', out) := by
  simp only [step, execClose, ht, hp, orErr, ok_bind, hst, decide_true, require, if_true]
  exact ⟨_, _, rfl⟩

/-- **C61.** After expiry every proposal whose minimum period is over is decided. -/
theorem C61_expired_decided {s : State} {b : Block} {log : List Event} (h : Reach s b log) {id : Nat}
    {p : Proposal} {t : Tally} (hp : s.proposals.get id = some p) (ht : s.tallies.get id = some t) {c : Block}
    (hexp : t.expiration.isExpired c = true)
    (hmin : ∀ m, p.minVotingPeriod = some m → m.isExpired c = true) :
    ∃ st, p.status t c = .ok st ∧ st ≠ .opened := by
  have hi := reach_prop h hp ht
  by_cases ho : p.lastStatus = .opened
  · refine ⟨_, status_eq hi ho c, ?_⟩
    have hm : p.minPeriodRunning c = false := by
      unfold Proposal.minPeriodRunning
      cases hmp : p.minVotingPeriod with
      | none => rfl
      | some m => simp [hmin m hmp]
    rw [hm, hexp]
    generalize passB _ _ _ = q
    unfold decideStatus
    cases q <;> cases t.winner <;> simp
  · exact ⟨_, status_other ho, ho⟩

end Verif.Condorcet
