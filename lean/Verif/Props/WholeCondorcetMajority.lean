import Verif.Proofs.CondorcetReject
import Verif.Props.WholeCondorcetOne
import Verif.Props.WholeMultiMajority
/-!
# C105: a majority of a DAO with a condorcet module can always act, and nobody can stop it
-/

namespace Verif.WholeCondorcet
open Verif
open Verif.Voting hiding Vote Votes
open Verif.Spec hiding StablePowers isExecuteOf isExecuteOnDao lastVote ballotCast
open Verif.Spec.WholeCondorcet Verif.Spec.Condorcet
open Verif.WholeDao (VotingModule lawful_bounded sum_sub)
open Verif.Spec.WholeDao (Lawful)

variable {S E C O : Type} {V : VotingModule S E C O} {N : Now S} {decode : Nat → DaoCore.CosmosMsg}

/-- **C105.** A proposal the members have decided for is not recorded as rejected or closed. -/
theorem C105_never_lost (hV : Lawful V) {w : World S} {b : Block} {log : List (Event S E C)}
    (h : (sys V N decode).Reach w b log) (hst : Steady log) {id i : Nat}
    {p : Condorcet.Proposal} {t : Condorcet.Tally} (hp : w.prop.proposals.get id = some p)
    (ht : w.prop.tallies.get id = some t)
    (htot : p.totalPower = V.total w.vote t.startHeight) {b' : Block} (hb : b.le b') (hdec : Decided V log w.vote b' id p t i) :
    p.lastStatus ≠ .rejected ∧ p.lastStatus ≠ .closed := by
  obtain ⟨bp, l, hbp, hrl, hbal, _, _⟩ := tally_one hV h hst ht
  have hi := Condorcet.reach_prop hrl hp ht
  have hout := hi.tally.out
  obtain ⟨_, _, hq, hw⟩ := hdec
  have he : t.outstanding = V.total w.vote t.startHeight - castPower (ballots V w.vote t.startHeight (votesOn id log)) := by
    rw [hbal] at hout; omega
  rw [← hbal] at hw hq he
  rw [← he] at hw
  rw [← htot] at hq
  have key := fun hl => Condorcet.lost_not_passed hrl hp ht hl (Block.le_trans hbp hb) (Single.passB_of_meets hq) hw
  exact ⟨fun hs => key (Or.inl hs), fun hs => key (Or.inr hs)⟩

/-- **C105.** What the members have decided for is carried out or still can be: unless the proposal has been executed
already, any member of its time can execute it, whatever happened in between; the DAO then has to send exactly the
messages of the choice decided for. -/
theorem C105_carried_out (hV : Lawful V) {w : World S} {b : Block} {log : List (Event S E C)}
    (h : (sys V N decode).Reach w b log) (hst : Steady log)
    (hnow : w.core.core.voting = some w.voteAddr)
    {id i : Nat} {p : Condorcet.Proposal} {t : Condorcet.Tally} (hp : w.prop.proposals.get id = some p)
    (ht : w.prop.tallies.get id = some t)
    (htot : p.totalPower = V.total w.vote t.startHeight) {e : Env} (hb : b.le e.block)
    (hdec : Decided V log w.vote e.block id p t i) (hmem : V.power w.vote e.sender t.startHeight ≠ 0)
    (hpause : DaoCore.isPaused w.core.core e.block = false) (hen : DaoCore.Enabled w.core.core w.propAddr) :
    (p.lastStatus = .executed ∨ p.lastStatus = .executionFailed) ∨
    ∃ msgs w' out, p.choices[i]? = some msgs ∧ (sys V N decode).step w e (.prop (.execute id false)) = .ok (w', out) ∧
      out.core = msgs.map (fun n => .send (decode n)) ∧ w'.core.stack = out.core ++ w.core.stack := by
  obtain ⟨hl1, hl2⟩ := C105_never_lost hV h hst hp ht htot hb hdec
  obtain ⟨_, _, _, hrl, _⟩ := tally_one hV h hst ht
  have hnp := (Condorcet.reach_prop hrl hp ht).notPassed
  cases hs : p.lastStatus with
  | opened => exact Or.inr (C94_carried_out_one hV h hst hnow hp ht htot hs hdec hmem hpause hen)
  | rejected => exact absurd hs hl1
  | passed i => exact absurd hs (hnp i)
  | executed => exact Or.inl (Or.inl rfl)
  | closed => exact absurd hs hl2
  | executionFailed => exact Or.inl (Or.inr rfl)

/-! ### More than half of the power ranking a choice first -/

/-- The power of the ballots that rank a choice first. -/
def firstPower (i : Nat) : List Ballot → Nat
  | [] => 0
  | b :: bs => (if b.ranking.head? = some i then b.power else 0) + firstPower i bs

theorem firstPower_append (i : Nat) (a b : List Ballot) : firstPower i (a ++ b) = firstPower i a + firstPower i b := by
  induction a with
  | nil => simp [firstPower]
  | cons x a ih => simp only [List.cons_append, firstPower, ih]; omega

theorem head_prefers {r : List Nat} {i y : Nat} (h : r.head? = some i) (hy : y ≠ i) :
    prefers r i y = true ∧ prefers r y i = false := by
  cases r with
  | nil => cases h
  | cons x r =>
    simp only [List.head?_cons, Option.some.injEq] at h
    subst h
    unfold prefers
    have h0 : (x :: r).idxOf x = 0 := by simp
    have h1 : (x :: r).idxOf y = r.idxOf y + 1 := by
      rw [List.idxOf_cons, show (x == y) = false by simpa using Ne.symm hy]; rfl
    rw [h0, h1]
    simp

theorem first_support {i y : Nat} (hy : y ≠ i) : ∀ (bs : List Ballot),
    firstPower i bs ≤ support bs i y ∧ firstPower i bs + support bs y i ≤ castPower bs := by
  intro bs
  induction bs with
  | nil => simp [firstPower, support, castPower]
  | cons b bs ih =>
    simp only [firstPower, support, castPower]
    by_cases hf : b.ranking.head? = some i
    · obtain ⟨h1, h2⟩ := head_prefers hf hy
      simp only [hf, h1, h2, if_true, Bool.false_eq_true, if_false]
      omega
    · simp only [hf, if_false]
      split <;> split <;> omega

/-- With more than half of everything a choice wins against every other. -/
theorem first_wins {n i total : Nat} {bs : List Ballot} (hi : i < n) (hcast : castPower bs ≤ total)
    (hhalf : total < 2 * firstPower i bs) : CondorcetWinner n bs i := by
  refine ⟨hi, fun y _ hyi => ?_⟩
  obtain ⟨h1, h2⟩ := first_support hyi bs
  omega

theorem first_le {S E C O : Type} {V : VotingModule S E C O} (s : S) (x i : Nat) : ∀ (l : List (Addr × List Nat)),
    firstPower i (ballots V s x l) =
      (((l.filter (fun v => decide (v.2.head? = some i))).map Prod.fst).map (fun a => V.power s a x)).sum := by
  intro l
  induction l with
  | nil => rfl
  | cons v l ih =>
    simp only [ballots, List.map_cons, firstPower, List.filter_cons] at ih ⊢
    rw [ih]
    by_cases hv : v.2.head? = some i
    · simp only [hv, if_true, decide_true, List.map_cons, List.sum_cons]
    · simp only [hv, if_false, decide_false, Bool.false_eq_true, Nat.zero_add]

/-- **C105.** Nobody can stop a majority. Members with more than half of all power, enough for the quorum, have ranked the
same choice first. Then the members have decided for it as soon as the minimum voting period is over, whatever the others
have done and may still do. -/
theorem C105_decides (hV : Lawful V) {w : World S} {b : Block} {log : List (Event S E C)}
    (h : (sys V N decode).Reach w b log) (hst : Steady log)
    {id i : Nat} {p : Condorcet.Proposal} {t : Condorcet.Tally} (hp : w.prop.proposals.get id = some p)
    (ht : w.prop.tallies.get id = some t)
    (htot : p.totalPower = V.total w.vote t.startHeight) (hi : i < p.choices.length)
    {ys : List Addr} (hys : ys.Nodup) (hfirst : ∀ a ∈ ys, ∃ r, (a, r) ∈ votesOn id log ∧ r.head? = some i)
    (hhalf : V.total w.vote t.startHeight < 2 * (ys.map (fun a => V.power w.vote a t.startHeight)).sum)
    (hquo : Meets (ys.map (fun a => V.power w.vote a t.startHeight)).sum (V.total w.vote t.startHeight) p.quorum)
    {b' : Block} (hmin : ∀ m, p.minVotingPeriod = some m → m.isExpired b' = true) :
    Decided V log w.vote b' id p t i := by
  obtain ⟨bp, l, hbp, hrl, hbal, _, hnd⟩ := tally_one hV h hst ht
  have hpi := Condorcet.reach_prop hrl hp ht
  have hout := hpi.tally.out
  rw [hbal, htot] at hout
  have hsum : (ys.map (fun a => V.power w.vote a t.startHeight)).sum ≤
      firstPower i (ballots V w.vote t.startHeight (votesOn id log)) := by
    rw [first_le]
    refine sum_sub _ ys _ hys ?_ ?_
    · exact List.Nodup.sublist (List.Sublist.map _ List.filter_sublist) hnd
    · intro a ha
      obtain ⟨r, hr, hh⟩ := hfirst a ha
      exact List.mem_map.2 ⟨(a, r), List.mem_filter.2 ⟨hr, by simpa using hh⟩, rfl⟩
  have hfc : firstPower i (ballots V w.vote t.startHeight (votesOn id log)) ≤
      castPower (ballots V w.vote t.startHeight (votesOn id log)) :=
    Nat.le_trans (Nat.le_add_right _ _) (first_support (y := i + 1) (by omega) _).2
  refine ⟨hmin, hnd, WholeMulti.meets_mono hquo (Nat.le_trans hsum hfc), ?_⟩
  split
  · exact first_wins (total := V.total w.vote t.startHeight) hi (by omega) (by omega)
  · intro later hl
    refine first_wins (total := V.total w.vote t.startHeight) hi ?_ ?_
    · rw [Condorcet.castPower_append]; have := hl.2; omega
    · rw [firstPower_append]; omega

/-- **C105.** So they, or any other member, can execute it from then on, unless this has happened. -/
theorem C105_unstoppable (hV : Lawful V) {w : World S} {b : Block} {log : List (Event S E C)}
    (h : (sys V N decode).Reach w b log) (hst : Steady log)
    (hnow : w.core.core.voting = some w.voteAddr)
    {id i : Nat} {p : Condorcet.Proposal} {t : Condorcet.Tally} (hp : w.prop.proposals.get id = some p)
    (ht : w.prop.tallies.get id = some t)
    (htot : p.totalPower = V.total w.vote t.startHeight) (hi : i < p.choices.length)
    {ys : List Addr} (hys : ys.Nodup) (hfirst : ∀ a ∈ ys, ∃ r, (a, r) ∈ votesOn id log ∧ r.head? = some i)
    (hhalf : V.total w.vote t.startHeight < 2 * (ys.map (fun a => V.power w.vote a t.startHeight)).sum)
    (hquo : Meets (ys.map (fun a => V.power w.vote a t.startHeight)).sum (V.total w.vote t.startHeight) p.quorum)
    {e : Env} (hb : b.le e.block)
    (hover : t.expiration.isExpired e.block = true ∨ ∀ m, p.minVotingPeriod = some m → m.isExpired e.block = true)
    (hmem : V.power w.vote e.sender t.startHeight ≠ 0)
    (hpause : DaoCore.isPaused w.core.core e.block = false) (hen : DaoCore.Enabled w.core.core w.propAddr) :
    (p.lastStatus = .executed ∨ p.lastStatus = .executionFailed) ∨
    ∃ msgs w' out, p.choices[i]? = some msgs ∧ (sys V N decode).step w e (.prop (.execute id false)) = .ok (w', out) ∧
      out.core = msgs.map (fun n => .send (decode n)) ∧ w'.core.stack = out.core ++ w.core.stack := by
  have hmin : ∀ m, p.minVotingPeriod = some m → m.isExpired e.block = true := by
    rcases hover with hx | hmin
    · obtain ⟨_, _, hrl⟩ := prop_history h
      exact fun m hm => (Condorcet.period_reach hrl).min id p t hp ht m hm _ hx
    · exact hmin
  exact C105_carried_out hV h hst hnow hp ht htot hb
    (C105_decides hV h hst hp ht htot hi hys hfirst hhalf hquo hmin) hmem hpause hen

/-! ### From any state -/

/-- What stays as it was while votes are cast. -/
structure Still (w w' : World S) : Prop where
  core : w'.core = w.core
  vote : w'.vote = w.vote
  propAddr : w'.propAddr = w.propAddr
  voteAddr : w'.voteAddr = w.voteAddr

theorem Still.trans {w w' w'' : World S} (h : Still w w') (h' : Still w' w'') : Still w w'' :=
  ⟨h'.1.trans h.1, h'.2.trans h.2, h'.3.trans h.3, h'.4.trans h.4⟩

/-- Casting the votes of a list, one after the other, in one block. -/
theorem votes_run (hV : Lawful V) (e : Env) (id : Nat) (ranking : Addr → List Nat) : ∀ (ys : List Addr) {w : World S}
    {log : List (Event S E C)} {p : Condorcet.Proposal} {t : Condorcet.Tally},
    (sys V N decode).Reach w e.block log → Steady log →
    w.core.core.voting = some w.voteAddr →
    w.prop.proposals.get id = some p → w.prop.tallies.get id = some t → p.totalPower = V.total w.vote t.startHeight →
    (∀ a ∈ ys, IsRanking p.choices.length (ranking a)) → t.expiration.isExpired e.block = false →
    ys.Nodup → (∀ a ∈ ys, V.power w.vote a t.startHeight ≠ 0 ∧ a ∉ (votesOn id log).map Prod.fst) →
    ∃ w' l t', (sys V N decode).Run w e.block l w' e.block ∧ Steady (l ++ log) ∧
      Still w w' ∧
      l.map (fun ev => (ev.env, ev.call)) =
        ys.reverse.map (fun a => ({ e with sender := a }, Call.prop (.vote id (ranking a)))) ∧
      w'.prop.proposals.get id = some p ∧ w'.prop.tallies.get id = some t' ∧ t'.startHeight = t.startHeight ∧
      t'.expiration = t.expiration ∧
      votesOn id (l ++ log) = votesOn id log ++ ys.map (fun a => (a, ranking a)) := by
  intro ys
  induction ys with
  | nil =>
    intro w log p t h hst hnow hp ht _ _ _ _ _
    exact ⟨w, [], t, .refl, hst, ⟨rfl, rfl, rfl, rfl⟩, rfl, hp, ht, rfl, rfl, by simp⟩
  | cons a ys ih =>
    intro w log p t h hst hnow hp ht htot hrk hopen hnd hy
    rw [List.nodup_cons] at hnd
    obtain ⟨hpow, hnew⟩ := hy a (by simp)
    obtain ⟨w1, out, hs, hcore⟩ := C94_vote_accepted_one hV h hst hnow hp ht htot (e := { e with sender := a })
      (hrk a (by simp)) hopen hpow hnew
    replace hs : step V N decode w { e with sender := a } (.prop (.vote id (ranking a))) = .ok (w1, out) := hs
    obtain ⟨⟨o, ho, hps⟩, hvote, hpa, hva, _⟩ := prop_effect (decode := decode) hs
    have hps' := hps
    simp only [Condorcet.step] at hps'
    obtain ⟨t0, t1, ht0, _, _, _, _, _, hadd, hw1, _⟩ := Condorcet.vote_inv hps'
    rw [ht] at ht0; injection ht0 with ht0
    have hp1 : w1.prop.proposals.get id = some p := by rw [hw1]; exact hp
    have ht1 : w1.prop.tallies.get id = some t1 := by rw [hw1]; simp only [AMap.get_set_self]
    have hsame : t1.startHeight = t.startHeight ∧ t1.expiration = t.expiration := by
      rw [ht0]
      simp only [Condorcet.Tally.addVote, bind_ok, Except.ok.injEq] at hadd
      obtain ⟨_, _, _, _, _, _, rfl⟩ := hadd
      exact ⟨rfl, rfl⟩
    have hreach := Sys.Reach.step (M := sys V N decode) (env := { e with sender := a })
      (call := .prop (.vote id (ranking a))) (out := out) h (Block.le_refl _) hs
    have hst1 : Steady ((⟨w, { e with sender := a }, .prop (.vote id (ranking a)), out, w1⟩ : Event S E C) :: log) := by
      intro ev hev
      rcases List.mem_cons.1 hev with rfl | hev
      · exact hnow
      · exact hst ev hev
    have hvo : votesOn id ((⟨w, { e with sender := a }, .prop (.vote id (ranking a)), out, w1⟩ : Event S E C) :: log) =
        votesOn id log ++ [(a, ranking a)] := by
      simp only [votesOn, if_true]
    obtain ⟨w2, l, t', hr, hst2, hstill, hl, hp2, ht2, hsh, hex, hvotes⟩ := ih
      (p := p) (t := t1) hreach hst1 (by rw [hcore, hva]; exact hnow) hp1 ht1
      (by rw [hvote, hsame.1]; exact htot)
      (fun x hx => hrk x (List.mem_cons_of_mem _ hx)) (by rw [hsame.2]; exact hopen) hnd.2 (by
        intro x hx
        have hax : x ≠ a := fun he => hnd.1 (he ▸ hx)
        rw [hvote, hsame.1, hvo]
        obtain ⟨h1, h2⟩ := hy x (List.mem_cons_of_mem _ hx)
        refine ⟨h1, ?_⟩
        rw [List.map_append, List.mem_append]
        rintro (hm | hm)
        · exact h2 hm
        · simp only [List.map_cons, List.map_nil, List.mem_singleton] at hm; exact hax hm)
    refine ⟨w2, l ++ [⟨w, { e with sender := a }, .prop (.vote id (ranking a)), out, w1⟩], t', ?_, ?_,
      Still.trans ⟨hcore, hvote, hpa, hva⟩ hstill, ?_, hp2, ht2, hsh.trans hsame.1, hex.trans hsame.2, ?_⟩
    · exact (Sys.Run.step (M := sys V N decode) (env := { e with sender := a })
        (call := .prop (.vote id (ranking a))) (out := out) .refl (Block.le_refl _) hs).append hr
    · rw [List.append_assoc]; exact hst2
    · rw [List.map_append, hl, List.reverse_cons, List.map_append]; rfl
    · rw [List.append_assoc]
      show votesOn id (l ++ ((⟨w, { e with sender := a }, .prop (.vote id (ranking a)), out, w1⟩ : Event S E C) :: log)) = _
      rw [hvotes, hvo, List.append_assoc]; rfl

/-- Proposing. -/
theorem propose_step {w : World S} {b : Block} {log : List (Event S E C)}
    (h : (sys V N decode).Reach w b log) (hnow : w.core.core.voting = some w.voteAddr)
    (hid : Condorcet.top w.prop + 1 < Condorcet.U32) {e : Env} (hmem : N.power w.vote e.sender e.block ≠ 0)
    (hpw : N.power w.vote e.sender e.block < U128) (htot : N.total w.vote e.block < U128)
    (hpos : N.total w.vote e.block ≠ 0)
    (hopen : (w.prop.config.votingPeriod.after e.block).isExpired e.block = false)
    {options : List (List Nat)} (hne : options ≠ [])
    (hlen : (options.length + 1) * options.length < Condorcet.U32) :
    ∃ w' out t, step V N decode w e (.prop (.propose options)) = .ok (w', out) ∧ Still w w' ∧
      w'.prop.proposals.get (Condorcet.top w.prop + 1) = some (Condorcet.freshProposal e.block w.prop.config e.sender
        (Condorcet.top w.prop + 1) (options ++ [[]]) (N.total w.vote e.block)) ∧
      w'.prop.tallies.get (Condorcet.top w.prop + 1) = some t ∧ t.startHeight = e.block.height ∧
      t.expiration = w.prop.config.votingPeriod.after e.block := by
  obtain ⟨hdao, _⟩ := belongs h
  have hwired : Wired w w.prop.dao := ⟨hdao, hnow⟩
  obtain ⟨_, _, hrl⟩ := prop_history h
  have h2 : 2 ≤ (options ++ [[]]).length := by
    cases options with
    | nil => exact absurd rfl hne
    | cons x c => simp
  have hl : (options ++ [[]]).length = options.length + 1 := by simp
  obtain ⟨t, ht⟩ := Condorcet.newTally_total (n := (options ++ [[]]).length) (total := N.total w.vote e.block)
    (sh := e.block.height) (e := w.prop.config.votingPeriod.after e.block) h2 htot (by rw [hl]; exact hlen)
  obtain ⟨hto, hte, hts⟩ := Condorcet.newTally_of h2 htot ht
  have hi : Condorcet.PropInv (Condorcet.freshProposal e.block w.prop.config e.sender (Condorcet.top w.prop + 1)
      (options ++ [[]]) (N.total w.vote e.block)) t (Condorcet.top w.prop + 1) [] :=
    ⟨hto, (Condorcet.inv_reach hrl).config, rfl, by intro w; simp [Condorcet.freshProposal]⟩
  have hwin : t.winner = .none := by
    have hout := hto.out
    simp only [castPower, Nat.add_zero] at hout
    have hnw : ∀ c, ¬ CondorcetWinner (options ++ [[]]).length [] c := by
      rintro c ⟨h1, h3⟩
      by_cases h0 : c = 0
      · have := h3 1 (by omega) (by omega); simp [support] at this
      · have := h3 0 (by omega) (by omega); simp [support] at this
    cases hw : t.winner with
    | none => rfl
    | some c => exact absurd (Condorcet.winner_posCol hto (Or.inr hw)).2 (hnw c)
    | undisputed c => exact absurd (Condorcet.winner_posCol hto (Or.inl hw)).2 (hnw c)
    | never =>
      obtain ⟨r, hr, hpref⟩ : ∃ r, IsRanking (options ++ [[]]).length r ∧ r.head? = some 0 := by
        refine ⟨List.range (options ++ [[]]).length, ⟨List.nodup_range, by simp⟩, ?_⟩
        rw [hl, List.range_succ_eq_map]; rfl
      have := (Condorcet.never_iff hto).1 hw [⟨r, N.total w.vote e.block⟩] ⟨by
        intro b hb; rw [List.mem_singleton.1 hb]; exact hr, by simp [castPower]; omega⟩ 0
      refine absurd (first_wins (total := N.total w.vote e.block) (by omega) ?_ ?_) this
      · simp [castPower]
      · simp [firstPower, hpref]; omega
  have hstat : (Condorcet.freshProposal e.block w.prop.config e.sender (Condorcet.top w.prop + 1) (options ++ [[]])
      (N.total w.vote e.block)).status t e.block = .ok .opened := by
    rw [Condorcet.status_eq hi rfl, hwin, hte, hopen]
    split
    · rfl
    · rfl
  have hnext : Condorcet.nextProposalId w.prop = .ok (Condorcet.top w.prop + 1) := by
    unfold Condorcet.nextProposalId Condorcet.top
    exact if_pos hid
  have hps : Condorcet.step w.prop (propEnv V N w e) (.propose options) =
      .ok ({ w.prop with
        tallies := w.prop.tallies.set (Condorcet.top w.prop + 1) t
        proposals := w.prop.proposals.set (Condorcet.top w.prop + 1) (Condorcet.freshProposal e.block w.prop.config
          e.sender (Condorcet.top w.prop + 1) (options ++ [[]]) (N.total w.vote e.block)) },
        { newId := some (Condorcet.top w.prop + 1) }) := by
    have h1 : Condorcet.answer ((propEnv V N w e).powerNow w.prop.dao (propEnv V N w e).sender) =
        .ok (N.power w.vote e.sender e.block) := by
      unfold Condorcet.answer; simp only [propEnv, if_pos hwired, if_pos hpw]
    have h3 : Condorcet.answer ((propEnv V N w e).totalNow w.prop.dao) = .ok (N.total w.vote e.block) := by
      unfold Condorcet.answer; simp only [propEnv, if_pos hwired, if_pos htot]
    simp only [Condorcet.step, Condorcet.execPropose, h1, h3, hnext, ok_bind, hmem, hne, ne_eq, not_false_eq_true,
      decide_true, require, if_true]
    rw [show (propEnv V N w e).block = e.block from rfl, show (propEnv V N w e).sender = e.sender from rfl, ht]
    simp only [ok_bind, hstat]
    rfl
  have hstep : ∀ s' o, Condorcet.step w.prop (propEnv V N w e) (.propose options) = .ok (s', o) → o.toDao = none →
      step V N decode w e (.prop (.propose options)) = .ok ({ w with prop := s' }, ⟨some o, []⟩) := by
    intro s' o hs hno
    simp only [step, hs, ok_bind, passOn, daoFails, Bool.false_eq_true, if_false, hno, handOn]
  have := hstep _ _ hps rfl
  exact ⟨_, _, t, this, ⟨rfl, rfl, rfl, rfl⟩, by simp only [AMap.get_set_self], by simp only [AMap.get_set_self], hts, hte⟩

/-- **C105.** A majority can always act. In any reachable state of a DAO take members with more than half of everything
staked, enough for the quorum. In any later block a member can make a proposal with any options, the members can each cast
a ranking with one of them first, all in the same block, and once the minimum voting period is over, if there is one, any
member can execute it: all these calls succeed, and the DAO then has to send exactly the messages of this option, before
anything else. -/
theorem C105_majority_acts (hV : Lawful V) {w : World S} {b : Block} {log : List (Event S E C)}
    (h : (sys V N decode).Reach w b log) (hst : Steady log)
    (hnow : w.core.core.voting = some w.voteAddr) (hid : Condorcet.top w.prop + 1 < Condorcet.U32)
    (htot : V.totalWeight w.vote < U128)
    -- the block of the proposal and the votes, in which the voting period is not over already
    {e : Env} (hb : b.le e.block) (hlater : b.height < e.block.height)
    (hNe : N.total w.vote e.block = V.totalWeight w.vote ∧
      N.power w.vote e.sender e.block = V.weight w.vote e.sender)
    (hopen : (w.prop.config.votingPeriod.after e.block).isExpired e.block = false)
    (hprop : V.weight w.vote e.sender ≠ 0)
    -- the members
    {ys : List Addr} (hys : ys.Nodup) (hstake : ∀ a ∈ ys, V.weight w.vote a ≠ 0)
    (hhalf : V.totalWeight w.vote < 2 * (ys.map (V.weight w.vote)).sum)
    (hquo : Meets (ys.map (V.weight w.vote)).sum (V.totalWeight w.vote) w.prop.config.quorum)
    -- the block of the execution
    {f : Env} (hf : e.block.le f.block)
    (hover : ∀ d, w.prop.config.minVotingPeriod = some d → (d.after e.block).isExpired f.block = true)
    (hmem : V.weight w.vote f.sender ≠ 0)
    (hpause : DaoCore.isPaused w.core.core f.block = false) (hen : DaoCore.Enabled w.core.core w.propAddr)
    -- the options, the one the members want, and their rankings
    {options : List (List Nat)} (hlen : (options.length + 1) * options.length < Condorcet.U32)
    {i : Nat} {msgs : List Nat} (hopt : options[i]? = some msgs) {ranking : Addr → List Nat}
    (hrank : ∀ a ∈ ys, IsRanking (options.length + 1) (ranking a) ∧ (ranking a).head? = some i) :
    ∃ w' log', (sys V N decode).Run w b log' w' f.block ∧
      log'.map (fun ev => (ev.env, ev.call)) =
        (f, .prop (.execute (Condorcet.top w.prop + 1) false)) ::
        (ys.reverse.map (fun a => ({ e with sender := a }, Call.prop (.vote (Condorcet.top w.prop + 1) (ranking a)))) ++
        [(e, .prop (.propose options))]) ∧
      log'.head?.map (fun ev => ev.out.core) = some (msgs.map (fun n => DaoCore.Sub.send (decode n))) ∧
      w'.core.stack = msgs.map (fun n => DaoCore.Sub.send (decode n)) ++ w.core.stack := by
  have hne : options ≠ [] := by rintro rfl; simp at hopt
  have hilt : i < options.length := by
    rcases Nat.lt_or_ge i options.length with h | h
    · exact h
    · rw [List.getElem?_eq_none h] at hopt; cases hopt
  have hbound : V.weight w.vote e.sender ≤ V.totalWeight w.vote := by
    obtain ⟨hpw, htw⟩ := C94_weights hV h .refl hlater (by simp)
    obtain ⟨lv, bv, hv, _⟩ := vote_reach h
    have := lawful_bounded hV hv e.block.height [e.sender] (by simp)
    simp only [List.map_cons, List.map_nil, List.sum_cons, List.sum_nil, Nat.add_zero] at this
    rw [hpw, htw] at this
    exact this
  obtain ⟨w1, out1, t1, hs1, hstill1, hp1, ht1, hsh1, hex1⟩ := propose_step (decode := decode) h hnow hid
    (e := e) (by rw [hNe.2]; exact hprop) (by rw [hNe.2]; omega) (by rw [hNe.1]; exact htot) (by rw [hNe.1]; omega) hopen
    hne hlen
  have hr1 := Sys.Run.step (M := sys V N decode) (env := e) (call := .prop (.propose options))
    (out := out1) .refl hb hs1
  have hreach1 := h.run hr1
  have hst1 : Steady (([⟨w, e, .prop (.propose options), out1, w1⟩] : List (Event S E C)) ++ log) := by
    intro ev hev
    rcases List.mem_cons.1 hev with rfl | hev
    · exact hnow
    · exact hst ev hev
  have hnow1 : w1.core.core.voting = some w1.voteAddr := by
    rw [hstill1.core, hstill1.voteAddr]; exact hnow
  obtain ⟨hpw, htw⟩ := C94_weights hV h hr1 hlater (by
    intro ev hev
    rw [List.mem_singleton.1 hev])
  have hto1 : (Condorcet.freshProposal e.block w.prop.config e.sender (Condorcet.top w.prop + 1) (options ++ [[]])
      (N.total w.vote e.block)).totalPower = V.total w1.vote t1.startHeight := by
    rw [hsh1, htw, ← hNe.1]; rfl
  have hnone : votesOn (Condorcet.top w.prop + 1) (([⟨w, e, .prop (.propose options), out1, w1⟩] : List (Event S E C)) ++
      log) = [] := by
    show votesOn (Condorcet.top w.prop + 1) log = []
    obtain ⟨b0, w0, hi0, hr0⟩ := h
    obtain ⟨_, _, hrl⟩ := prop_history ⟨b0, w0, hi0, hr0⟩
    rw [votes_log hr0]
    have hnot : w.prop.tallies.get (Condorcet.top w.prop + 1) = none := by
      have hb := (Condorcet.inv_reach hrl).both (Condorcet.top w.prop + 1)
      have hids := (Condorcet.inv_reach hrl).ids (Condorcet.top w.prop + 1)
      cases hg : w.prop.tallies.get (Condorcet.top w.prop + 1) with
      | none => rfl
      | some t => have := hids.1 (hb.1 (by rw [hg]; rfl)); omega
    have hvo := ((Condorcet.inv_reach hrl).unborn _ hnot).2
    rw [← rankings_voters] at hvo
    exact List.map_eq_nil_iff.1 hvo
  have hlen' : (Condorcet.freshProposal e.block w.prop.config e.sender (Condorcet.top w.prop + 1) (options ++ [[]])
      (N.total w.vote e.block)).choices.length = options.length + 1 := by simp [Condorcet.freshProposal]
  obtain ⟨w2, l2, t2, hr2, hst2, hstill2, hl2, hp2, ht2, hsh2, hex2, hvotes⟩ := votes_run (decode := decode) hV e
    (Condorcet.top w.prop + 1) ranking ys hreach1 hst1 hnow1 hp1 ht1 hto1
    (fun a ha => by rw [hlen']; exact (hrank a ha).1) (by rw [hex1]; exact hopen) hys (by
      intro a ha
      rw [hsh1, hpw, hnone]
      exact ⟨hstake a ha, by simp⟩)
  have hstill := hstill1.trans hstill2
  have hreach2 := hreach1.run hr2
  have hpwr : ∀ a, V.power w2.vote a t2.startHeight = V.weight w.vote a := by
    intro a
    rw [hstill2.vote, hsh2, hsh1]; exact hpw a
  have htwr : V.total w2.vote t2.startHeight = V.totalWeight w.vote := by
    rw [hstill2.vote, hsh2, hsh1]; exact htw
  rw [hnone, List.nil_append] at hvotes
  have hfin := C105_unstoppable hV hreach2 hst2 (by rw [hstill.core, hstill.voteAddr]; exact hnow) hp2 ht2
    (by rw [htwr, ← hNe.1]; rfl) (i := i)
    (by rw [hlen']; omega) hys (fun a ha => ⟨ranking a, by rw [hvotes]; exact List.mem_map.2 ⟨a, ha, rfl⟩, (hrank a ha).2⟩)
    (by rw [htwr]; simp only [hpwr]; exact hhalf) (by rw [htwr]; simp only [hpwr]; exact hquo) (e := f) hf
    (Or.inr (fun m hm => by
      simp only [Condorcet.freshProposal, Option.map_eq_some_iff] at hm
      obtain ⟨d, hd, rfl⟩ := hm
      exact hover d hd))
    (by rw [hpwr]; exact hmem) (by rw [hstill.core]; exact hpause)
    (by rw [hstill.core, hstill.propAddr]; exact hen)
  rcases hfin with hfin | ⟨ms, w3, out3, hc, hs3, ho3, hstk⟩
  · rcases hfin with hfin | hfin <;> cases hfin
  · simp only [Condorcet.freshProposal] at hc
    rw [List.getElem?_append_left hilt, hopt] at hc
    injection hc with hc
    rw [← hc] at ho3
    rw [hstill.core, ho3] at hstk
    refine ⟨w3, _, Sys.Run.step (M := sys V N decode) (env := f) (call := .prop (.execute (Condorcet.top w.prop + 1) false))
      (out := out3) (hr1.append hr2) hf hs3, ?_, ?_, hstk⟩
    · simp only [List.map_cons, List.map_append, hl2, List.map_nil]
    · simp only [List.head?_cons, Option.map_some, ho3]

/-- **C105.** What a new proposal takes for the total and for the proposer's power is what is staked, for voting modules of
either kind, if the block is a later one. -/
theorem C105_new_total (hV : Lawful V) (hA : AnswersNow V N ∨ AnswersNewest V N) {w : World S} {b : Block}
    {log : List (Event S E C)} (h : (sys V N decode).Reach w b log) {b' : Block} (hb : b.le b')
    (hlater : b.height < b'.height) :
    N.total w.vote b' = V.totalWeight w.vote ∧ ∀ a, N.power w.vote a b' = V.weight w.vote a := by
  rcases hA with hA | hA
  · obtain ⟨l, b1, h1, h2⟩ := vote_reach h
    obtain ⟨e1, e2⟩ := hA h1 b' (Block.le_trans h2 hb)
    obtain ⟨e3, e4⟩ := C94_weights hV h .refl hlater (by simp)
    exact ⟨e1.trans e4, fun a => (e2 a).trans (e3 a)⟩
  · exact hA _ _

/-- **C105.** Half of all power is not enough: the others, ranking another choice first, prevent a winner for good. -/
theorem C105_half_needed {n i j half : Nat} (hij : i ≠ j) (hj : j < n) {r r' : List Nat} (hr : r.head? = some i)
    (hr' : r'.head? = some j) : ¬ CondorcetWinner n [⟨r, half⟩, ⟨r', half⟩] i := by
  rintro ⟨_, h⟩
  have := h j hj (Ne.symm hij)
  obtain ⟨h1, h2⟩ := head_prefers hr (Ne.symm hij)
  obtain ⟨h3, h4⟩ := head_prefers hr' hij
  simp [support, h1, h2, h3, h4] at this

/-- **C105.** A voting period of zero, which the contract accepts, silences everybody: on a proposal made under it nobody
can ever vote. -/
theorem C105_zero_period {w w1 w2 : World S} {b b2 : Block} {log l : List (Event S E C)}
    (h : (sys V N decode).Reach w b log)
    (hz : w.prop.config.votingPeriod = .height 0 ∨ w.prop.config.votingPeriod = .time 0) {e : Env}
    (hb : b.le e.block) {options : List (List Nat)}
    {out : Out} (hs : (sys V N decode).step w e (.prop (.propose options)) = .ok (w1, out))
    (hr : (sys V N decode).Run w1 e.block l w2 b2) {f : Env} (hf : b2.le f.block) (r : List Nat) :
    ¬ ∃ x, (sys V N decode).step w2 f (.prop (.vote (Condorcet.top w.prop + 1) r)) = .ok x := by
  have hr1 := Sys.Run.step (M := sys V N decode) (env := e) (call := .prop (.propose options)) (out := out)
    .refl hb hs
  have hzero : ∀ b', e.block.le b' → (w.prop.config.votingPeriod.after e.block).isExpired b' = true := by
    intro b' hle
    rcases hz with hz | hz <;> rw [hz] <;> simp only [Duration.after, Expiration.isExpired, decide_eq_true_eq]
    · exact hle.1
    · have := hle.2; omega
  replace hs : step V N decode w e (.prop (.propose options)) = .ok (w1, out) := hs
  obtain ⟨⟨o, ho, hps⟩, _⟩ := prop_effect (decode := decode) hs
  simp only [Condorcet.step] at hps
  obtain ⟨t, st, total, _, _, _, _, _, hnew, _, hw1, _⟩ := Condorcet.propose_inv hps
  have hget : w1.prop.tallies.get (Condorcet.top w.prop + 1) = some t := by
    rw [hw1]; simp only [AMap.get_set_self]
  have hexp : t.expiration = w.prop.config.votingPeriod.after e.block := by
    simp only [Condorcet.newTally, bind_ok, Except.ok.injEq] at hnew
    obtain ⟨_, _, _, _, rfl⟩ := hnew
    rfl
  rintro ⟨⟨w3, out3⟩, hs3⟩
  have keep : ∀ {w2 : World S} {b2 : Block} {l : List (Event S E C)}, (sys V N decode).Run w1 e.block l w2 b2 →
      ∃ t', w2.prop.tallies.get (Condorcet.top w.prop + 1) = some t' ∧
        t'.expiration = w.prop.config.votingPeriod.after e.block := by
    intro w2 b2 l hr
    induction hr with
    | refl => exact ⟨t, hget, hexp⟩
    | @step s1 s2 b3 log' env call out hr hb3 hs ih =>
      obtain ⟨t1, ht1, hx⟩ := ih
      obtain ⟨_, _, hrl⟩ := prop_history ((h.run hr1).run hr)
      cases call with
      | core c =>
        obtain ⟨_, _, hw, _⟩ := core_effect (V := V) (N := N) (decode := decode) hs
        rw [hw]; exact ⟨t1, ht1, hx⟩
      | vote ve c =>
        obtain ⟨_, _, hw, _⟩ := vote_effect (N := N) (decode := decode) hs
        rw [hw]; exact ⟨t1, ht1, hx⟩
      | prop c =>
        obtain ⟨⟨o, ho, hps⟩, _⟩ := prop_effect (decode := decode) hs
        have hsome := ((Condorcet.inv_reach hrl).both (Condorcet.top w.prop + 1)).1 (by rw [ht1]; rfl)
        obtain ⟨p1, hp1⟩ := Option.isSome_iff_exists.1 hsome
        obtain ⟨_, t', _, ht', _⟩ := Condorcet.step_keeps hrl hps hp1 ht1
        refine ⟨t', ht', ?_⟩
        rcases tally_step hps ht' with ⟨t0, ht0, _, he⟩ | ⟨_, hid, _⟩
        · rw [ht1] at ht0; injection ht0 with ht0
          rw [he, ← ht0]; exact hx
        · have := Condorcet.le_top hp1; omega
  obtain ⟨t', ht', hx⟩ := keep hr
  replace hs3 : step V N decode w2 f (.prop (.vote (Condorcet.top w.prop + 1) r)) = .ok (w3, out3) := hs3
  obtain ⟨⟨o3, _, hps3⟩, _⟩ := prop_effect (decode := decode) hs3
  simp only [Condorcet.step] at hps3
  obtain ⟨q, _, hq, _, _, _, hne, _⟩ := Condorcet.vote_inv hps3
  rw [ht'] at hq; injection hq with hq
  rw [← hq, hx, show (propEnv V N w2 f).block = f.block from rfl, hzero _ (Block.le_trans hr.block_le hf)] at hne
  cases hne

end Verif.WholeCondorcet
