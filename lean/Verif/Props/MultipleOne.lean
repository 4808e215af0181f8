import Verif.Props.MultipleLive
import Verif.Proofs.MultipleReject
import Verif.Props.MultipleBallots
/-!
# Multiple choice: one proposal at a time

What is known of a proposal in a history in which the powers are the answers of a voting module and the total recorded
with this one proposal fits them. Nothing is supposed of the totals of other proposals.
-/

namespace Verif.Multiple
open Verif
open Verif.Voting hiding Vote Votes
open Verif.Spec.Multi
open Verif.Single (LostLike)

/-- Ballots are the answers of the voting module. -/
def BalInv (P : Addr → Nat → Nat) (s : State) : Prop :=
  ∀ id a bal p, s.proposals.get id = some p → s.ballots.get (id, a) = some bal → bal.power = P a p.startHeight

theorem balInv_micro {P : Addr → Nat → Nat} {env : Env} {s s' : State}
    (hP : ∀ a h, env.power s.config.dao a h = P a h) (hi : Inv s) (hb : BalInv P s) (hm : Micro env s s') :
    BalInv P s' := by
  cases hm with
  | other h1 h2 h3 h4 => unfold BalInv; rw [h1, h3]; exact hb
  | @rationale id' b r hb' =>
    intro id a bal p hp hg
    simp only [AMap.get_set] at hg
    split at hg
    · rename_i he; injection he with e1 e2; subst e1; subst e2
      injection hg with hg; subst hg
      exact hb _ _ b p hp hb'
    · exact hb _ _ _ _ hp hg
  | @vote voter id' v r q power w votes st hq hv hexp hpow hlt h0 hw hadd hst =>
    intro id a bal p hp hg
    simp only [AMap.get_set] at hp hg
    split at hg
    · rename_i he; injection he with e1 e2; subst e1; subst e2
      simp only [if_true] at hp
      injection hp with hp; subst hp
      injection hg with hg; subst hg
      rw [hpow, hP]
    · rename_i hne
      split at hp
      · rename_i he; subst he; injection hp with hp; subst hp
        exact hb _ _ _ q hq hg
      · exact hb _ _ _ _ hp hg
  | @create proposer content options choices total st hch htt hlt hst hc =>
    intro id a bal p hp hg
    simp only [AMap.get_set] at hp
    split at hp
    · rename_i he; subst he
      have h1 := hi.bal _ _ _ hg
      have := (hi.ids _).1 h1
      omega
    · exact hb _ _ _ _ hp hg
  | @status id' q st st' hq hcur hmv =>
    intro id a bal p hp hg
    simp only [AMap.get_set] at hp
    split at hp
    · rename_i he; subst he; injection hp with hp; subst hp
      exact hb _ _ _ q hq hg
    · exact hb _ _ _ _ hp hg

theorem balInv_reach {P : Addr → Nat → Nat} {s : State} {b : Block} {log : List Event} (h : Reach s b log)
    (hp : ∀ e ∈ log, ∀ a h, e.env.power e.pre.config.dao a h = P a h) : BalInv P s := by
  obtain ⟨env, c, i, s0, out, h0, hr⟩ := h
  refine (run_micro_env (P := fun s _ => Inv s ∧ BalInv P s)
    (Q := fun env c => ∀ a h, env.power c.dao a h = P a h) hr hp ⟨inv_init h0, ?_⟩ (fun _ _ _ h _ => h) ?_).2
  · intro id a bal p hp; rw [init_empty h0] at hp; cases hp
  · rintro env s s' hP ⟨hi, hpi⟩ hm
    exact ⟨inv_micro hi hm, balInv_micro hP hi hpi hm⟩

theorem sane_one {P : Addr → Nat → Nat} {T : Nat → Nat} {s : State} (hi : Inv s) (hp : BalInv P s)
    (hT : ∀ h (l : List Addr), l.Nodup → (l.map (fun a => P a h)).sum ≤ T h)
    {id : Nat} {p : Proposal} (hg : s.proposals.get id = some p) (htot : p.totalPower = T p.startHeight) : p.Sane := by
  refine ⟨?_, (hi.prop id p hg).total, (hi.prop id p hg).valid, (hi.prop id p hg).shape⟩
  refine Nat.le_trans (cast_le hi hg) ?_
  rw [htot]
  obtain ⟨l, hn, _, hs⟩ := sum_filter_le s.ballots hi.wfB id (fun a => P a p.startHeight)
    (fun a b hb => hp id a b p hg (AMap.get_of_mem hi.wfB hb))
  rw [hs]
  exact hT _ l hn

/-- The invariant: of the proposals with a fitting total, only those that cannot pass are recorded as rejected or closed. -/
def LostOne (T : Nat → Nat) (s : State) (b : Block) : Prop :=
  ∀ id p, s.proposals.get id = some p → p.totalPower = T p.startHeight → LostLike p.status → WasLost p b

theorem lostOne_micro {P : Addr → Nat → Nat} {T : Nat → Nat} {env : Env} {s s' : State}
    (hP : ∀ a h, env.power s.config.dao a h = P a h)
    (hT : ∀ h (l : List Addr), l.Nodup → (l.map (fun a => P a h)).sum ≤ T h)
    (hi : Inv s) (hpi : BalInv P s) (h : LostOne T s env.block) (hm : Micro env s s') :
    LostOne T s' env.block := by
  intro id p hp htot hst
  have hi' := inv_micro hi hm
  have hpi' := balInv_micro hP hi hpi hm
  have hsane := sane_one hi' hpi' hT hp htot
  cases hm with
  | other h1 h2 h3 h4 => rw [h1] at hp; exact h id p hp htot hst
  | rationale hb => exact h id p hp htot hst
  | @vote voter id' v r q power w votes st hq hv hexp hpow hlt h0 hw hadd hcur =>
    simp only [AMap.get_set] at hp
    split at hp
    · rename_i he; subst he; injection hp with hp; subst hp
      have hsane' : Proposal.Sane { q with votes := votes } := ⟨hsane.1, hsane.2, hsane.3, ⟨hsane.4.1, hsane.4.2, hsane.4.3, hsane.4.4⟩⟩
      refine wasLost_same (p := { q with votes := votes }) (wasLost_current hsane' ?_ hcur hst)
        ⟨rfl, rfl, rfl, rfl, rfl, rfl, rfl, rfl, rfl, rfl⟩ rfl
      intro hpl
      exact wasLost_votes (h _ q hq htot hpl) ⟨rfl, rfl, rfl, rfl, rfl, rfl, rfl, rfl, rfl, rfl⟩
        (fun hr => withdraw_extends hw hadd hr) hexp
    · exact h id p hp htot hst
  | @create proposer content options choices total st hch htt hlt hcur hc =>
    simp only [AMap.get_set] at hp
    split at hp
    · injection hp with hp; subst hp
      exact wasLost_same (p := freshProposal s.config env.block proposer content choices total)
        (wasLost_current ⟨hsane.1, hsane.2, hsane.3, ⟨hsane.4.1, hsane.4.2, hsane.4.3, hsane.4.4⟩⟩ (fun h => False.elim h) hcur hst)
        ⟨rfl, rfl, rfl, rfl, rfl, rfl, rfl, rfl, rfl, rfl⟩ rfl
    · exact h id p hp htot hst
  | @status id' q st st' hq hcur hmv =>
    simp only [AMap.get_set] at hp
    split at hp
    · rename_i he; subst he; injection hp with hp; subst hp
      have hst1 : LostLike st := by
        cases hmv with
        | close => trivial
        | veto v hv hs h => exact False.elim hst
        | exec h h' => rcases h' with rfl | rfl <;> exact False.elim hst
      exact wasLost_same (p := q)
        (wasLost_current ⟨hsane.1, hsane.2, hsane.3, ⟨hsane.4.1, hsane.4.2, hsane.4.3, hsane.4.4⟩⟩ (h _ q hq htot) hcur hst1)
        ⟨rfl, rfl, rfl, rfl, rfl, rfl, rfl, rfl, rfl, rfl⟩ rfl
    · exact h id p hp htot hst

theorem lostOne_reach {P : Addr → Nat → Nat} {T : Nat → Nat} {s : State} {b : Block}
    {log : List Event} (h : Reach s b log) (hp : ∀ e ∈ log, ∀ a h, e.env.power e.pre.config.dao a h = P a h)
    (hT : ∀ h (l : List Addr), l.Nodup → (l.map (fun a => P a h)).sum ≤ T h) : LostOne T s b := by
  obtain ⟨env, c, i, s0, out, h0, hr⟩ := h
  have hi := inv_init h0
  refine (run_micro_env (P := fun s b => Inv s ∧ BalInv P s ∧ LostOne T s b)
    (Q := fun env c => ∀ a h, env.power c.dao a h = P a h) hr hp ⟨hi, ?_, ?_⟩ ?_ ?_).2.2
  · intro id a bal p hp; rw [init_empty h0] at hp; cases hp
  · intro id p hp; rw [init_empty h0] at hp; cases hp
  · rintro s b b' ⟨h1, h2, h3⟩ hb
    exact ⟨h1, h2, fun id p hg ht hl => wasLost_mono (h3 id p hg ht hl) hb⟩
  · rintro env s s' hP ⟨hi, hpi, hpass⟩ hm
    exact ⟨inv_micro hi hm, balInv_micro hP hi hpi hm,
      lostOne_micro hP hT hi hpi hpass hm⟩

/-- A rejected or closed proposal does not pass, now or later. -/
theorem lost_not_passed_one {P : Addr → Nat → Nat} {T : Nat → Nat} {s : State} {b b' : Block} {log : List Event}
    (h : Reach s b log) (hpow : ∀ e ∈ log, ∀ a h, e.env.power e.pre.config.dao a h = P a h)
    (hT : ∀ h (l : List Addr), l.Nodup → (l.map (fun a => P a h)).sum ≤ T h) {id : Nat} {p : Proposal} (hp : s.proposals.get id = some p)
    (htot : p.totalPower = T p.startHeight)
    (hst : LostLike p.status) (hb : b.le b') : ¬ PassedP p b' := by
  have hs := sane_one (inv_reach h) (balInv_reach h hpow) hT hp htot
  obtain ⟨b0, q, h1, h2, h3⟩ := lostOne_reach h hpow hT id p hp htot hst
  rcases h3 with ⟨h3, h4, h5, h6⟩ | ⟨h3, h4, h5⟩
  · exact rejectedP_final (by rw [← h2.totalPower]; exact hs.fits) (by rw [← h2.expiration]; exact h4) h5 h6
  · rintro ⟨_, _, k3, i, k4, k5, _⟩
    have hx : q.expiration.isExpired b0 = true := by rw [← h2.expiration]; exact h4
    refine h5 ⟨fun _ => hx, ?_, ?_, i, ?_, ?_, Or.inl hx⟩
    · rw [← h2.minPeriodRunning]
      unfold Proposal.minPeriodRunning
      cases hm : p.minVotingPeriod with
      | none => rfl
      | some m => simp only [(ruleInv_reach h id p hp).1 m hm b0 h4, Bool.not_true]
    · unfold Quorum at *; rw [← h2.quorum, ← h2.totalPower, h3]; exact k3
    · rw [h3]; exact k4
    · unfold IsNone at *; rw [h3]; exact k5

/-- The votes cast and the power of an address without a ballot fit the total. -/
theorem room_for_vote_one {P : Addr → Nat → Nat} {T : Nat → Nat} {s : State} (hi : Inv s)
    (hp : BalInv P s)
    (hT : ∀ h (l : List Addr), l.Nodup → (l.map (fun a => P a h)).sum ≤ T h) {id : Nat}
    {p : Proposal} (hg : s.proposals.get id = some p)
    (htot : p.totalPower = T p.startHeight) {a : Addr}
    (hb : s.ballots.get (id, a) = none) : castTotal p.votes + P a p.startHeight ≤ p.totalPower := by
  have h1 := cast_le hi hg
  rw [htot]
  obtain ⟨l, hn, hmem, hs⟩ := sum_filter_le s.ballots hi.wfB id (fun a => P a p.startHeight)
    (fun a b hb => hp id a b p hg (AMap.get_of_mem hi.wfB hb))
  have ha : a ∉ l := by
    intro ha
    obtain ⟨b, hb'⟩ := hmem a ha
    rw [AMap.get_of_mem hi.wfB hb'] at hb; cases hb
  have := hT p.startHeight (a :: l) (List.nodup_cons.2 ⟨ha, hn⟩)
  rw [hs] at h1
  simp only [List.map_cons, List.sum_cons] at this
  omega

/-- **C61.** Everybody with power at the proposal's start may vote until it expires: once, or with
revoting again for another position. -/
theorem C61_vote_accepted_one {P : Addr → Nat → Nat} {T : Nat → Nat} {s : State} {b : Block}
    {log : List Event} (h : Reach s b log) (hpow : ∀ e ∈ log, ∀ a h, e.env.power e.pre.config.dao a h = P a h)
    (hT : ∀ h (l : List Addr), l.Nodup → (l.map (fun a => P a h)).sum ≤ T h) {id : Nat} {p : Proposal}
    (hp : s.proposals.get id = some p) (htot : p.totalPower = T p.startHeight) {env : Env} {v : Vote} {r : Option Nat}
    (hrange : v < p.choices.length) (hopen : p.expiration.isExpired env.block = false)
    (hans : env.power s.config.dao env.sender p.startHeight = P env.sender p.startHeight)
    (h0 : P env.sender p.startHeight ≠ 0)
    (hb : s.ballots.get (id, env.sender) = none ∨
      (p.allowRevoting = true ∧ ∃ bal, s.ballots.get (id, env.sender) = some bal ∧ bal.vote ≠ v)) :
    ∃ s' out, step s env (.vote id v r) = .ok (s', out) := by
  have hi := inv_reach h
  have hpi := balInv_reach h hpow
  have hsane := sane_one hi hpi hT hp htot
  have hu := hsane.u128
  have hlen := hsane.shape.len
  have key : ∃ w votes, withdrawBallot p (s.ballots.get (id, env.sender)) v = .ok w ∧
      w.addVote v (P env.sender p.startHeight) = .ok votes ∧
      castTotal votes ≤ p.totalPower ∧ P env.sender p.startHeight < U128 := by
    rcases hb with hb | ⟨hrev, bal, hb, hne⟩
    · have hroom := room_for_vote_one hi hpi hT hp htot hb
      have hc : weight p.votes v ≤ castTotal p.votes := getD_le_sum p.votes.weights v
      obtain ⟨votes, hv⟩ := addVote_total (t := p.votes) (v := v) (n := P env.sender p.startHeight)
        (Nat.lt_of_lt_of_eq hrange hlen) (by omega)
      refine ⟨p.votes, votes, by rw [hb]; rfl, hv, ?_, by omega⟩
      rw [addVote_sum hv]; exact hroom
    · have hle := ballot_le_count hi hp hb
      have hpw := hpi id env.sender bal p hp hb
      have hbr := (hi.prop id p hp).range env.sender bal hb
      obtain ⟨w, hw⟩ := removeVote_total (Nat.lt_of_lt_of_eq hbr hlen) hle
      have hfit := hsane.fits
      have hws := removeVote_sum hw
      have hwl := removeVote_len hw
      have hcw : weight w v ≤ castTotal w := getD_le_sum w.weights v
      obtain ⟨votes, hv⟩ := addVote_total (t := w) (v := v) (n := P env.sender p.startHeight)
        (by rw [hwl]; exact Nat.lt_of_lt_of_eq hrange hlen) (by rw [← hpw]; omega)
      refine ⟨w, votes, ?_, hv, ?_, by rw [← hpw]; omega⟩
      · rw [hb]; simp [withdrawBallot, hrev, hne, hw]
      · rw [addVote_sum hv, ← hpw]; omega
  obtain ⟨w, votes, hw, hv, hfit, hlt⟩ := key
  have hs' : Proposal.Sane { p with votes := votes } := ⟨hfit, hu, hsane.valid,
    ⟨by
      show p.choices.length = votes.weights.length
      rw [addVote_len hv, withdraw_len hw]; exact hlen, hsane.shape.2, hsane.shape.3, hsane.shape.4⟩⟩
  obtain ⟨st, hst⟩ := currentStatus_total hs' (hi.prop id p hp).vetoUnit env.block
  have hq : queryPower env s.config.dao env.sender p.startHeight = .ok (P env.sender p.startHeight) := by
    unfold queryPower; rw [hans, if_pos hlt]
  simp only [step, execVote, hp, orErr, ok_bind, hrange, decide_true, hopen, Bool.not_false, require, if_true, hq, h0, ne_eq,
    not_false_eq_true, hw, hv, Proposal.updateStatus, hst]
  exact ⟨_, _, rfl⟩

/-- **C06, C07.** With a consistent voting module: for every vote there is the list of exactly the addresses whose
last vote on the proposal it is, without repetition; the counter of the tally is the sum of their powers at the
proposal's start height. -/
theorem C07_tally_is_last_votes_one {P : Addr → Nat → Nat} {s : State} {b : Block}
    {log : List Event} (h : Reach s b log) (hpow : ∀ e ∈ log, ∀ a h, e.env.power e.pre.config.dao a h = P a h) {id : Nat} {p : Proposal}
    (hp : s.proposals.get id = some p) :
    ∀ v : Vote, ∃ l : List Addr, l.Nodup ∧ (∀ a, a ∈ l ↔ lastVote a id log = some v) ∧
      weight p.votes v = (l.map (fun a => P a p.startHeight)).sum := by
  have hi := inv_reach h
  have hpi := balInv_reach h hpow
  intro v
  obtain ⟨l, h1, h2, h3⟩ := sum_vote hi.wfB id v (fun a => P a p.startHeight) (fun a b hb => hpi id a b p hp hb)
  refine ⟨l, h1, fun a => ?_, ?_⟩
  · rw [h2, C07_last_vote h]
  · rw [(hi.prop id p hp).tally v]; exact h3

end Verif.Multiple
