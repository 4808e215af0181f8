import Verif.Proofs.Listings
import Verif.Props.SingleBallots
import Verif.Props.SingleLive
import Verif.Props.Single
/-!
# C103: the lists of proposals and votes of dao-proposal-single
-/

namespace Verif.Single
open Verif Verif.Voting Verif.Spec Verif.Listings Verif.Paginate
open Verif.Spec.Listings
open Verif.Spec.Paginate (InOrder)

theorem proposals_WF {s : State} {b : Block} {log : List Event} (h : Reach s b log) : s.proposals.WF := by
  obtain ⟨env, c, i, s0, out, h0, hr⟩ := h
  refine run_micro_env (P := fun s _ => s.proposals.WF) (Q := fun _ _ => True) hr (fun _ _ => trivial) ?_
    (fun _ _ _ h _ => h) ?_
  · unfold instantiate at h0
    simp only [bind_ok, Except.ok.injEq, Prod.mk.injEq] at h0
    obtain ⟨_, hv, rfl, _⟩ := h0
    exact AMap.WF_nil
  · intro env s s' _ hw hm
    cases hm with
    | other h1 h2 h3 h4 => show s'.proposals.WF; rw [h1]; exact hw
    | rationale hb => exact hw
    | vote => exact AMap.WF_set hw _ _
    | create => exact AMap.WF_set hw _ _
    | status => exact AMap.WF_set hw _ _

/-- The proposal with its status of a block. -/
def shown (b : Block) (p : Proposal) : Proposal :=
  match p.updateStatus b with
  | .ok q => q
  | .error _ => p

theorem entry_ok {P : Addr → Nat → Nat} {T : Nat → Nat} {s : State} {b : Block} {log : List Event}
    (h : Reach s b log) (hpow : StablePowers log P T) (b' : Block) {id : Nat} {p : Proposal}
    (hp : s.proposals.get id = some p) :
    p.updateStatus b' = .ok (shown b' p) ∧ singleEntry b' (id, p) = .ok (id, shown b' p) := by
  obtain ⟨st, hst⟩ := C61_status_total h hpow hp b'
  have e : p.updateStatus b' = .ok { p with status := st } := updateStatus_ok.2 ⟨st, hst, rfl⟩
  have e2 : shown b' p = { p with status := st } := by unfold shown; rw [e]
  refine ⟨by rw [e2]; exact e, ?_⟩
  unfold singleEntry
  rw [e, ok_bind, e2]

theorem list_pages {P : Addr → Nat → Nat} {T : Nat → Nat} {s : State} {b : Block} {log : List Event}
    (h : Reach s b log) (hpow : StablePowers log P T) (b' : Block) (limit : Option Nat)
    (hl : asUsize (limit.getD PROPOSALS_DEFAULT) ≠ 0) (o : Order)
    (page : Option Nat → Res (List (Nat × Proposal)))
    (hp : ∀ start, page start =
      ((range s.proposals start o).take (asUsize (limit.getD PROPOSALS_DEFAULT))).mapM (singleEntry b')) :
    Pages page none ((range s.proposals none o).map (fun x => (x.1, shown b' x.2))) ∧
    ∀ x ∈ (range s.proposals none o).map (fun x => (x.1, shown b' x.2)), singleProposal s b' x.1 = .ok x.2 := by
  have hw := proposals_WF h
  refine ⟨pages_range hw (Nat.pos_of_ne_zero hl) (fun start => ?_) none, ?_⟩
  · rw [hp]
    refine mapM_ok ?_
    rintro ⟨id, p⟩ hx
    have hm := (mem_range.1 (List.mem_of_mem_take hx)).1
    exact (entry_ok h hpow b' (AMap.get_of_mem hw hm)).2
  · intro x hx
    obtain ⟨⟨id, p⟩, hm, rfl⟩ := List.mem_map.1 hx
    have hg := (mem_all hw).1 hm
    unfold singleProposal
    rw [hg]
    show (Except.ok p >>= _) = _
    rw [ok_bind]
    exact (entry_ok h hpow b' hg).1

/-- **C103.** A client that follows the pages of `ListProposals` is answered every time, and is shown every proposal
ever made, once, in the order they were made, each as the `Proposal` query shows it in that block. For every page size
but those that are nothing in 32 bits. -/
theorem C103_proposals {P : Addr → Nat → Nat} {T : Nat → Nat} {s : State} {b : Block} {log : List Event}
    (h : Reach s b log) (hpow : StablePowers log P T) (b' : Block) (limit : Option Nat)
    (hl : asUsize (limit.getD PROPOSALS_DEFAULT) ≠ 0) :
    ∃ l, Pages (fun start => singleList s b' start limit) none l ∧
      l.map Prod.fst = log.reverse.filterMap (fun e => e.out.newId) ∧
      ∀ x ∈ l, singleProposal s b' x.1 = .ok x.2 := by
  obtain ⟨h1, h2⟩ := list_pages h hpow b' limit hl .asc (fun start => singleList s b' start limit) (fun _ => rfl)
  refine ⟨_, h1, ?_, h2⟩
  rw [List.map_map, C13_ids_consecutive h]
  exact keys_asc (proposals_WF h) (C13_ids_exist h)

/-- **C103.** The same for `ReverseProposals`, newest first. -/
theorem C103_reverse {P : Addr → Nat → Nat} {T : Nat → Nat} {s : State} {b : Block} {log : List Event}
    (h : Reach s b log) (hpow : StablePowers log P T) (b' : Block) (limit : Option Nat)
    (hl : asUsize (limit.getD PROPOSALS_DEFAULT) ≠ 0) :
    ∃ l, Pages (fun start => singleReverse s b' start limit) none l ∧
      l.map Prod.fst = log.filterMap (fun e => e.out.newId) ∧
      ∀ x ∈ l, singleProposal s b' x.1 = .ok x.2 := by
  obtain ⟨h1, h2⟩ := list_pages h hpow b' limit hl .desc (fun start => singleReverse s b' start limit) (fun _ => rfl)
  refine ⟨_, h1, ?_, h2⟩
  rw [List.map_map, range_desc, List.map_reverse]
  have : (range s.proposals none .asc).map Prod.fst = log.reverse.filterMap (fun e => e.out.newId) := by
    rw [C13_ids_consecutive h]; exact keys_asc (proposals_WF h) (C13_ids_exist h)
  rw [List.filterMap_reverse] at this
  have e : (Prod.fst ∘ fun x : Nat × Proposal => (x.1, shown b' x.2)) = Prod.fst := rfl
  rw [e, this, List.reverse_reverse]

/-- **C103.** A client that follows the pages of `ListVotes` for a proposal is shown, once each and in order of their
addresses, exactly those who voted on it, with what they last voted; the `Vote` query says the same; and the powers
shown add up to the tally of the proposal. -/
theorem C103_votes {s : State} {b : Block} {log : List Event} (h : Reach s b log) (id : Nat) (limit : Option Nat)
    (hl : asUsize (limit.getD PROPOSALS_DEFAULT) ≠ 0) :
    ∃ l, Pages (fun start => singleVotes s id start limit) none l ∧ InOrder .asc l ∧
      (∀ a v, (∃ x ∈ l, x.1 = a ∧ x.2.vote = v) ↔ lastVote a id log = some v) ∧
      (∀ a x, (a, x) ∈ l ↔ singleVote s id a = some x) ∧
      ∀ p, s.proposals.get id = some p → ∀ v,
        countOf p.votes v = (l.map (fun x => if x.2.vote = v then x.2.power else 0)).sum := by
  have hi := inv_reach h
  have hw := under_WF hi.wfB id
  have hget : ∀ a x, (a, x) ∈ range (under s.ballots id) none .asc ↔ singleVote s id a = some x := by
    intro a x; rw [mem_all hw, get_under hi.wfB]; rfl
  refine ⟨_, pages_plain hw (Nat.pos_of_ne_zero hl) (fun _ => rfl), range_inOrder hw none .asc, ?_, hget, ?_⟩
  · intro a v
    rw [← C07_last_vote h a id]
    constructor
    · rintro ⟨⟨a', x⟩, hx, rfl, rfl⟩
      have := (hget a' x).1 hx
      unfold singleVote at this
      rw [this]; rfl
    · intro hv
      obtain ⟨x, hx, rfl⟩ := Option.map_eq_some_iff.1 hv
      exact ⟨(a, x), (hget a x).2 hx, rfl, rfl⟩
  · intro p hp v
    rw [(hi.prop id p hp).tally v]
    have e := ((range_perm (under s.ballots id) .asc).map (fun x => if x.2.vote = v then x.2.power else 0)).sum_nat
    rw [e, sum_under (fun _ (x : Ballot) => if x.vote = v then x.power else 0) s.ballots id]
    unfold ballotSum
    refine AMap.sum_congr ?_
    intro k x _
    by_cases e1 : k.1 = id <;> simp [e1]

/-- **C103.** The power shown with a vote is the voter's power in the block in which the proposal was made. -/
theorem C103_votes_power {P : Addr → Nat → Nat} {T : Nat → Nat} {s : State} {b : Block} {log : List Event}
    (h : Reach s b log) (hpow : StablePowers log P T) {id : Nat} {p : Proposal} (hp : s.proposals.get id = some p)
    {limit : Option Nat} (hl : asUsize (limit.getD PROPOSALS_DEFAULT) ≠ 0) {l : List (Addr × Ballot)}
    (hx : Pages (fun start => singleVotes s id start limit) none l) : ∀ x ∈ l, x.2.power = P x.1 p.startHeight := by
  obtain ⟨l', h1, _, _, h2, _⟩ := C103_votes h id limit hl
  rw [pages_unique hx h1]
  rintro ⟨a, x⟩ hm
  exact (powInv_reach h hpow).bal id a x p hp ((h2 a x).1 hm)

end Verif.Single
