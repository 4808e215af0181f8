import Verif.Spec.OwnRules
import Verif.Proofs.VetoDao
import Verif.Props.WholeDaoModules
import Verif.Props.Single
/-! C124: the rules and the membership of a DAO change only as its members decide. -/

namespace Verif.OwnRules
open Verif Verif.WholeDao Verif.Spec.OwnRules
open Verif.Spec.WholeDao (Lawful Steady Sole Authorised)

variable {S E C O : Type} {V : VotingModule S E C O} {decode : Nat → DaoCore.CosmosMsg} {caller : E → C → Option Addr}
  {toCall : Nat → Option (Said C)}

theorem me_event {w0 w : World S} {b0 b : Block} {log : List (Event S E C)} (h : (sys V decode).Run w0 b0 log w b)
    {e : Event S E C} (he : e ∈ log) : e.pre.core.core.me = w0.core.core.me := by
  obtain ⟨_, _, _, _, h1, _, _, _⟩ := h.event e he
  exact me_run h1

/-- The history up to an event. -/
theorem run_to {w0 w : World S} {b0 b : Block} {log : List (Event S E C)} (h : (sys V decode).Run w0 b0 log w b)
    {e : Event S E C} (he : e ∈ log) : ∃ l1 b1, (sys V decode).Run w0 b0 l1 e.pre b1 ∧ ∀ e' ∈ l1, e' ∈ log := by
  obtain ⟨l1, l2, b1, hl, h1, _, _, _⟩ := h.event e he
  exact ⟨l1, b1, h1, fun e' h' => by rw [hl]; simp [h']⟩

theorem reply_config {s s' : Single.State} {env : Single.Env} {c : Single.Call} {o : Single.Out} (hc : Spec.isReply c = true)
    (h : Single.step s env c = .ok (s', o)) : s'.config = s.config := by
  have h1 : Single.step s { env with sender := s.config.dao + 1 } c = .ok (s', o) := by
    cases c <;> first | exact h | cases hc
  exact (Single.C15_only_dao h1 (Nat.succ_ne_self _)).1

/-- **C124.** Whatever the DAO says to its proposal module, to its voting module or to the contracts behind that, its members
decided that it be said. -/
theorem C124_decreed (hV : Lawful V) {w0 w : World S} {b0 b : Block} {log : List (Event S E C)}
    (h : History V decode caller toCall w0 w b0 b log) {e : Event S E C} (he : e ∈ log) {x : Said C}
    (hx : said e.call = some x) (hc : speaker caller e.env e.call = some w0.core.core.me) :
    Decreed V decode toCall log x := by
  obtain ⟨later, before, hl⟩ := List.append_of_mem he
  obtain ⟨e', rest, r, n, tl, hb, _, hs, hn⟩ := h.fromList later before e x hl hx (by rw [me_event h.run he]; exact hc)
  refine ⟨n, hn, ?_⟩
  have he' : e' ∈ log := by rw [hl, hb]; simp
  obtain ⟨l1, l2, b1, hl', h1, _, _, _⟩ := h.run.event e' he'
  rcases waiting h1 (.send (.other n)) (by rw [hs]; exact List.mem_cons_self) with h2 | ⟨e'', he'', h2⟩
  · rw [h.empty] at h2; cases h2
  · exact C80_sole hV h.init h.empty h.run h.steady h.sole e'' (by rw [hl']; simp [he'']) _ h2

/-- **C124.** The rules by which proposals are made and decided change only by a call the members decided on: the
configuration of the proposal module, and, but for the automatic removal of listeners and of a pre-propose module that fail,
who may propose and who is told. -/
theorem C124_rules (hV : Lawful V) {w0 w : World S} {b0 b : Block} {log : List (Event S E C)}
    (h : History V decode caller toCall w0 w b0 b log) {e : Event S E C} (he : e ∈ log)
    (hch : e.post.prop.config ≠ e.pre.prop.config ∨ (∀ c, e.call = .prop c → Spec.isReply c = false) ∧
      (e.post.prop.policy ≠ e.pre.prop.policy ∨ e.post.prop.proposalHooks ≠ e.pre.prop.proposalHooks ∨
        e.post.prop.voteHooks ≠ e.pre.prop.voteHooks)) :
    ∃ c, e.call = .prop c ∧ Decreed V decode toCall log (.prop c) := by
  obtain ⟨_, _, _, _, _, _, hs, _⟩ := h.run.event e he
  replace hs : step V decode e.pre e.env e.call = .ok (e.post, e.out) := hs
  obtain ⟨pre, env, call, out, post⟩ := e
  simp only at hs hch ⊢
  cases call with
  | core m =>
    obtain ⟨_, _, hp, _⟩ := core_effect hs
    rw [hp] at hch
    simp at hch
  | vote g k =>
    obtain ⟨_, _, hp, _⟩ := vote_effect hs
    rw [hp] at hch
    simp at hch
  | prop c =>
    refine ⟨c, rfl, ?_⟩
    obtain ⟨⟨o, _, hp⟩, _⟩ := prop_effect hs
    have hdao : pre.prop.config.dao = w0.core.core.me := by
      rw [(h.steady _ he).2]; exact me_event h.run he
    have hsend : env.sender = pre.prop.config.dao := by
      by_contra hne
      obtain ⟨h1, h2⟩ := Single.C15_only_dao hp hne
      rcases hch with h3 | ⟨h4, h3⟩
      · exact h3 h1
      · obtain ⟨h5, h6, h7⟩ := h2 (h4 c rfl)
        rcases h3 with h3 | h3 | h3
        · exact h3 h5
        · exact h3 h6
        · exact h3 h7
    have hans : Spec.isReply c = false := by
      cases hr : Spec.isReply c with
      | false => rfl
      | true =>
        exfalso
        rcases hch with h3 | ⟨h4, _⟩
        · exact h3 (reply_config hr hp)
        · rw [h4 c rfl] at hr; cases hr
    refine C124_decreed hV h he (x := .prop c) (by simp [said, hans]) ?_
    simp only [speaker, hans, Bool.false_eq_true, if_false]
    rw [hsend, hdao]

/-- Nobody's weight changes, and nothing else in the voting module, but by a call of the voting module or the contracts behind it. -/
theorem voting_changes {w0 w : World S} {b0 b : Block} {log : List (Event S E C)} (h : (sys V decode).Run w0 b0 log w b)
    {e : Event S E C} (he : e ∈ log) :
    e.post.vote = e.pre.vote ∨ ∃ g c o, e.call = .vote g c ∧ V.sys.step e.pre.vote g c = .ok (e.post.vote, o) := by
  obtain ⟨_, _, _, _, _, _, hs, _⟩ := h.event e he
  replace hs : step V decode e.pre e.env e.call = .ok (e.post, e.out) := hs
  obtain ⟨pre, env, call, out, post⟩ := e
  simp only at hs ⊢
  cases call with
  | core m => exact Or.inl (core_effect hs).2.2.2.1
  | prop m => exact Or.inl (prop_effect hs).2.1
  | vote g k =>
    obtain ⟨_, ⟨o, ho⟩, _⟩ := vote_effect hs
    exact Or.inr ⟨g, k, o, rfl, ho⟩

/-- Something that no step changes is what it was. -/
theorem voting_keeps {α : Type} {f : S → α} (hf : ∀ s g c s' o, V.sys.step s g c = .ok (s', o) → f s' = f s)
    {w0 w : World S} {b0 b : Block} {log : List (Event S E C)} (h : (sys V decode).Run w0 b0 log w b)
    {e : Event S E C} (he : e ∈ log) : f e.pre.vote = f w0.vote := by
  obtain ⟨_, _, h1, hx⟩ := run_to h he
  clear hx
  generalize e.pre = s at h1
  clear h he
  induction h1 with
  | refl => rfl
  | @step s1 s2 b3 log env call out hr hb3 hs ih =>
    rw [← ih]
    rcases voting_changes (hr.step hb3 hs) List.mem_cons_self with h2 | ⟨g, c, o, _, h2⟩
    · exact congrArg f h2
    · exact hf _ _ _ _ _ h2

/-- **C124.** dao-voting-token-staked: the unstaking duration, the active threshold and the listeners change only as the
members decide. -/
theorem C124_token_staked {toCall : Nat → Option (Said TokenStaked.Call)} {w0 w : World TokenStaked.World} {b0 b : Block}
    {log : List (Event TokenStaked.World Block TokenStaked.Call)}
    (h : History tokenStaked decode tokenCaller toCall w0 w b0 b log) (hdao : w0.vote.c.dao = w0.core.core.me)
    {e : Event TokenStaked.World Block TokenStaked.Call} (he : e ∈ log)
    (hch : e.post.vote.c.unstakingDuration ≠ e.pre.vote.c.unstakingDuration ∨
      e.post.vote.c.threshold ≠ e.pre.vote.c.threshold ∨ e.post.vote.c.hooks ≠ e.pre.vote.c.hooks) :
    VotingDecreed tokenStaked decode toCall log e := by
  have hd := voting_keeps (f := fun s => s.c.dao) (fun s g c s' o hs => (TokenStaked.C31_admin hs).1) h.run he
  rcases voting_changes h.run he with hv | ⟨g, c, o, hc, hs⟩
  · rw [hv] at hch; simp at hch
  · obtain ⟨m, rfl⟩ := (TokenStaked.C31_admin hs).2 hch
    exact ⟨g, _, hc, C124_decreed C80_token_staked h he (by rw [hc]; rfl)
      (by rw [hc]; simp only [speaker, tokenCaller]; rw [hd, hdao])⟩

/-- **C124.** dao-voting-cw721-staked likewise. -/
theorem C124_nft_staked {toCall : Nat → Option (Said NftStaked.Call)} {w0 w : World NftStaked.World} {b0 b : Block}
    {log : List (Event NftStaked.World Block NftStaked.Call)}
    (h : History nftStaked decode nftCaller toCall w0 w b0 b log) (hdao : w0.vote.c.dao = w0.core.core.me)
    {e : Event NftStaked.World Block NftStaked.Call} (he : e ∈ log)
    (hch : e.post.vote.c.unstakingDuration ≠ e.pre.vote.c.unstakingDuration ∨
      e.post.vote.c.threshold ≠ e.pre.vote.c.threshold ∨ e.post.vote.c.hooks ≠ e.pre.vote.c.hooks) :
    VotingDecreed nftStaked decode toCall log e := by
  have hd := voting_keeps (f := fun s => s.c.dao) (fun s g c s' o hs => (NftStaked.C33_admin hs).2.1) h.run he
  rcases voting_changes h.run he with hv | ⟨g, c, o, hc, hs⟩
  · rw [hv] at hch; simp at hch
  · rcases (NftStaked.C33_admin hs).2.2 with ⟨m, rfl⟩ | ⟨h1, h2, h3⟩
    · exact ⟨g, _, hc, C124_decreed C80_nft_staked h he (by rw [hc]; rfl)
        (by rw [hc]; simp only [speaker, nftCaller]; rw [hd, hdao])⟩
    · rcases hch with hch | hch | hch
      · exact absurd h1 hch
      · exact absurd h2 hch
      · exact absurd h3 hch

/-- **C124.** dao-voting-onft-staked likewise. -/
theorem C124_onft_staked {toCall : Nat → Option (Said OnftStaked.Call)} {w0 w : World OnftStaked.World} {b0 b : Block}
    {log : List (Event OnftStaked.World Block OnftStaked.Call)}
    (h : History onftStaked decode onftCaller toCall w0 w b0 b log) (hdao : w0.vote.n.c.dao = w0.core.core.me)
    {e : Event OnftStaked.World Block OnftStaked.Call} (he : e ∈ log)
    (hch : e.post.vote.n.c.unstakingDuration ≠ e.pre.vote.n.c.unstakingDuration ∨
      e.post.vote.n.c.threshold ≠ e.pre.vote.n.c.threshold ∨ e.post.vote.n.c.hooks ≠ e.pre.vote.n.c.hooks) :
    VotingDecreed onftStaked decode toCall log e := by
  have hd := voting_keeps (f := fun s => s.n.c.dao) (fun s g c s' o hs => (OnftStaked.C74_admin hs).2.1) h.run he
  rcases voting_changes h.run he with hv | ⟨g, c, o, hc, hs⟩
  · rw [hv] at hch; simp at hch
  · rcases (OnftStaked.C74_admin hs).2.2.2 with ⟨m, rfl⟩ | ⟨h1, h2, h3⟩
    · exact ⟨g, _, hc, C124_decreed C80_onft_staked h he (by rw [hc]; rfl)
        (by rw [hc]; simp only [speaker, onftCaller]; rw [hd, hdao])⟩
    · rcases hch with hch | hch | hch
      · exact absurd h1 hch
      · exact absurd h2 hch
      · exact absurd h3 hch

theorem cw20_dao {w w' : Cw20Voting.World} {b : Block} {c : Cw20Voting.Call} {o : Cw20Voting.Out}
    (h : Cw20Voting.step w b c = .ok (w', o)) : w'.v.dao = w.v.dao := by
  cases c with
  | stake c =>
    simp only [Cw20Voting.step, bind_ok, Except.ok.injEq, Prod.mk.injEq] at h
    obtain ⟨_, _, rfl, _⟩ := h; rfl
  | update a t =>
    simp only [Cw20Voting.step, Cw20Voting.updateThreshold, bind_ok, Except.ok.injEq, Prod.mk.injEq] at h
    obtain ⟨_, ⟨_, _, _, _, _, _, rfl⟩, rfl, _⟩ := h
    rfl

/-- **C124.** dao-voting-cw20-staked: the active threshold changes only as the members decide. -/
theorem C124_cw20_staked {toCall : Nat → Option (Said Cw20Voting.Call)} {w0 w : World Cw20Voting.World} {b0 b : Block}
    {log : List (Event Cw20Voting.World Block Cw20Voting.Call)}
    (h : History cw20Staked decode cw20Caller toCall w0 w b0 b log) (hdao : w0.vote.v.dao = w0.core.core.me)
    {e : Event Cw20Voting.World Block Cw20Voting.Call} (he : e ∈ log)
    (hch : e.post.vote.v.threshold ≠ e.pre.vote.v.threshold) :
    VotingDecreed cw20Staked decode toCall log e := by
  have hd := voting_keeps (f := fun s => s.v.dao) (fun s g c s' o hs => cw20_dao hs) h.run he
  rcases voting_changes h.run he with hv | ⟨g, c, o, hc, hs⟩
  · rw [hv] at hch; simp at hch
  · rcases Cw20Voting.C72_update_only hs with h1 | ⟨t, rfl, _⟩
    · exact absurd h1 hch
    · exact ⟨g, _, hc, C124_decreed C80_cw20_staked h he (by rw [hc]; rfl)
        (by rw [hc]; simp only [speaker, cw20Caller]; rw [hd, hdao])⟩

theorem cw4_step {w w' : Cw4Voting.World} {b : Block} {c : Cw4Voting.VCall} {o : Unit}
    (h : Cw4Voting.step w b c = .ok (w', o)) : ∃ a m, c = .group ⟨a, m⟩ ∧ w.group.admin = some a ∧
      (w'.group.admin = w.group.admin ∨ ∃ x, m = .updateAdmin x) := by
  cases c with
  | module a => cases h
  | group c =>
    obtain ⟨a, m⟩ := c
    cases m with
    | updateAdmin x =>
      simp only [Cw4Voting.step, Cw4Voting.execGroup, bind_ok, require_ok, decide_eq_true_eq] at h
      obtain ⟨_, ⟨_, h1, _⟩, _⟩ := h
      exact ⟨a, _, rfl, h1, Or.inr ⟨x, rfl⟩⟩
    | updateMembers r l =>
      simp only [Cw4Voting.step, Cw4Voting.execGroup, bind_ok, require_ok, decide_eq_true_eq, Except.ok.injEq,
        Prod.mk.injEq] at h
      obtain ⟨_, ⟨_, _, _, h1, _, _, _, _, _, _, rfl⟩, rfl, _⟩ := h
      exact ⟨a, _, rfl, h1, Or.inl rfl⟩

/-- **C124.** dao-voting-cw4, with the DAO as the admin of the group: everything that changes in the group, and so the weight of
every member, changes only as the members decide, unless they decided to have another admin. -/
theorem C124_cw4 {toCall : Nat → Option (Said Cw4Voting.VCall)} {w0 w : World Cw4Voting.World} {b0 b : Block}
    {log : List (Event Cw4Voting.World Block Cw4Voting.VCall)}
    (h : History cw4 decode cw4Caller toCall w0 w b0 b log) (hadm : w0.vote.group.admin = some w0.core.core.me)
    {e : Event Cw4Voting.World Block Cw4Voting.VCall} (he : e ∈ log) (hch : e.post.vote ≠ e.pre.vote) :
    VotingDecreed cw4 decode toCall log e ∨
    ∃ e' ∈ log, ∃ g a x, e'.call = .vote g (.group ⟨a, .updateAdmin x⟩) ∧ VotingDecreed cw4 decode toCall log e' := by
  have key : e.pre.vote.group.admin = some w0.core.core.me ∨
      ∃ e' ∈ log, ∃ g x, e'.call = .vote g (.group ⟨w0.core.core.me, .updateAdmin x⟩) := by
    obtain ⟨l1, _, h1, hsub⟩ := run_to h.run he
    generalize e.pre = s at h1
    clear he hch
    induction h1 with
    | refl => exact Or.inl hadm
    | @step s1 s2 b3 log' env call out hr hb3 hs ih =>
      rcases ih (fun e' h' => hsub e' (List.mem_cons_of_mem _ h')) with ih | ih
      · rcases voting_changes (hr.step hb3 hs) List.mem_cons_self with h2 | ⟨g, c, o, hc, h2⟩
        · left
          replace h2 : s2.vote = s1.vote := h2
          rw [h2]; exact ih
        · replace h2 : Cw4Voting.step s1.vote g c = .ok (s2.vote, o) := h2
          obtain ⟨a, m, rfl, ha, hm⟩ := cw4_step h2
          rw [ih, Option.some.injEq] at ha
          subst ha
          rcases hm with hm | ⟨x, rfl⟩
          · left; rw [hm]; exact ih
          · exact Or.inr ⟨_, hsub _ List.mem_cons_self, g, x, hc⟩
      · exact Or.inr ih
  rcases key with key | ⟨e', he', g, x, hc⟩
  · left
    rcases voting_changes h.run he with hv | ⟨g, c, o, hc, hs⟩
    · exact absurd hv hch
    · obtain ⟨a, m, rfl, ha, _⟩ := cw4_step hs
      rw [key, Option.some.injEq] at ha
      subst ha
      exact ⟨g, _, hc, C124_decreed C80_cw4 h he (by rw [hc]; rfl) (by rw [hc]; rfl)⟩
  · exact Or.inr ⟨e', he', g, _, x, hc, g, _, hc, C124_decreed C80_cw4 h he' (by rw [hc]; rfl) (by rw [hc]; rfl)⟩

theorem roles_step {w w' : Roles.Voting.World} {e : Roles.Env} {c : Roles.Voting.Call} {o : Roles.Out}
    (h : Roles.Voting.step w e c = .ok (w', o)) : w.roles.ownership.owner = some e.sender ∧
      (w'.roles.ownership.owner = w.roles.ownership.owner ∨ w'.roles.ownership.owner = none) := by
  cases c with
  | voting => cases h
  | roles m =>
    simp only [Roles.Voting.step, bind_ok, Except.ok.injEq, Prod.mk.injEq, Prod.exists] at h
    obtain ⟨_, _, r, o', h1, rfl, _⟩ := h
    exact ⟨Roles.exec_owner h1, (Roles.exec_ownership h1).imp (fun h => by rw [h]) id⟩

/-- **C124.** dao-voting-cw721-roles, with the DAO as the owner of the role contract: everything that changes in the role
contract, and so the weight of every member, changes only as the members decide. -/
theorem C124_roles {toCall : Nat → Option (Said Roles.Voting.Call)} {w0 w : World Roles.Voting.World} {b0 b : Block}
    {log : List (Event Roles.Voting.World Roles.Env Roles.Voting.Call)}
    (h : History roles decode rolesCaller toCall w0 w b0 b log) (hown : w0.vote.roles.ownership.owner = some w0.core.core.me)
    {e : Event Roles.Voting.World Roles.Env Roles.Voting.Call} (he : e ∈ log) (hch : e.post.vote ≠ e.pre.vote) :
    VotingDecreed roles decode toCall log e := by
  have key : e.pre.vote.roles.ownership.owner = some w0.core.core.me ∨ e.pre.vote.roles.ownership.owner = none := by
    obtain ⟨l1, _, h1, hx⟩ := run_to h.run he
    clear hx
    generalize e.pre = s at h1
    clear he hch
    induction h1 with
    | refl => exact Or.inl hown
    | @step s1 s2 b3 log' env call out hr hb3 hs ih =>
      rcases voting_changes (hr.step hb3 hs) List.mem_cons_self with h2 | ⟨g, c, o, hc, h2⟩
      · replace h2 : s2.vote = s1.vote := h2
        rw [h2]; exact ih
      · obtain ⟨_, h3 | h3⟩ := roles_step h2
        · exact ih.imp (fun h => h3.trans h) (fun h => h3.trans h)
        · exact Or.inr h3
  rcases voting_changes h.run he with hv | ⟨g, c, o, hc, hs⟩
  · exact absurd hv hch
  · obtain ⟨h1, _⟩ := roles_step hs
    rw [h1] at key
    rcases key with key | key
    · exact ⟨g, c, hc, C124_decreed C80_roles h he (by rw [hc]; rfl) (by rw [hc]; exact key)⟩
    · cases key

end Verif.OwnRules
