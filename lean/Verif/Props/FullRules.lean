import Verif.Spec.FullRules
import Verif.Proofs.Holdings
import Verif.Props.FullDao
import Verif.Props.OwnRules
import Verif.Props.Multiple
import Verif.Props.Condorcet
/-! C128: the rules and the membership of a DAO with any proposal modules change only as its members decide. -/

namespace Verif.FullRules
open Verif Verif.FullDao Verif.Spec.FullRules
open Verif.WholeDao (VotingModule tokenStaked nftStaked onftStaked cw20Staked cw4 roles C80_token_staked C80_nft_staked
  C80_onft_staked C80_cw20_staked C80_cw4 C80_roles)
open Verif.WholeCondorcet (Now)
open Verif.Spec.WholeDao (Lawful)
open Verif.Spec.FullDao (touches)
open Verif.Spec.OwnRules (tokenCaller nftCaller onftCaller cw20Caller cw4Caller rolesCaller)

variable {S E C O : Type} {V : VotingModule S E C O} {N : Now S} {decode : Nat → DaoCore.CosmosMsg}
  {caller : E → C → Option Addr} {toCall : Nat → Option (Said C)}

/-- The history up to an event. -/
theorem run_to {w0 w : World S} {b0 b : Block} {log : List (Event S E C)} (h : (sys V N decode).Run w0 b0 log w b)
    {e : Event S E C} (he : e ∈ log) : ∃ l1 b1, (sys V N decode).Run w0 b0 l1 e.pre b1 ∧ ∀ e' ∈ l1, e' ∈ log := by
  obtain ⟨l1, l2, b1, hl, h1, _, _, _⟩ := h.event e he
  exact ⟨l1, b1, h1, fun e' h' => by rw [hl]; simp [h']⟩

theorem me_event {w0 w : World S} {b0 b : Block} {log : List (Event S E C)} (h : (sys V N decode).Run w0 b0 log w b)
    {e : Event S E C} (he : e ∈ log) : e.pre.core.core.me = w0.core.core.me := by
  obtain ⟨_, _, h1, _⟩ := run_to h he
  exact full_me_run h1

/-- **C128.** Whatever the DAO says to one of its proposal modules, to its voting module or to the contracts behind that, its
members decided in one of its proposal modules that it be said. -/
theorem C128_decreed (hV : Lawful V) {w0 w : World S} {b0 b : Block} {log : List (Event S E C)}
    (h : History V N decode caller toCall w0 w b0 b log) {e : Event S E C} (he : e ∈ log) {x : Said C}
    (hx : said e.call = some x) (hc : speaker caller e.env e.call = some w0.core.core.me) :
    Decreed V decode toCall w0.core.stack log x := by
  obtain ⟨later, before, hl⟩ := List.append_of_mem he
  obtain ⟨e', rest, r, n, tl, hb, _, hs, hn⟩ := h.fromList later before e x hl hx (by rw [me_event h.run he]; exact hc)
  refine ⟨n, hn, ?_⟩
  have he' : e' ∈ log := by rw [hl, hb]; simp
  obtain ⟨l1, _, h1, hsub⟩ := run_to h.run he'
  rcases full_waiting h1 (.send (.other n)) (by rw [hs]; exact List.mem_cons_self) with h2 | ⟨e'', he'', h2⟩
  · exact .founding h2
  · exact C95_governed hV h.init h.run h.steady h.totals h.governed e'' (hsub _ he'') _ h2

theorem multi_reply_config {s s' : Multiple.State} {env : Multiple.Env} {c : Multiple.Call} {o : Multiple.Out}
    (hc : Spec.Multi.isReply c = true) (h : Multiple.step s env c = .ok (s', o)) : s'.config = s.config := by
  have h1 : Multiple.step s { env with sender := s.config.dao + 1 } c = .ok (s', o) := by
    cases c <;> first | exact h | cases hc
  exact (Multiple.C15_only_dao h1 (Nat.succ_ne_self _)).1

theorem SameRules.refl (m : Module) : SameRules m m := by
  cases m
  · rfl
  · rfl
  · exact ⟨rfl, rfl⟩

theorem SamePublic.refl (m : Module) : SamePublic m m := by
  cases m
  · exact ⟨rfl, rfl, rfl⟩
  · exact ⟨rfl, rfl, rfl⟩
  · trivial

/-- A module of dao-proposal-condorcet belongs to the DAO. -/
theorem condorcet_dao {w0 w : World S} {b0 b : Block} {log : List (Event S E C)} (hi : Init V b0 w0)
    (h : (sys V N decode).Run w0 b0 log w b) : ∀ {a : Addr} {s : Condorcet.State}, w.mods.get a = some (.condorcet s) →
      s.dao = w0.core.core.me := by
  induction h with
  | refl => intro a s hs; rw [hi.1] at hs; cases hs
  | @step s1 s2 b3 log env call out hr hb3 hs ih =>
    intro a s ha
    by_cases ht : touches a call = false
    · rw [(effect (N := N) hs).2.1 a ht] at ha
      exact ih ha
    · cases call with
      | core m => exact absurd rfl ht
      | vote g k => exact absurd rfl ht
      | spawn a' k =>
        obtain ⟨_, _, ⟨m, hm, hmods⟩, _⟩ := spawn_effect (V := V) (N := N) (decode := decode) hs
        have : a' = a := by simpa [touches] using ht
        subst this
        rw [hmods, AMap.get_set_self, Option.some.injEq] at ha
        subst ha
        cases k with
        | single c i => simp only [create, bind_ok, Prod.exists, Except.ok.injEq] at hm; obtain ⟨_, _, _, hm⟩ := hm; cases hm
        | multi c i => simp only [create, bind_ok, Prod.exists, Except.ok.injEq] at hm; obtain ⟨_, _, _, hm⟩ := hm; cases hm
        | condorcet c =>
          simp only [create, Condorcet.instantiate, bind_ok, Except.ok.injEq, Module.condorcet.injEq] at hm
          obtain ⟨_, ⟨_, _, rfl⟩, rfl⟩ := hm
          exact full_me_run hr
      | single a' c =>
        have : a' = a := by simpa [touches] using ht
        subst this
        obtain ⟨_, _, _, _, hmods, _⟩ := single_effect (V := V) (N := N) (decode := decode) hs
        rw [hmods, AMap.get_set_self, Option.some.injEq] at ha
        cases ha
      | multi a' c =>
        have : a' = a := by simpa [touches] using ht
        subst this
        obtain ⟨_, _, _, _, hmods, _⟩ := multi_effect (V := V) (N := N) (decode := decode) hs
        rw [hmods, AMap.get_set_self, Option.some.injEq] at ha
        cases ha
      | condorcet a' c =>
        have : a' = a := by simpa [touches] using ht
        subst this
        obtain ⟨p, p', o, hp, hmods, h1, _⟩ := condorcet_effect (V := V) (N := N) (decode := decode) hs
        rw [hmods, AMap.get_set_self, Option.some.injEq, Module.condorcet.injEq] at ha
        subst ha
        obtain ⟨⟨_, _, h2⟩, _⟩ := WholeCondorcet.prop_effect h1
        exact (WholeCondorcet.step_dao h2).trans (ih hp)

/-- **C128.** A proposal module stays what it is, and the rules by which proposals are made and decided in it change only by a
call of it the members decided on: its configuration, and, but for the automatic removal of listeners and of a pre-propose
module that fail, who may propose and who is told. -/
theorem C128_rules (hV : Lawful V) {w0 w : World S} {b0 b : Block} {log : List (Event S E C)}
    (h : History V N decode caller toCall w0 w b0 b log) {e : Event S E C} (he : e ∈ log) {a : Addr} {m : Module}
    (hm : e.pre.mods.get a = some m) :
    ∃ m', e.post.mods.get a = some m' ∧
      (¬ SameRules m m' ∨ isAnswer e.call = false ∧ ¬ SamePublic m m' →
        ∃ x, said e.call = some x ∧ x.dest = some a ∧ Decreed V decode toCall w0.core.stack log x) := by
  obtain ⟨l1, _, b1, hl1, hr1, _, hs, _⟩ := h.run.event e he
  replace hs : step V N decode e.pre e.env e.call = .ok (e.post, e.out) := hs
  have hst := h.steady e he a m hm
  have hme := me_event h.run he
  have hdec := fun x => C128_decreed (x := x) hV h he
  have hcd := fun s => condorcet_dao (a := a) (s := s) h.init hr1
  obtain ⟨pre, env, call, out, post⟩ := e
  simp only at hs hm hst hme hdec hcd ⊢
  by_cases ht : touches a call = false
  · refine ⟨m, ?_, ?_⟩
    · rw [(effect hs).2.1 a ht]; exact hm
    · rintro (h1 | ⟨_, h1⟩)
      · exact absurd (SameRules.refl m) h1
      · exact absurd (SamePublic.refl m) h1
  · cases call with
    | core m => exact absurd rfl ht
    | vote g k => exact absurd rfl ht
    | spawn a' k =>
      have : a' = a := by simpa [touches] using ht
      subst this
      obtain ⟨_, hn, _⟩ := spawn_effect hs
      rw [hn] at hm; cases hm
    | single a' c =>
      have : a' = a := by simpa [touches] using ht
      subst this
      obtain ⟨p, p', o, hp, hmods, h1, _⟩ := single_effect hs
      rw [hp, Option.some.injEq] at hm
      subst hm
      refine ⟨.single p', by rw [hmods, AMap.get_set_self], fun hch => ?_⟩
      obtain ⟨⟨o', _, h2⟩, _⟩ := WholeDao.prop_effect h1
      have hans : Spec.isReply c = false := by
        cases hr : Spec.isReply c with
        | false => rfl
        | true =>
          exfalso
          rcases hch with h3 | ⟨h4, _⟩
          · exact h3 (OwnRules.reply_config hr h2)
          · exact Bool.false_ne_true (h4.symm.trans hr)
      have hsend : env.sender = p.config.dao := by
        by_contra hne
        obtain ⟨h3, h4⟩ := Single.C15_only_dao h2 hne
        rcases hch with h5 | ⟨_, h5⟩
        · exact h5 h3
        · exact h5 (h4 hans)
      refine ⟨.single a' c, by simp [said, hans], rfl, hdec _ (by simp [said, hans]) ?_⟩
      simp only [speaker]
      rw [hsend, hst.2, hme]
    | multi a' c =>
      have : a' = a := by simpa [touches] using ht
      subst this
      obtain ⟨p, p', o, hp, hmods, h1, _⟩ := multi_effect hs
      rw [hp, Option.some.injEq] at hm
      subst hm
      refine ⟨.multi p', by rw [hmods, AMap.get_set_self], fun hch => ?_⟩
      obtain ⟨⟨o', _, h2⟩, _⟩ := WholeMulti.prop_effect h1
      have hans : Spec.Multi.isReply c = false := by
        cases hr : Spec.Multi.isReply c with
        | false => rfl
        | true =>
          exfalso
          rcases hch with h3 | ⟨h4, _⟩
          · exact h3 (multi_reply_config hr h2)
          · exact Bool.false_ne_true (h4.symm.trans hr)
      have hsend : env.sender = p.config.dao := by
        by_contra hne
        obtain ⟨h3, h4⟩ := Multiple.C15_only_dao h2 hne
        rcases hch with h5 | ⟨_, h5⟩
        · exact h5 h3
        · exact h5 (h4 hans)
      refine ⟨.multi a' c, by simp [said, hans], rfl, hdec _ (by simp [said, hans]) ?_⟩
      simp only [speaker]
      rw [hsend, hst.2, hme]
    | condorcet a' c =>
      have : a' = a := by simpa [touches] using ht
      subst this
      obtain ⟨p, p', o, hp, hmods, h1, _⟩ := condorcet_effect hs
      rw [hp, Option.some.injEq] at hm
      subst hm
      refine ⟨.condorcet p', by rw [hmods, AMap.get_set_self], fun hch => ?_⟩
      obtain ⟨⟨o', _, h2⟩, _⟩ := WholeCondorcet.prop_effect h1
      have hne : p'.config ≠ p.config ∨ p'.dao ≠ p.dao := by
        rcases hch with h3 | ⟨_, h3⟩
        · by_contra hx
          simp only [not_or, not_not] at hx
          exact h3 hx
        · exact absurd trivial h3
      obtain ⟨hsend, _⟩ := Condorcet.C25_only_dao h2 hne
      refine ⟨.condorcet a' c, rfl, rfl, hdec _ rfl ?_⟩
      simp only [speaker]
      rw [show env.sender = p.dao from hsend, hcd _ hp]

/-- Nothing changes in the voting module but by a call of it or of the contracts behind it. -/
theorem voting_changes {w0 w : World S} {b0 b : Block} {log : List (Event S E C)} (h : (sys V N decode).Run w0 b0 log w b)
    {e : Event S E C} (he : e ∈ log) :
    e.post.vote = e.pre.vote ∨ ∃ g c o, e.call = .vote g c ∧ V.sys.step e.pre.vote g c = .ok (e.post.vote, o) := by
  obtain ⟨_, _, _, _, _, _, hs, _⟩ := h.event e he
  replace hs : step V N decode e.pre e.env e.call = .ok (e.post, e.out) := hs
  obtain ⟨_, _, hp⟩ := effect hs
  cases hp with
  | none _ hv => exact Or.inl hv
  | core _ hv => exact Or.inl hv
  | vote g c o _ _ hc _ hst => exact Or.inr ⟨g, c, o, hc, hst⟩

/-- Something that no step changes is what it was. -/
theorem voting_keeps {α : Type} {f : S → α} (hf : ∀ s g c s' o, V.sys.step s g c = .ok (s', o) → f s' = f s)
    {w0 w : World S} {b0 b : Block} {log : List (Event S E C)} (h : (sys V N decode).Run w0 b0 log w b)
    {e : Event S E C} (he : e ∈ log) : f e.pre.vote = f w0.vote := by
  obtain ⟨_, _, h1, hx⟩ := run_to h he
  clear hx
  generalize e.pre = s at h1
  clear h he
  induction h1 with
  | refl => rfl
  | @step s1 s2 b3 log env call out hr hb3 hs ih =>
    rw [← ih]
    rcases voting_changes (hr.step hb3 hs) List.mem_cons_self with h2 | ⟨g, c, o, _, h2⟩
    · exact congrArg f h2
    · exact hf _ _ _ _ _ h2

/-- **C128.** dao-voting-token-staked: the unstaking duration, the active threshold and the listeners change only as the
members decide. -/
theorem C128_token_staked {N : Now TokenStaked.World} {toCall : Nat → Option (Said TokenStaked.Call)} {w0 w : World TokenStaked.World} {b0 b : Block}
    {log : List (Event TokenStaked.World Block TokenStaked.Call)}
    (h : History tokenStaked N decode tokenCaller toCall w0 w b0 b log) (hdao : w0.vote.c.dao = w0.core.core.me)
    {e : Event TokenStaked.World Block TokenStaked.Call} (he : e ∈ log)
    (hch : e.post.vote.c.unstakingDuration ≠ e.pre.vote.c.unstakingDuration ∨
      e.post.vote.c.threshold ≠ e.pre.vote.c.threshold ∨ e.post.vote.c.hooks ≠ e.pre.vote.c.hooks) :
    VotingDecreed tokenStaked decode toCall w0.core.stack log e := by
  have hd := voting_keeps (f := fun s => s.c.dao) (fun s g c s' o hs => (TokenStaked.C31_admin hs).1) h.run he
  rcases voting_changes h.run he with hv | ⟨g, c, o, hc, hs⟩
  · rw [hv] at hch; simp at hch
  · obtain ⟨m, rfl⟩ := (TokenStaked.C31_admin hs).2 hch
    exact ⟨g, _, hc, C128_decreed C80_token_staked h he (by rw [hc]; rfl)
      (by rw [hc]; simp only [speaker, tokenCaller]; rw [hd, hdao])⟩

/-- **C128.** dao-voting-cw721-staked likewise. -/
theorem C128_nft_staked {N : Now NftStaked.World} {toCall : Nat → Option (Said NftStaked.Call)} {w0 w : World NftStaked.World} {b0 b : Block}
    {log : List (Event NftStaked.World Block NftStaked.Call)}
    (h : History nftStaked N decode nftCaller toCall w0 w b0 b log) (hdao : w0.vote.c.dao = w0.core.core.me)
    {e : Event NftStaked.World Block NftStaked.Call} (he : e ∈ log)
    (hch : e.post.vote.c.unstakingDuration ≠ e.pre.vote.c.unstakingDuration ∨
      e.post.vote.c.threshold ≠ e.pre.vote.c.threshold ∨ e.post.vote.c.hooks ≠ e.pre.vote.c.hooks) :
    VotingDecreed nftStaked decode toCall w0.core.stack log e := by
  have hd := voting_keeps (f := fun s => s.c.dao) (fun s g c s' o hs => (NftStaked.C33_admin hs).2.1) h.run he
  rcases voting_changes h.run he with hv | ⟨g, c, o, hc, hs⟩
  · rw [hv] at hch; simp at hch
  · rcases (NftStaked.C33_admin hs).2.2 with ⟨m, rfl⟩ | ⟨h1, h2, h3⟩
    · exact ⟨g, _, hc, C128_decreed C80_nft_staked h he (by rw [hc]; rfl)
        (by rw [hc]; simp only [speaker, nftCaller]; rw [hd, hdao])⟩
    · rcases hch with hch | hch | hch
      · exact absurd h1 hch
      · exact absurd h2 hch
      · exact absurd h3 hch

/-- **C128.** dao-voting-onft-staked likewise. -/
theorem C128_onft_staked {N : Now OnftStaked.World} {toCall : Nat → Option (Said OnftStaked.Call)} {w0 w : World OnftStaked.World} {b0 b : Block}
    {log : List (Event OnftStaked.World Block OnftStaked.Call)}
    (h : History onftStaked N decode onftCaller toCall w0 w b0 b log) (hdao : w0.vote.n.c.dao = w0.core.core.me)
    {e : Event OnftStaked.World Block OnftStaked.Call} (he : e ∈ log)
    (hch : e.post.vote.n.c.unstakingDuration ≠ e.pre.vote.n.c.unstakingDuration ∨
      e.post.vote.n.c.threshold ≠ e.pre.vote.n.c.threshold ∨ e.post.vote.n.c.hooks ≠ e.pre.vote.n.c.hooks) :
    VotingDecreed onftStaked decode toCall w0.core.stack log e := by
  have hd := voting_keeps (f := fun s => s.n.c.dao) (fun s g c s' o hs => (OnftStaked.C74_admin hs).2.1) h.run he
  rcases voting_changes h.run he with hv | ⟨g, c, o, hc, hs⟩
  · rw [hv] at hch; simp at hch
  · rcases (OnftStaked.C74_admin hs).2.2.2 with ⟨m, rfl⟩ | ⟨h1, h2, h3⟩
    · exact ⟨g, _, hc, C128_decreed C80_onft_staked h he (by rw [hc]; rfl)
        (by rw [hc]; simp only [speaker, onftCaller]; rw [hd, hdao])⟩
    · rcases hch with hch | hch | hch
      · exact absurd h1 hch
      · exact absurd h2 hch
      · exact absurd h3 hch

/-- **C128.** dao-voting-cw20-staked: the active threshold changes only as the members decide. -/
theorem C128_cw20_staked {N : Now Cw20Voting.World} {toCall : Nat → Option (Said Cw20Voting.Call)} {w0 w : World Cw20Voting.World} {b0 b : Block}
    {log : List (Event Cw20Voting.World Block Cw20Voting.Call)}
    (h : History cw20Staked N decode cw20Caller toCall w0 w b0 b log) (hdao : w0.vote.v.dao = w0.core.core.me)
    {e : Event Cw20Voting.World Block Cw20Voting.Call} (he : e ∈ log)
    (hch : e.post.vote.v.threshold ≠ e.pre.vote.v.threshold) :
    VotingDecreed cw20Staked decode toCall w0.core.stack log e := by
  have hd := voting_keeps (f := fun s => s.v.dao) (fun s g c s' o hs => OwnRules.cw20_dao hs) h.run he
  rcases voting_changes h.run he with hv | ⟨g, c, o, hc, hs⟩
  · rw [hv] at hch; simp at hch
  · rcases Cw20Voting.C72_update_only hs with h1 | ⟨t, rfl, _⟩
    · exact absurd h1 hch
    · exact ⟨g, _, hc, C128_decreed C80_cw20_staked h he (by rw [hc]; rfl)
        (by rw [hc]; simp only [speaker, cw20Caller]; rw [hd, hdao])⟩

/-- **C128.** dao-voting-cw4, with the DAO as the admin of the group: everything that changes in the group, and so the weight of
every member, changes only as the members decide, unless they decided to have another admin. -/
theorem C128_cw4 {N : Now Cw4Voting.World} {toCall : Nat → Option (Said Cw4Voting.VCall)} {w0 w : World Cw4Voting.World} {b0 b : Block}
    {log : List (Event Cw4Voting.World Block Cw4Voting.VCall)}
    (h : History cw4 N decode cw4Caller toCall w0 w b0 b log) (hadm : w0.vote.group.admin = some w0.core.core.me)
    {e : Event Cw4Voting.World Block Cw4Voting.VCall} (he : e ∈ log) (hch : e.post.vote ≠ e.pre.vote) :
    VotingDecreed cw4 decode toCall w0.core.stack log e ∨
    ∃ e' ∈ log, ∃ g a x, e'.call = .vote g (.group ⟨a, .updateAdmin x⟩) ∧ VotingDecreed cw4 decode toCall w0.core.stack log e' := by
  have key : e.pre.vote.group.admin = some w0.core.core.me ∨
      ∃ e' ∈ log, ∃ g x, e'.call = .vote g (.group ⟨w0.core.core.me, .updateAdmin x⟩) := by
    obtain ⟨l1, _, h1, hsub⟩ := run_to h.run he
    generalize e.pre = s at h1
    clear he hch
    induction h1 with
    | refl => exact Or.inl hadm
    | @step s1 s2 b3 log' env call out hr hb3 hs ih =>
      rcases ih (fun e' h' => hsub e' (List.mem_cons_of_mem _ h')) with ih | ih
      · rcases voting_changes (hr.step hb3 hs) List.mem_cons_self with h2 | ⟨g, c, o, hc, h2⟩
        · left
          replace h2 : s2.vote = s1.vote := h2
          rw [h2]; exact ih
        · replace h2 : Cw4Voting.step s1.vote g c = .ok (s2.vote, o) := h2
          obtain ⟨a, m, rfl, ha, hm⟩ := OwnRules.cw4_step h2
          rw [ih, Option.some.injEq] at ha
          subst ha
          rcases hm with hm | ⟨x, rfl⟩
          · left; rw [hm]; exact ih
          · exact Or.inr ⟨_, hsub _ List.mem_cons_self, g, x, hc⟩
      · exact Or.inr ih
  rcases key with key | ⟨e', he', g, x, hc⟩
  · left
    rcases voting_changes h.run he with hv | ⟨g, c, o, hc, hs⟩
    · exact absurd hv hch
    · obtain ⟨a, m, rfl, ha, _⟩ := OwnRules.cw4_step hs
      rw [key, Option.some.injEq] at ha
      subst ha
      exact ⟨g, _, hc, C128_decreed C80_cw4 h he (by rw [hc]; rfl) (by rw [hc]; rfl)⟩
  · exact Or.inr ⟨e', he', g, _, x, hc, g, _, hc, C128_decreed C80_cw4 h he' (by rw [hc]; rfl) (by rw [hc]; rfl)⟩

/-- **C128.** dao-voting-cw721-roles, with the DAO as the owner of the role contract: everything that changes in the role
contract, and so the weight of every member, changes only as the members decide. -/
theorem C128_roles {N : Now Roles.Voting.World} {toCall : Nat → Option (Said Roles.Voting.Call)} {w0 w : World Roles.Voting.World} {b0 b : Block}
    {log : List (Event Roles.Voting.World Roles.Env Roles.Voting.Call)}
    (h : History roles N decode rolesCaller toCall w0 w b0 b log) (hown : w0.vote.roles.ownership.owner = some w0.core.core.me)
    {e : Event Roles.Voting.World Roles.Env Roles.Voting.Call} (he : e ∈ log) (hch : e.post.vote ≠ e.pre.vote) :
    VotingDecreed roles decode toCall w0.core.stack log e := by
  have key : e.pre.vote.roles.ownership.owner = some w0.core.core.me ∨ e.pre.vote.roles.ownership.owner = none := by
    obtain ⟨l1, _, h1, hx⟩ := run_to h.run he
    clear hx
    generalize e.pre = s at h1
    clear he hch
    induction h1 with
    | refl => exact Or.inl hown
    | @step s1 s2 b3 log' env call out hr hb3 hs ih =>
      rcases voting_changes (hr.step hb3 hs) List.mem_cons_self with h2 | ⟨g, c, o, hc, h2⟩
      · replace h2 : s2.vote = s1.vote := h2
        rw [h2]; exact ih
      · obtain ⟨_, h3 | h3⟩ := OwnRules.roles_step h2
        · exact ih.imp (fun h => h3.trans h) (fun h => h3.trans h)
        · exact Or.inr h3
  rcases voting_changes h.run he with hv | ⟨g, c, o, hc, hs⟩
  · exact absurd hv hch
  · obtain ⟨h1, _⟩ := OwnRules.roles_step hs
    rw [h1] at key
    rcases key with key | key
    · exact ⟨g, c, hc, C128_decreed C80_roles h he (by rw [hc]; rfl) (by rw [hc]; exact key)⟩
    · cases key

end Verif.FullRules
