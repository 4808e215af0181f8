import Verif.Model.Clock
import Verif.Spec.Clock
import Verif.Props.OwnRules
import Verif.Props.OwnRulesExample
/-!
# C126: durations too long for the clock
-/

namespace Verif.Clock
open Verif Verif.Voting Verif.Spec.Clock

theorem u64_eq : U64 = 2 ^ 64 := by decide +kernel

theorem after64_ok {d : Duration} {b : Block} {e : Expiration} :
    after64 d b = .ok e ↔ Fits b d ∧ e = d.after b := by
  cases d with
  | height n =>
    simp only [after64, bind_ok, add64_ok, Except.ok.injEq, Fits, Duration.after, u64_eq]
    constructor
    · rintro ⟨_, ⟨h, rfl⟩, rfl⟩; exact ⟨h, rfl⟩
    · rintro ⟨h, rfl⟩; exact ⟨_, ⟨h, rfl⟩, rfl⟩
  | time s =>
    simp only [after64, mul64, bind_ok, add64_ok, Except.ok.injEq, Fits, Duration.after, NANOS, u64_eq]
    constructor
    · rintro ⟨n, hn, _, ⟨h, rfl⟩, rfl⟩
      split at hn
      · cases hn; exact ⟨h, rfl⟩
      · cases hn
    · rintro ⟨h, rfl⟩
      refine ⟨s * 1000000000, ?_, _, ⟨h, rfl⟩, rfl⟩
      rw [if_pos (by omega)]

theorem addAll_ok {b : Block} : ∀ {ds : List Duration} {u : Unit}, addAll b ds = .ok u ↔ ∀ d ∈ ds, Fits b d
  | [], u => by simp [addAll]
  | d :: ds, u => by
    simp only [addAll, bind_ok, after64_ok, List.mem_cons, forall_eq_or_imp]
    constructor
    · rintro ⟨_, ⟨h, _⟩, h2⟩; exact ⟨h, addAll_ok.1 h2⟩
    · rintro ⟨h, h2⟩; exact ⟨_, ⟨h, rfl⟩, addAll_ok.2 h2⟩

theorem timed_ok {α : Type} {b : Block} {ds : List Duration} {r : Res α} {x : α} :
    timed b ds r = .ok x ↔ (∀ d ∈ ds, Fits b d) ∧ r = .ok x := by
  simp only [timed, bind_ok]
  constructor
  · rintro ⟨u, h, h2⟩; exact ⟨addAll_ok.1 h, h2⟩
  · rintro ⟨h, h2⟩; exact ⟨(), addAll_ok.2 h, h2⟩

/-- **C126.** Proposals of dao-proposal-single: a call is accepted as the model has it, provided the voting periods fit the clock
if it is a proposal. Missing: it is false for every period that is accepted, see `C126_frozen_witness`. -/
theorem C126_single_partial {s : Single.State} {env : Single.Env} {c : Single.Call} {r : Single.State × Single.Out} :
    singleStep s env c = .ok r ↔ Single.step s env c = .ok r ∧
      ∀ given content msgs vote ok, c = .propose given content msgs vote ok → Fits env.block s.config.maxVotingPeriod ∧
        ∀ d, s.config.minVotingPeriod = some d → Fits env.block d := by
  rw [singleStep, timed_ok, and_comm]
  refine and_congr_right fun _ => ?_
  cases c with
  | propose g n m v z =>
    simp only [singleAdds, List.mem_cons, Option.mem_toList, forall_eq_or_imp]
    exact ⟨fun h _ _ _ _ _ _ => h, fun h => h g n m v z rfl⟩
  | _ => simp [singleAdds]

/-- **C126.** Proposals of dao-proposal-multiple. -/
theorem C126_multiple_partial {s : Multiple.State} {env : Multiple.Env} {c : Multiple.Call}
    {r : Multiple.State × Multiple.Out} :
    multipleStep s env c = .ok r ↔ Multiple.step s env c = .ok r ∧
      ∀ given content options vote ok, c = .propose given content options vote ok →
        Fits env.block s.config.maxVotingPeriod ∧ ∀ d, s.config.minVotingPeriod = some d → Fits env.block d := by
  rw [multipleStep, timed_ok, and_comm]
  refine and_congr_right fun _ => ?_
  cases c with
  | propose g n m v z =>
    simp only [multipleAdds, List.mem_cons, Option.mem_toList, forall_eq_or_imp]
    exact ⟨fun h _ _ _ _ _ _ => h, fun h => h g n m v z rfl⟩
  | _ => simp [multipleAdds]

/-- **C126.** Proposals of dao-proposal-condorcet. -/
theorem C126_condorcet_partial {s : Condorcet.State} {env : Condorcet.Env} {c : Condorcet.Call}
    {r : Condorcet.State × Condorcet.Out} :
    condorcetStep s env c = .ok r ↔ Condorcet.step s env c = .ok r ∧
      ∀ choices, c = .propose choices → Fits env.block s.config.votingPeriod ∧
        ∀ d, s.config.minVotingPeriod = some d → Fits env.block d := by
  rw [condorcetStep, timed_ok, and_comm]
  refine and_congr_right fun _ => ?_
  cases c <;> simp [condorcetAdds]

/-- **C126.** Unstaking from cw20-stake. -/
theorem C126_cw20_stake_partial {w : Cw20Stake.World} {b : Block} {c : Cw20Stake.Call} {r : Cw20Stake.World × Cw20Stake.Out} :
    (clocked Cw20Stake.sys cw20StakeAdds).step w b c = .ok r ↔ Cw20Stake.step w b c = .ok r ∧
      ∀ a n d, c = .exec a (.unstake n) → w.c.config.unstakingDuration = some d → Fits b d := by
  show timed b (cw20StakeAdds w c) (Cw20Stake.step w b c) = .ok r ↔ _
  rw [timed_ok, and_comm]
  refine and_congr_right fun _ => ?_
  cases c with
  | exec a m =>
    cases m with
    | unstake n =>
      simp only [cw20StakeAdds, Option.mem_toList]
      exact ⟨fun h _ _ d _ hd => h d hd, fun h d hd => h a n d rfl hd⟩
    | _ => simp [cw20StakeAdds]
  | _ => simp [cw20StakeAdds]

/-- **C126.** Unstaking from dao-voting-token-staked. -/
theorem C126_token_staked_partial {w : TokenStaked.World} {b : Block} {c : TokenStaked.Call}
    {r : TokenStaked.World × TokenStaked.Out} :
    (clocked TokenStaked.sys tokenStakedAdds).step w b c = .ok r ↔ TokenStaked.step w b c = .ok r ∧
      ∀ a n d, c = .exec a (.unstake n) → w.c.unstakingDuration = some d → Fits b d := by
  show timed b (tokenStakedAdds w c) (TokenStaked.step w b c) = .ok r ↔ _
  rw [timed_ok, and_comm]
  refine and_congr_right fun _ => ?_
  cases c with
  | exec a m =>
    cases m with
    | unstake n =>
      simp only [tokenStakedAdds, Option.mem_toList]
      exact ⟨fun h _ _ d _ hd => h d hd, fun h d hd => h a n d rfl hd⟩
    | _ => simp [tokenStakedAdds]
  | _ => simp [tokenStakedAdds]

/-- **C126.** Unstaking from dao-voting-cw721-staked. -/
theorem C126_nft_staked_partial {w : NftStaked.World} {b : Block} {c : NftStaked.Call} {r : NftStaked.World × NftStaked.Out} :
    (clocked NftStaked.sys nftStakedAdds).step w b c = .ok r ↔ NftStaked.step w b c = .ok r ∧
      ∀ a ts d, c = .exec a (.unstake ts) → w.c.unstakingDuration = some d → Fits b d := by
  show timed b (nftStakedAdds w c) (NftStaked.step w b c) = .ok r ↔ _
  rw [timed_ok, and_comm]
  refine and_congr_right fun _ => ?_
  cases c with
  | exec a m =>
    cases m with
    | unstake n =>
      simp only [nftStakedAdds, Option.mem_toList]
      exact ⟨fun h _ _ d _ hd => h d hd, fun h d hd => h a n d rfl hd⟩
    | _ => simp [nftStakedAdds]
  | _ => simp [nftStakedAdds]

/-- **C126.** Unstaking from dao-voting-onft-staked. -/
theorem C126_onft_staked_partial {w : OnftStaked.World} {b : Block} {c : OnftStaked.Call}
    {r : OnftStaked.World × OnftStaked.Out} :
    (clocked OnftStaked.sys onftStakedAdds).step w b c = .ok r ↔ OnftStaked.step w b c = .ok r ∧
      ∀ a ts d, c = .exec a (.unstake ts) → w.n.c.unstakingDuration = some d → Fits b d := by
  show timed b (onftStakedAdds w c) (OnftStaked.step w b c) = .ok r ↔ _
  rw [timed_ok, and_comm]
  refine and_congr_right fun _ => ?_
  cases c with
  | exec a m =>
    cases m with
    | unstake n =>
      simp only [onftStakedAdds, Option.mem_toList]
      exact ⟨fun h _ _ d _ hd => h d hd, fun h d hd => h a n d rfl hd⟩
    | _ => simp [onftStakedAdds]
  | _ => simp [onftStakedAdds]

theorem clocked_run {S E C O : Type} {M : Sys S E C O} {adds : S → C → List Duration} {s s' : S} {b b' : Block}
    {log : List (Ev S E C O)} (h : (clocked M adds).Run s b log s' b') : M.Run s b log s' b' := by
  induction h with
  | refl => exact .refl
  | step _ hb hs ih => exact .step ih hb (timed_ok.1 hs).2

/-- **C126.** Checking the additions takes nothing away from what is proved about all histories: every history of the checked
program is one of the model. -/
theorem C126_safe {S E C O : Type} {M : Sys S E C O} {adds : S → C → List Duration} {s : S} {b : Block}
    {log : List (Ev S E C O)} (h : (clocked M adds).Reach s b log) : M.Reach s b log := by
  obtain ⟨b0, s0, hi, hr⟩ := h
  exact ⟨b0, s0, hi, clocked_run hr⟩

/-- **C126.** And if the durations in force fit the clock, what the model can do next the checked program can do. -/
theorem C126_live {S E C O : Type} {M : Sys S E C O} {adds : S → C → List Duration} {s s' : S} {b b' : Block}
    {log : List (Ev S E C O)} (h : M.Run s b log s' b')
    (hf : ∀ e ∈ log, ∀ d ∈ adds e.pre e.call, Fits (M.block e.env) d) : (clocked M adds).Run s b log s' b' := by
  induction h with
  | refl => exact .refl
  | @step s1 s2 b1 log env call out hr hb hs ih =>
    exact .step (ih fun e he => hf e (List.mem_cons_of_mem _ he)) hb
      (timed_ok.2 ⟨hf _ List.mem_cons_self, hs⟩)

/-- **C126.** Durations of a human scale fit. -/
theorem C126_reasonable {b : Block} {d : Duration} (hb : Ours b) (hd : Reasonable d) : Fits b d := by
  obtain ⟨h1, h2⟩ := hb
  cases d <;> simp only [Reasonable, Fits] at * <;> omega

/-- **C126.** An endless duration never fits. -/
theorem C126_endless {b : Block} {d : Duration} (hd : Endless d) : ¬ Fits b d := by
  cases d <;> simp only [Endless, Fits] at * <;> omega

/-! ## Timelocks -/

theorem plus64_ok {e e' : Expiration} {d : Duration} : plus64 e d = .ok e' ↔ FitsAfter e d ∧ e.add d = .ok e' := by
  cases e <;> cases d <;>
    simp only [plus64, mul64, bind_ok, add64_ok, Except.ok.injEq, FitsAfter, Expiration.add, NANOS, u64_eq, reduceCtorEq,
      and_false, true_and]
  · constructor
    · rintro ⟨_, ⟨h, rfl⟩, h2⟩; exact ⟨h, h2⟩
    · rintro ⟨h, h2⟩; exact ⟨_, ⟨h, rfl⟩, h2⟩
  · constructor
    · rintro ⟨n, hn, _, ⟨h, rfl⟩, h2⟩
      split at hn
      · cases hn; exact ⟨h, h2⟩
      · cases hn
    · rintro ⟨h, h2⟩
      exact ⟨_, by rw [if_pos (by omega)], _, ⟨h, rfl⟩, h2⟩

theorem plus64_eq {e : Expiration} {d : Duration} (h : FitsAfter e d) : plus64 e d = e.add d := by
  cases he : e.add d with
  | ok x => exact plus64_ok.2 ⟨h, he⟩
  | error x =>
    cases e <;> cases d <;> simp only [Expiration.add, reduceCtorEq] at he
    · exact he
    · exact he

/-- **C126.** The status of a proposal of dao-proposal-single is what the model has, provided its timelock fits the clock. -/
theorem C126_single_status_partial {p : Single.Proposal} {b : Block}
    (h : ∀ v, p.veto = some v → FitsAfter p.expiration v.timelockDuration) : singleStatus p b = p.currentStatus b := by
  unfold singleStatus Single.Proposal.currentStatus
  cases hv : p.veto with
  | none => rfl
  | some v => cases p.status <;> simp only [plus64_eq (h v hv)]

/-- **C126.** The same for dao-proposal-multiple. -/
theorem C126_multiple_status_partial {p : Multiple.Proposal} {b : Block}
    (h : ∀ v, p.veto = some v → FitsAfter p.expiration v.timelockDuration) : multipleStatus p b = p.currentStatus b := by
  unfold multipleStatus Multiple.Proposal.currentStatus
  cases hv : p.veto with
  | none => rfl
  | some v => cases p.status <;> simp only [plus64_eq (h v hv)]

/-! ## What the contracts accept and cannot work with -/

/-- 585 years, in seconds. -/
def ages : Duration := .time 18446744074

theorem ages_endless : Endless ages := by show (2 : Nat) ^ 64 ≤ 18446744074 * 1000000000; decide

/-- The configuration of the example DAO, with a voting period of 585 years. -/
def frozen : Single.Config := { WholeDao.Example.prop0.config with maxVotingPeriod := ages }

theorem frozen_step {s : Single.State} {env : Single.Env} (hs : Endless s.config.maxVotingPeriod) (g : Option Addr)
    (n : Nat) (m : List Nat) (v : Option (Vote × Option Nat)) (z : Bool) (r : Single.State × Single.Out) :
    singleStep s env (.propose g n m v z) ≠ .ok r := fun h =>
  C126_endless hs ((C126_single_partial.1 h).2 g n m v z rfl).1

/-- **C126, the full statement fails.** dao-proposal-single, dao-proposal-multiple and dao-proposal-condorcet accept a voting
period with which nobody can ever propose anything. -/
theorem C126_frozen_witness :
    (∃ c : Single.Config, Single.validateConfig c = .ok () ∧ ∀ s env g n m v z r, s.config = c →
      singleStep s env (.propose g n m v z) ≠ .ok r) ∧
    (∃ c : Multiple.Config, Multiple.validateConfig c = .ok () ∧ ∀ s env g n m v z r, s.config = c →
      multipleStep s env (.propose g n m v z) ≠ .ok r) ∧
    (∃ c : Condorcet.Config, c.intoChecked = .ok c ∧ ∀ s env m r, s.config = c →
      condorcetStep s env (.propose m) ≠ .ok r) := by
  refine ⟨⟨frozen, by decide +kernel, fun s env g n m v z r hs => ?_⟩,
    ⟨⟨.majority, ages, none, false, false, 1, true, none⟩, by decide +kernel, fun s env g n m v z r hs h => ?_⟩,
    ⟨⟨.majority, ages, none, true⟩, by decide +kernel, fun s env m r hs h => ?_⟩⟩
  · exact frozen_step (by rw [hs]; exact ages_endless) g n m v z r
  · have := ((C126_multiple_partial.1 h).2 g n m v z rfl).1
    rw [hs] at this
    exact C126_endless ages_endless this
  · have := ((C126_condorcet_partial.1 h).2 m rfl).1
    rw [hs] at this
    exact C126_endless ages_endless this

open WholeDao Spec.OwnRules in
theorem authorised_executes {S E C O : Type} {V : VotingModule S E C O} {decode : Nat → DaoCore.CosmosMsg}
    {log : List (WholeDao.Event S E C)} {d : DaoCore.Sub} (h : Spec.WholeDao.Authorised V decode log d) :
    ∃ e ∈ log, ∃ id p, Spec.WholeDao.Executes e id p := by
  induction h with
  | proposal h =>
    obtain ⟨later, before, id, p, n, hl, hx, _⟩ := h
    exact ⟨_, by rw [hl]; simp, id, p, hx⟩
  | nested _ _ ih => exact ih
  | voting _ ih => exact ih
  | module _ _ ih => exact ih
  | callback _ _ _ _ _ ih => exact ih

theorem single_idle {s s' : Single.State} {env : Single.Env} {c : Single.Call} {o : Single.Out} (hs : s.proposals = [])
    (hn : ∀ g n m v z, c ≠ .propose g n m v z) (h : Single.step s env c = .ok (s', o)) :
    s'.proposals = [] ∧ ∀ id f, c ≠ .execute id f := by
  have hg : ∀ id, s.proposals.get id = none := fun id => by rw [hs]; rfl
  cases c with
  | propose g n m v z => exact absurd rfl (hn g n m v z)
  | vote id v r =>
    simp only [Single.step, Single.execVote, hg, bind_ok, orErr_ok, reduceCtorEq, false_and, exists_false] at h
  | updateRationale id r =>
    simp only [Single.step, Single.execUpdateRationale, bind_ok, orErr_ok, Except.ok.injEq, Prod.mk.injEq] at h
    obtain ⟨_, _, rfl, _⟩ := h
    exact ⟨hs, by simp⟩
  | execute id f =>
    simp only [Single.step, Single.execExecute, hg, bind_ok, orErr_ok, reduceCtorEq, false_and, exists_false] at h
  | close id =>
    simp only [Single.step, Single.execClose, hg, bind_ok, orErr_ok, reduceCtorEq, false_and, exists_false] at h
  | veto id =>
    simp only [Single.step, Single.execVeto, hg, bind_ok, orErr_ok, reduceCtorEq, false_and, exists_false] at h
  | _ =>
    refine ⟨?_, by simp⟩
    simp only [Single.step, Single.execUpdateConfig, Single.execUpdatePolicy, Single.execAddProposalHook,
      Single.execRemoveProposalHook, Single.execAddVoteHook, Single.execRemoveVoteHook, Single.replyProposalHook,
      Single.replyVoteHook, Single.replyPreProposeFailed, bind_ok, require_ok, Except.ok.injEq, Prod.mk.injEq] at h
    grind

open WholeDao Spec.OwnRules in
/-- **C126.** A DAO founded with such a voting period does nothing, ever: nobody can propose, so the period cannot be changed
either, and the DAO never sends anything. -/
theorem C126_dao_frozen {S E C O : Type} {V : VotingModule S E C O} {decode : Nat → DaoCore.CosmosMsg}
    {caller : E → C → Option Addr} {toCall : Nat → Option (Said C)} (hV : Spec.WholeDao.Lawful V) {w0 w : WholeDao.World S}
    {b0 b : Block} {log : List (WholeDao.Event S E C)} (h : History V decode caller toCall w0 w b0 b log)
    (hc : (clocked (WholeDao.sys V decode) daoAdds).Run w0 b0 log w b) (hp : Endless w0.prop.config.maxVotingPeriod) :
    w.prop.proposals = [] ∧ w.prop.config = w0.prop.config ∧ ∀ e ∈ log, e.out.core = [] := by
  suffices key : w.prop.proposals = [] ∧ w.prop.config = w0.prop.config ∧
      ∀ e ∈ log, ∀ id p, ¬ Spec.WholeDao.Executes e id p by
    refine ⟨key.1, key.2.1, fun e he => ?_⟩
    have h1 := C80_sole hV h.init h.empty h.run h.steady h.sole e he
    cases hx : e.out.core with
    | nil => rfl
    | cons d ds =>
      obtain ⟨e', he', id, p, hex⟩ := authorised_executes (h1 d (by rw [hx]; exact List.mem_cons_self))
      exact absurd hex (key.2.2 e' he' id p)
  obtain ⟨hi, hemp, hrun, hst, hso, hfl⟩ := h
  clear hrun
  induction hc with
  | refl =>
    obtain ⟨_, _, _, env, c, i, out, _, _, hin⟩ := hi
    simp only [Single.instantiate, bind_ok, Except.ok.injEq, Prod.mk.injEq] at hin
    obtain ⟨_, _, hs, _⟩ := hin
    exact ⟨by rw [← hs], rfl, by simp⟩
  | @step s1 s2 b1 log env call out hr hb hs ih =>
    obtain ⟨ih1, ih2, ih3⟩ := ih (fun e he => hst e (List.mem_cons_of_mem _ he))
      (fun e he => hso e (List.mem_cons_of_mem _ he)) (fun later before e x hl => hfl (_ :: later) before e x (by rw [hl]; rfl))
    obtain ⟨hfit, hs'⟩ := timed_ok.1 hs
    replace hs' : WholeDao.step V decode s1 env call = .ok (s2, out) := hs'
    have hh : History V decode caller toCall w0 s2 b0 env.block (⟨s1, env, call, out, s2⟩ :: log) :=
      ⟨hi, hemp, .step (clocked_run hr) hb hs', hst, hso, hfl⟩
    have hnex : ∀ id p, ¬ Spec.WholeDao.Executes (⟨s1, env, call, out, s2⟩ : WholeDao.Event S E C) id p := by
      rintro id p ⟨_, hg⟩
      simp only [ih1] at hg
      cases hg
    have hall : ∀ e ∈ (⟨s1, env, call, out, s2⟩ : WholeDao.Event S E C) :: log, ∀ id p, ¬ Spec.WholeDao.Executes e id p := by
      intro e he
      rcases List.mem_cons.1 he with rfl | he
      · exact hnex
      · exact ih3 e he
    refine ⟨?_, ?_, hall⟩
    · cases call with
      | core m => rw [(core_effect hs').2.2.1]; exact ih1
      | vote g m => rw [(vote_effect hs').2.2.1]; exact ih1
      | prop m =>
        obtain ⟨⟨o, _, hps⟩, _⟩ := prop_effect (decode := decode) hs'
        refine (single_idle ih1 (fun g n x v z hm => ?_) hps).1
        subst hm
        exact C126_endless (by rw [ih2]; exact hp) (hfit s1.prop.config.maxVotingPeriod List.mem_cons_self)
    · rw [← ih2]
      by_contra hne
      obtain ⟨c, _, n, _, ha⟩ := OwnRules.C124_rules hV hh List.mem_cons_self (Or.inl hne)
      obtain ⟨e, he, id, p, hx⟩ := authorised_executes ha
      exact hall e he id p hx

/-- **C126, the full statement fails.** The staking contracts accept an unstaking period with which nobody can ever unstake. -/
theorem C126_locked_witness : ∃ d, Cw20Stake.validateDuration (some d) = .ok () ∧
    (∀ (w : Cw20Stake.World) b a n r, w.c.config.unstakingDuration = some d →
      (clocked Cw20Stake.sys cw20StakeAdds).step w b (.exec a (.unstake n)) ≠ .ok r) ∧
    (∀ (w : TokenStaked.World) b a n r, w.c.unstakingDuration = some d →
      (clocked TokenStaked.sys tokenStakedAdds).step w b (.exec a (.unstake n)) ≠ .ok r) ∧
    (∀ (w : NftStaked.World) b a ts r, w.c.unstakingDuration = some d →
      (clocked NftStaked.sys nftStakedAdds).step w b (.exec a (.unstake ts)) ≠ .ok r) ∧
    (∀ (w : OnftStaked.World) b a ts r, w.n.c.unstakingDuration = some d →
      (clocked OnftStaked.sys onftStakedAdds).step w b (.exec a (.unstake ts)) ≠ .ok r) := by
  refine ⟨ages, by decide +kernel, fun w b a n r hw h => ?_, fun w b a n r hw h => ?_, fun w b a n r hw h => ?_,
    fun w b a n r hw h => ?_⟩
  · exact C126_endless ages_endless ((C126_cw20_stake_partial.1 h).2 a n ages rfl hw)
  · exact C126_endless ages_endless ((C126_token_staked_partial.1 h).2 a n ages rfl hw)
  · exact C126_endless ages_endless ((C126_nft_staked_partial.1 h).2 a n ages rfl hw)
  · exact C126_endless ages_endless ((C126_onft_staked_partial.1 h).2 a n ages rfl hw)

theorem endless_after {t : Nat} {d : Duration} {e : Expiration} (hd : Endless d) : plus64 (.atTime t) d ≠ .ok e := by
  intro h
  have := (plus64_ok.1 h).1
  cases d <;> simp only [Endless, FitsAfter] at * 
  omega

theorem single_stuck {p : Single.Proposal} {v : VetoConfig} {b : Block} {t : Nat} (hs : p.status = .opened) (hv : p.veto = some v)
    (he : p.expiration = .atTime t) (hd : Endless v.timelockDuration) (hp : p.isPassed b = .ok true) (s : Status) :
    singleStatus p b ≠ .ok s := by
  intro h
  simp only [singleStatus, hs, hv, hp, he, ok_bind, if_true, bind_ok] at h
  obtain ⟨_, h1, _⟩ := h
  exact endless_after hd h1

theorem multiple_stuck {p : Multiple.Proposal} {v : VetoConfig} {b : Block} {t : Nat} (hs : p.status = .opened)
    (hv : p.veto = some v) (he : p.expiration = .atTime t) (hd : Endless v.timelockDuration) (hp : p.isPassed b = .ok true)
    (s : Status) : multipleStatus p b ≠ .ok s := by
  intro h
  simp only [multipleStatus, hs, hv, hp, he, ok_bind, if_true, bind_ok] at h
  obtain ⟨_, h1, _⟩ := h
  exact endless_after hd h1

/-- **C126, the full statement fails.** dao-proposal-single and dao-proposal-multiple accept a veto timelock with which a proposal
that has passed has no status: it can be neither executed nor vetoed nor closed, at any time. -/
theorem C126_timelock_witness : ∃ v : VetoConfig, v.validate (.time 604800) = .ok () ∧
    (∀ (p : Single.Proposal) (b : Block) (t : Nat), p.status = .opened → p.veto = some v → p.expiration = .atTime t →
      p.isPassed b = .ok true → ∀ s, singleStatus p b ≠ .ok s) ∧
    (∀ (p : Multiple.Proposal) (b : Block) (t : Nat), p.status = .opened → p.veto = some v → p.expiration = .atTime t →
      p.isPassed b = .ok true → ∀ s, multipleStatus p b ≠ .ok s) := by
  exact ⟨⟨ages, 7, false, false⟩, by decide +kernel, fun p b t hs hv he => single_stuck hs hv he ages_endless,
    fun p b t hs hv he => multiple_stuck hs hv he ages_endless⟩

end Verif.Clock
