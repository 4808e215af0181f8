import Verif.Spec.Farms
import Verif.Proofs.Cw20Stake
import Verif.Props.Hooks
import Verif.Props.ExternalRewards
/-!
# Lemmas about a staking contract and its reward contracts
-/

namespace Verif.Cw20Stake
open Verif

/-- Whose stake a call changes. -/
def stakerOf : Call → Option Addr
  | .send s _ .stake => some s
  | .exec s (.unstake _) => some s
  | _ => none

theorem hookMsgs_map (h : Hooks.HookList) (i : Bool) (a : Addr) (n : Nat) :
    (hookMsgs h i a n).map HookMsg.to = Hooks.items h :=
  Hooks.C60_notified_in_order h _ HookMsg.to (fun _ _ => rfl)

theorem hookMsgs_staker {h : Hooks.HookList} {i : Bool} {a : Addr} {n : Nat} :
    ∀ m ∈ hookMsgs h i a n, m.staker = a := by
  intro m hm
  simp only [hookMsgs, Hooks.prepareHooks, List.mem_map] at hm
  obtain ⟨_, _, rfl⟩ := hm
  rfl

theorem total_lt {w : World} {h : Nat} (hi : Inv w h) : w.c.total < U128 := by
  have h1 := hi.pool
  have h2 := hi.covered
  have h3 := hi.supply
  have h4 := getD0_le_total w.ledger w.self
  simp only [Spec.Stake.tokens] at h2
  omega

/-- What a call does to the stakes. -/
theorem stakes_step {w w' : World} {b : Block} {c : Call} {o : Out} {h : Nat} (hi : Inv w h)
    (hs : step w b c = .ok (w', o)) :
    (∀ s, stakerOf c = some s →
      w'.c.staked = w.c.staked.save s (w'.c.stakedOf s) b.height ∧
      w'.c.stakedTotal = w.c.stakedTotal.save () (w.c.total - w.c.stakedOf s + w'.c.stakedOf s) b.height ∧
      w.c.total - w.c.stakedOf s + w'.c.stakedOf s < U128 ∧
      o.hooks.map HookMsg.to = Hooks.items w.c.hooks ∧ ∀ m ∈ o.hooks, m.staker = s) ∧
    (stakerOf c = none → w'.c.staked = w.c.staked ∧ w'.c.stakedTotal = w.c.stakedTotal ∧ o.hooks = []) := by
  have hlt := total_lt hi
  cases step_effect hs with
  | stake a n k l ha hl hk hst =>
    refine ⟨fun s hs => ?_, fun h => by simp [stakerOf] at h⟩
    simp only [stakerOf, Option.some.injEq] at hs
    subst hs
    have hle := stakedOf_le hi a
    obtain ⟨k', hk', _, h2, _, _, _⟩ := stake_inv hst
    rw [hk] at hk'; cases hk'
    have e : State.stakedOf { w.c with staked := w.c.staked.save a (w.c.stakedOf a + k) b.height
                                       stakedTotal := w.c.stakedTotal.save () (w.c.total + k) b.height
                                       balance := w.c.balance + n } a = w.c.stakedOf a + k := by
      simp [State.stakedOf, Snap.get_save]
    have e2 : w.c.total - w.c.stakedOf a + (w.c.stakedOf a + k) = w.c.total + k := by omega
    simp only [e, e2]
    exact ⟨trivial, trivial, h2, hookMsgs_map _ _ _ _, hookMsgs_staker⟩
  | payout a m n l out ha hn ht hm hsa hb hd hl ho hh =>
    refine ⟨fun s hs => ?_, fun h => by simp [stakerOf] at h⟩
    simp only [stakerOf, Option.some.injEq] at hs
    subst hs
    have hle := stakedOf_le hi a
    have e : State.stakedOf (unstaked w.c b a m n) a = w.c.stakedOf a - m := by
      simp [unstaked, State.stakedOf, Snap.get_save]
    have e2 : w.c.total - w.c.stakedOf a + (w.c.stakedOf a - m) = w.c.total - m := by omega
    simp only [e, e2, hh]
    exact ⟨rfl, rfl, by omega, hookMsgs_map _ _ _ _, hookMsgs_staker⟩
  | unbond a m n d out ha hn ht hm hsa hb hd hlen ho hh =>
    refine ⟨fun s hs => ?_, fun h => by simp [stakerOf] at h⟩
    simp only [stakerOf, Option.some.injEq] at hs
    subst hs
    have hle := stakedOf_le hi a
    have e : State.stakedOf { unstaked w.c b a m n with claims := w.c.claims.create a n (d.after b) } a =
        w.c.stakedOf a - m := by
      simp [unstaked, State.stakedOf, Snap.get_save]
    have e2 : w.c.total - w.c.stakedOf a + (w.c.stakedOf a - m) = w.c.total - m := by omega
    simp only [e, e2, hh]
    exact ⟨rfl, rfl, by omega, hookMsgs_map _ _ _ _, hookMsgs_staker⟩
  | fund => exact ⟨fun s hs => by simp [stakerOf] at hs, fun _ => ⟨rfl, rfl, rfl⟩⟩
  | claim => exact ⟨fun s hs => by simp [stakerOf] at hs, fun _ => ⟨rfl, rfl, rfl⟩⟩
  | admin a m c hsm hm =>
    refine ⟨fun s hs => ?_, fun _ => ⟨hsm.staked, hsm.total, rfl⟩⟩
    cases m with
    | unstake n => exact absurd rfl (hm.1 n)
    | _ => simp [stakerOf] at hs
  | transfer => exact ⟨fun s hs => by simp [stakerOf] at hs, fun _ => ⟨rfl, rfl, rfl⟩⟩
  | mint => exact ⟨fun s hs => by simp [stakerOf] at hs, fun _ => ⟨rfl, rfl, rfl⟩⟩
  | burn => exact ⟨fun s hs => by simp [stakerOf] at hs, fun _ => ⟨rfl, rfl, rfl⟩⟩

/-- No receiver is registered twice. -/
theorem hooks_step {w w' : World} {b : Block} {c : Call} {o : Out} (hn : (Hooks.items w.c.hooks).Nodup)
    (hs : step w b c = .ok (w', o)) : (Hooks.items w'.c.hooks).Nodup := by
  have hs0 := hs
  cases step_effect hs with
  | admin a m c hsm hm =>
    simp only [step, bind_ok, require_ok, decide_eq_true_eq] at hs0
    obtain ⟨_, _, ⟨c1, o1⟩, he, hset⟩ := hs0
    have hc : c = c1 := by
      obtain ⟨_, ⟨_, h⟩ | ⟨x, y, l, _, _, h⟩⟩ := settle_inv hset
      · exact congrArg World.c h
      · exact congrArg World.c h
    subst hc
    cases m with
    | unstake n => exact absurd rfl (hm.1 n)
    | claim => exact absurd rfl hm.2
    | receive x n r =>
      simp only [exec, execReceive, bind_ok, require_ok, decide_eq_true_eq] at he
      obtain ⟨_, _, he⟩ := he
      cases r with
      | stake =>
        obtain ⟨_, _, _, _, _, rfl, _⟩ := stake_inv he
        exact hn
      | fund =>
        simp only [execFund, bind_ok, add128_ok, Except.ok.injEq, Prod.mk.injEq] at he
        obtain ⟨_, _, rfl, _⟩ := he
        exact hn
    | updateConfig d =>
      simp only [exec, execUpdateConfig, bind_ok, Except.ok.injEq, Prod.mk.injEq] at he
      obtain ⟨_, _, _, _, rfl, _⟩ := he
      exact hn
    | addHook x =>
      simp only [exec, bind_ok, Except.ok.injEq, Prod.mk.injEq] at he
      obtain ⟨_, _, _, h, rfl, _⟩ := he
      exact Single.addHook_nodup hn h
    | removeHook x =>
      simp only [exec, bind_ok, Except.ok.injEq, Prod.mk.injEq] at he
      obtain ⟨_, _, _, h, rfl, _⟩ := he
      exact Single.removeHook_nodup hn h
    | updateOwnership x =>
      simp only [exec, bind_ok, Except.ok.injEq, Prod.mk.injEq] at he
      obtain ⟨_, _, rfl, _⟩ := he
      exact hn
  | _ => exact hn

/-- The token of the contract does not change. -/
theorem token_step {w w' : World} {b : Block} {c : Call} {o : Out} (hs : step w b c = .ok (w', o)) :
    w'.c.config.token = w.c.config.token ∧ w'.self = w.self := by
  cases step_effect hs with
  | admin a m c hsm hm => exact ⟨hsm.token, rfl⟩
  | _ => exact ⟨rfl, rfl⟩

end Verif.Cw20Stake

namespace Verif.Farms
open Verif Verif.Spec.Farms

theorem staker_stake (c : Cw20Stake.Call) : staker (.stake c) = Cw20Stake.stakerOf c := by
  cases c with
  | exec s m => cases m <;> rfl
  | send s n m => cases m <;> rfl
  | _ => rfl

/-! ## The movements of tokens -/

/-- Who makes a movement. -/
def Move.source : Move → Option Addr
  | .transfer s _ _ => some s
  | .mint _ _ => none
  | .burn s _ => some s

/-- A movement as a call in the model of a reward contract. -/
def Move.reward : Move → ExternalRewards.Call
  | .transfer s t n => .transfer s t n
  | .mint t n => .mint t n
  | .burn s n => .burn s n

/-- A movement as a call in the model of the staking contract. -/
def Move.stake : Move → Cw20Stake.Call
  | .transfer s t n => .transfer s t n
  | .mint t n => .mint t n
  | .burn s n => .burn s n

/-- The movement of the staked token in a call of the staking contract or its token. -/
def stakeMove (self : Addr) (o : Cw20Stake.Out) : Cw20Stake.Call → Option Move
  | .exec _ _ => o.pay.map (fun p => .transfer self p.1 p.2)
  | .send s n _ => some (.transfer s self n)
  | .transfer s t n => some (.transfer s t n)
  | .mint t n => some (.mint t n)
  | .burn s n => some (.burn s n)

/-- The movement of reward tokens in a call of a reward contract. -/
def poolMove (a : Addr) (pay : ExternalRewards.Pay) : PoolCall → Option Move
  | .exec _ _ => pay.map (fun p => .transfer a p.1 p.2)
  | .fund s n => some (.transfer s a n)

/-- The movement of the token `d` in an event. -/
def moved (w : World) (d : Asset) (out : Out) : Call → Option Move
  | .stake c => if d = w.staked then stakeMove w.stake.self out.stake c else none
  | .token x m => if x = d then some m else none
  | .create _ _ _ _ => none
  | .pool a c =>
    match w.pools.get a with
    | none => none
    | some p => if p.asset = d then poolMove a out.pay c else none

theorem ledger_set (w : World) (d x : Asset) (l : Ledger Addr) :
    (w.setLedger d l).ledger x = if x = d then l else w.ledger x := by
  unfold World.setLedger
  by_cases hd : d = w.staked
  · rw [if_pos hd]
    unfold World.ledger
    simp only [World.staked] at hd ⊢
    rw [hd]
    by_cases hx : x = .cw20 w.stake.c.config.token
    · simp [hx]
    · simp [hx]
  · rw [if_neg hd]
    unfold World.ledger
    simp only [World.staked] at hd ⊢
    by_cases hx : x = d
    · subst hx
      simp [hd]
    · simp only [hx, if_false, AMap.get_set_ne _ _ (Ne.symm hx)]
      rfl

theorem setLedger_pools (w : World) (d : Asset) (l : Ledger Addr) : (w.setLedger d l).pools = w.pools := by
  unfold World.setLedger; split <;> rfl

theorem setLedger_c (w : World) (d : Asset) (l : Ledger Addr) :
    (w.setLedger d l).stake.c = w.stake.c ∧ (w.setLedger d l).stake.self = w.stake.self := by
  unfold World.setLedger; split <;> exact ⟨rfl, rfl⟩

/-- The movement of the staked token. -/
theorem stake_moved {s s' : Cw20Stake.World} {b : Block} {c : Cw20Stake.Call} {o : Cw20Stake.Out}
    (h : Cw20Stake.step s b c = .ok (s', o)) :
    match stakeMove s.self o c with
    | some m => m.apply s.ledger = .ok s'.ledger
    | none => s'.ledger = s.ledger := by
  cases Cw20Stake.step_effect h with
  | stake a n k l ha hl => exact hl
  | fund a n l ha hl => exact hl
  | payout a m n l out ha _ _ _ _ _ _ hl ho => simp only [stakeMove, ho, Option.map_some]; exact hl
  | unbond a m n d out ha _ _ _ _ _ _ _ ho => simp only [stakeMove, ho, Option.map_none]
  | claim a n c l ha _ _ hl => simp only [stakeMove, Option.map_some]; exact hl
  | admin => rfl
  | transfer a d n l ha hl => exact hl
  | mint d n l hs hl => simp only [stakeMove, Move.apply, bind_ok, require_ok, decide_eq_true_eq]; exact ⟨(), hs, hl⟩
  | burn a n l ha hl => exact hl

/-- The movement of reward tokens. -/
theorem pool_moved {p p' : ExternalRewards.World} {b : Block} {c : PoolCall} {pay : ExternalRewards.Pay}
    (h : ExternalRewards.step p b c.call = .ok (p', pay)) :
    match poolMove p.self pay c with
    | some m => m.apply p.ledger = .ok p'.ledger
    | none => p'.ledger = p.ledger := by
  have h' : ExternalRewards.sys.step p b c.call = .ok (p', pay) := by
    cases c <;> simp only [ExternalRewards.sys, PoolCall.call, require, if_true, ok_bind] at h ⊢ <;> exact h
  cases c with
  | exec s m =>
    generalize hc : PoolCall.call (.exec s m) = call at h'
    cases ExternalRewards.step_effect h' with
    | other hsr self stakes totals hc' =>
      rcases hc' with ⟨s, m, _, hm, hl⟩ | ⟨s, t, n, he, _⟩ | ⟨t, n, he, _⟩ | ⟨s, n, he, _⟩
      · exact hl
      all_goals (rw [← hc] at he; cases he)
    | claim ha hu h0 hl => exact hl
    | fund => cases hc
    | stake => cases hc
  | fund s n =>
    generalize hc : PoolCall.call (.fund s n) = call at h'
    cases ExternalRewards.step_effect h' with
    | other hsr self stakes totals hc' =>
      simp only [PoolCall.call] at hc
      subst hc
      rcases hc' with ⟨s, m, he, hm, hl⟩ | ⟨s, t, n, he, _⟩ | ⟨t, n, he, _⟩ | ⟨s, n, he, _⟩ <;> cases he
    | claim => cases hc
    | fund ha ho hu hf hd hr hl =>
      cases hc
      exact hl
    | stake => cases hc

theorem staked_stake {w : World} {s : Cw20Stake.World} {ps : AMap Addr Pool} {b : Block} {c : Cw20Stake.Call}
    {o : Cw20Stake.Out} (hs : Cw20Stake.step w.stake b c = .ok (s, o)) :
    ({ w with stake := s, pools := ps } : World).staked = w.staked := by
  simp only [World.staked, (Cw20Stake.token_step hs).1]

/-- The successful transactions, with their effects. -/
inductive Effect (w : World) (b : Block) : Call → World → Out → Prop where
  | stake {c : Cw20Stake.Call} {s : Cw20Stake.World} {o : Cw20Stake.Out} {ps : AMap Addr Pool}
      (hf : stakeFree w c) (hs : Cw20Stake.step w.stake b c = .ok (s, o))
      (hd : deliver s.self b (stakes s b) o.hooks w.pools = .ok ps) :
      Effect w b (.stake c) { w with stake := s, pools := ps } { stake := o }
  | token {d : Asset} {m : Move} {l : Ledger Addr} (hd : d ≠ w.staked) (hf : m.free w)
      (hl : m.apply (w.ledger d) = .ok l) : Effect w b (.token d m) (w.setLedger d l) {}
  | create {a : Addr} {owner : Option Addr} {d : Asset} {n : Nat} {c : ExternalRewards.State} (ho : outside w a)
      (hc : ExternalRewards.instantiate owner w.stake.self d.denom n = .ok c) :
      Effect w b (.create a owner d n) { w with pools := w.pools.set a ⟨c, d⟩ } {}
  | pool {a : Addr} {c : PoolCall} {p : Pool} {q : ExternalRewards.World} {pay : ExternalRewards.Pay}
      (hp : w.pools.get a = some p) (ho : outside w c.sender)
      (hs : ExternalRewards.step (poolWorld w a p) b c.call = .ok (q, pay)) :
      Effect w b (.pool a c)
        (({ w with pools := w.pools.set a { p with c := q.c } }).setLedger p.asset q.ledger) { pay := pay }

theorem step_effect {w w' : World} {b : Block} {call : Call} {out : Out} (h : step w b call = .ok (w', out)) :
    Effect w b call w' out := by
  cases call with
  | stake c =>
    simp only [step, bind_ok, require_ok, Prod.exists, Except.ok.injEq, Prod.mk.injEq] at h
    obtain ⟨_, hf, s, o, hs, ps, hd, rfl, rfl⟩ := h
    exact .stake hf hs hd
  | token d m =>
    simp only [step, bind_ok, require_ok, decide_eq_true_eq, Except.ok.injEq, Prod.mk.injEq] at h
    obtain ⟨_, hd, _, hf, l, hl, rfl, rfl⟩ := h
    exact .token hd hf hl
  | create a owner d n =>
    simp only [step, bind_ok, require_ok, Except.ok.injEq, Prod.mk.injEq] at h
    obtain ⟨_, ho, c, hc, rfl, rfl⟩ := h
    exact .create ho hc
  | pool a c =>
    simp only [step, bind_ok, require_ok, orErr_ok, Prod.exists, Except.ok.injEq, Prod.mk.injEq] at h
    obtain ⟨p, hp, _, ho, q, pay, hs, rfl, rfl⟩ := h
    exact .pool hp ho hs

/-- A reward contract stays where it is and sees only its own changes. -/
theorem own_step {p q : ExternalRewards.World} {b : Block} {c : PoolCall} {pay : ExternalRewards.Pay}
    (h : ExternalRewards.step p b c.call = .ok (q, pay)) :
    ExternalRewards.sys.step p b c.call = .ok (q, pay) ∧ q.self = p.self ∧ q.stakes = p.stakes ∧ q.totals = p.totals ∧
      q.c.staking = p.c.staking := by
  have h' : ExternalRewards.sys.step p b c.call = .ok (q, pay) := by
    cases c <;> simp only [ExternalRewards.sys, PoolCall.call, require, if_true, ok_bind] at h ⊢ <;> exact h
  refine ⟨h', ?_⟩
  generalize hc : PoolCall.call c = call at h'
  cases ExternalRewards.step_effect h' with
  | other hsr self stakes totals hc' => exact ⟨self, stakes, totals, hsr.staking⟩
  | claim => exact ⟨rfl, rfl, rfl, rfl⟩
  | fund => exact ⟨rfl, rfl, rfl, rfl⟩
  | stake => cases c <;> cases hc

/-- The balances of every token after a transaction. -/
theorem moved_ledger {w w' : World} {b : Block} {call : Call} {out : Out} (h : step w b call = .ok (w', out))
    (d : Asset) :
    match moved w d out call with
    | some m => m.apply (w.ledger d) = .ok (w'.ledger d)
    | none => w'.ledger d = w.ledger d := by
  cases step_effect h with
  | stake hf hs hd =>
    rename_i c s o ps
    simp only [moved]
    have e : ({ w with stake := s, pools := ps } : World).ledger d = if d = w.staked then s.ledger else w.ledger d := by
      unfold World.ledger
      rw [staked_stake hs]
      by_cases hx : d = w.staked <;> simp [hx]
    rw [e]
    by_cases hx : d = w.staked
    · have hm := stake_moved hs
      have e2 : w.ledger d = w.stake.ledger := by simp [World.ledger, hx]
      rw [e2]
      simp only [hx, if_true]
      exact hm
    · simp only [hx, if_false]
  | token hd hf hl =>
    rename_i x m l
    simp only [moved]
    rw [ledger_set]
    by_cases hx : x = d
    · subst hx
      simp only [if_true]; exact hl
    · simp only [hx, Ne.symm hx, if_false]
  | create ho hc => rfl
  | pool hp ho hs =>
    rename_i a c p q pay
    simp only [moved, hp]
    rw [ledger_set]
    by_cases hx : p.asset = d
    · subst hx
      simp only [if_true]
      exact pool_moved hs
    · simp only [hx, Ne.symm hx, if_false]
      rfl

/-- Who moves tokens. -/
theorem moved_source {w w' : World} {b : Block} {call : Call} {out : Out} (h : step w b call = .ok (w', out))
    {d : Asset} {m : Move} {s : Addr} (hm : moved w d out call = some m) (hs : m.source = some s) :
    outside w s ∨ (s = w.stake.self ∧ ∃ c, call = .stake c) ∨ ∃ c, call = .pool s c := by
  cases step_effect h with
  | stake hf hst hd =>
    rename_i c st o ps
    simp only [moved] at hm
    split at hm
    · cases c with
      | exec x y =>
        simp only [stakeMove, Option.map_eq_some_iff] at hm
        obtain ⟨p, _, rfl⟩ := hm
        simp only [Move.source, Option.some.injEq] at hs
        exact Or.inr (Or.inl ⟨hs.symm, _, rfl⟩)
      | send x n y =>
        simp only [stakeMove, Option.some.injEq] at hm
        subst hm
        simp only [Move.source, Option.some.injEq] at hs
        subst hs
        exact Or.inl hf
      | transfer x y n =>
        simp only [stakeMove, Option.some.injEq] at hm
        subst hm
        simp only [Move.source, Option.some.injEq] at hs
        subst hs
        exact Or.inl hf
      | mint y n =>
        simp only [stakeMove, Option.some.injEq] at hm
        subst hm
        simp [Move.source] at hs
      | burn x n =>
        simp only [stakeMove, Option.some.injEq] at hm
        subst hm
        simp only [Move.source, Option.some.injEq] at hs
        subst hs
        exact Or.inl hf
    · cases hm
  | token hd hf hl =>
    rename_i x0 m0 l0
    simp only [moved] at hm
    split at hm
    · simp only [Option.some.injEq] at hm
      subst hm
      cases m0 with
      | mint y n => simp [Move.source] at hs
      | transfer x y n =>
        simp only [Move.source, Option.some.injEq] at hs
        subst hs
        exact Or.inl hf
      | burn x n =>
        simp only [Move.source, Option.some.injEq] at hs
        subst hs
        exact Or.inl hf
    · cases hm
  | create ho hc => cases hm
  | pool hp ho hst =>
    rename_i a c p q pay
    simp only [moved, hp] at hm
    split at hm
    · cases c with
      | exec x y =>
        simp only [poolMove, Option.map_eq_some_iff] at hm
        obtain ⟨y, _, rfl⟩ := hm
        simp only [Move.source, Option.some.injEq] at hs
        subst hs
        exact Or.inr (Or.inr ⟨_, rfl⟩)
      | fund x n =>
        simp only [poolMove, Option.some.injEq] at hm
        subst hm
        simp only [Move.source, Option.some.injEq] at hs
        subst hs
        exact Or.inl ho
    · cases hm

theorem apply_total {l l' : Ledger Addr} {m : Move} (h : m.apply l = .ok l') (hl : total l < U128) : total l' < U128 := by
  cases m with
  | transfer s t n => simp only [Move.apply] at h; rw [Ledger.move_total h]; exact hl
  | mint t n =>
    simp only [Move.apply, bind_ok, require_ok, decide_eq_true_eq] at h
    obtain ⟨_, h1, h2⟩ := h
    rw [Ledger.credit_total h2]; exact h1
  | burn s n =>
    simp only [Move.apply] at h
    have := Ledger.debit_total h
    omega

/-! ## The hook messages -/

/-- A list of hook messages to different receivers leaves the reward contracts that are not among them alone, and each of
the others executes its message once. -/
theorem deliver_inv {staking : Addr} {b : Block} {k : ExternalRewards.Stakes} {ms : List Cw20Stake.HookMsg}
    {ps ps' : AMap Addr Pool} (h : deliver staking b k ms ps = .ok ps') (hn : (ms.map Cw20Stake.HookMsg.to).Nodup)
    (a : Addr) :
    (a ∉ ms.map Cw20Stake.HookMsg.to → ps'.get a = ps.get a) ∧
    (∀ m ∈ ms, m.to = a → ∀ p, ps.get a = some p →
      ∃ c o, ExternalRewards.exec p.c b k staking (.stakeChangeHook m.staker) = .ok (c, o) ∧
        ps'.get a = some { p with c := c }) ∧
    (ps.get a = none → ps'.get a = none) := by
  induction ms generalizing ps with
  | nil =>
    simp only [deliver, Except.ok.injEq] at h
    subst h
    exact ⟨fun _ => rfl, fun m hm => by simp at hm, fun h => h⟩
  | cons x rest ih =>
    simp only [List.map_cons, List.nodup_cons] at hn
    simp only [deliver] at h
    split at h
    · rename_i hx
      obtain ⟨h1, h2, h3⟩ := ih h hn.2
      refine ⟨fun ha => h1 (fun hc => ha (by simp [List.map_cons, hc])), fun m hm hto p hp => ?_, h3⟩
      rcases List.mem_cons.1 hm with rfl | hm
      · rw [hto] at hx; rw [hx] at hp; cases hp
      · exact h2 m hm hto p hp
    · rename_i p hx
      simp only [bind_ok, Prod.exists] at h
      obtain ⟨c, o, he, h⟩ := h
      obtain ⟨h1, h2, h3⟩ := ih h hn.2
      by_cases hxa : x.to = a
      · subst hxa
        have hg := h1 hn.1
        rw [AMap.get_set_self] at hg
        refine ⟨fun ha => absurd (by simp) ha, fun m hm hto q hq => ?_, fun hnone => by rw [hx] at hnone; cases hnone⟩
        rw [hx] at hq; cases hq
        rcases List.mem_cons.1 hm with rfl | hm
        · exact ⟨c, o, he, hg⟩
        · exact absurd (List.mem_map.2 ⟨m, hm, hto⟩) hn.1
      · rw [AMap.get_set_ne _ _ hxa] at h1 h2 h3
        refine ⟨fun ha => h1 (fun hc => ha (by simp [List.map_cons, hc])), fun m hm hto q hq => ?_, h3⟩
        rcases List.mem_cons.1 hm with rfl | hm
        · exact absurd hto hxa
        · exact h2 m hm hto q hq

/-- Messages that all succeed on their own are delivered. -/
theorem deliver_ok {staking : Addr} {b : Block} {k : ExternalRewards.Stakes} {ms : List Cw20Stake.HookMsg}
    {ps : AMap Addr Pool} (hn : (ms.map Cw20Stake.HookMsg.to).Nodup)
    (hok : ∀ m ∈ ms, ∀ p, ps.get m.to = some p →
      ∃ c o, ExternalRewards.exec p.c b k staking (.stakeChangeHook m.staker) = .ok (c, o)) :
    ∃ ps', deliver staking b k ms ps = .ok ps' := by
  induction ms generalizing ps with
  | nil => exact ⟨ps, rfl⟩
  | cons x rest ih =>
    simp only [List.map_cons, List.nodup_cons] at hn
    simp only [deliver]
    cases hx : ps.get x.to with
    | none => exact ih hn.2 (fun m hm p hp => hok m (List.mem_cons_of_mem _ hm) p hp)
    | some p =>
      obtain ⟨c, o, he⟩ := hok x (List.mem_cons_self ..) p hx
      simp only [he, ok_bind]
      refine ih hn.2 (fun m hm q hq => ?_)
      have hne : x.to ≠ m.to := fun e => hn.1 (List.mem_map.2 ⟨m, hm, e.symm⟩)
      rw [AMap.get_set_ne _ _ hne] at hq
      exact hok m (List.mem_cons_of_mem _ hm) q hq

/-! ## The staking contract's own history -/

/-- What happens to the staking contract and its token in an event. -/
def stakeEvents (e : Event) : List (Ev Cw20Stake.World Block Cw20Stake.Call Cw20Stake.Out) :=
  match e.call with
  | .stake c => [⟨e.pre.stake, e.env, c, e.out.stake, e.post.stake⟩]
  | c =>
    match moved e.pre e.pre.staked e.out c with
    | some m => [⟨e.pre.stake, e.env, m.stake, {}, e.post.stake⟩]
    | none => []

/-- The history of the staking contract and its token. -/
def stakeLog : List Event → List (Ev Cw20Stake.World Block Cw20Stake.Call Cw20Stake.Out)
  | [] => []
  | e :: log => stakeEvents e ++ stakeLog log

/-- A movement made by somebody else is a step of the staking contract's world. -/
theorem move_stake {s : Cw20Stake.World} {b : Block} {m : Move} {l : Ledger Addr} (h : m.apply s.ledger = .ok l)
    (hs : ∀ x, m.source = some x → x ≠ s.self) :
    Cw20Stake.step s b m.stake = .ok ({ s with ledger := l }, {}) := by
  cases m with
  | transfer x y n =>
    have hx := hs x rfl
    simp only [Move.apply] at h
    simp only [Move.stake, Cw20Stake.step, require, hx, ne_eq, not_false_eq_true, decide_true, if_true, ok_bind, h]
  | mint y n =>
    simp only [Move.apply, bind_ok, require_ok, decide_eq_true_eq] at h
    obtain ⟨_, h1, h2⟩ := h
    simp only [Move.stake, Cw20Stake.step, require, h1, decide_true, if_true, ok_bind, h2]
  | burn x n =>
    have hx := hs x rfl
    simp only [Move.apply] at h
    simp only [Move.stake, Cw20Stake.step, require, hx, ne_eq, not_false_eq_true, decide_true, if_true, ok_bind, h]

theorem move_reward {p : ExternalRewards.World} {b : Block} {m : Move} {l : Ledger Addr} (h : m.apply p.ledger = .ok l)
    (hs : ∀ x, m.source = some x → x ≠ p.self) :
    ExternalRewards.sys.step p b m.reward = .ok ({ p with ledger := l }, none) := by
  cases m with
  | transfer x y n =>
    have hx := hs x rfl
    simp only [Move.apply] at h
    simp only [Move.reward, ExternalRewards.sys, ExternalRewards.step, require, hx, ne_eq, not_false_eq_true, decide_true,
      if_true, ok_bind, h]
  | mint y n =>
    simp only [Move.apply, bind_ok, require_ok, decide_eq_true_eq] at h
    obtain ⟨_, h1, h2⟩ := h
    simp only [Move.reward, ExternalRewards.sys, ExternalRewards.step, require, h1, decide_true, if_true, ok_bind, h2]
  | burn x n =>
    have hx := hs x rfl
    simp only [Move.apply] at h
    simp only [Move.reward, ExternalRewards.sys, ExternalRewards.step, require, hx, ne_eq, not_false_eq_true, decide_true,
      if_true, ok_bind, h]

theorem outside_iff {w : World} {s : Addr} : outside w s = true ↔ s ≠ w.stake.self ∧ w.pools.get s = none := by
  simp [outside]

/-- Transactions elsewhere change at most the balances of the staked token. -/
theorem stake_same {w w' : World} {b : Block} {call : Call} {out : Out} (h : step w b call = .ok (w', out))
    (hc : ∀ c, call ≠ .stake c) :
    w'.stake = { w.stake with ledger := w'.ledger w.staked } := by
  have key : ∀ (v : World) (d : Asset) (l : Ledger Addr), (v.setLedger d l).stake =
      { v.stake with ledger := (v.setLedger d l).ledger v.staked } := by
    intro v d l
    rw [ledger_set]
    unfold World.setLedger
    by_cases hd : d = v.staked
    · simp [hd]
    · simp [hd, Ne.symm hd, World.ledger]
  cases step_effect h with
  | stake hf hs hd => exact absurd rfl (hc _)
  | token hd hf hl => exact key _ _ _
  | create ho hcr => simp [World.ledger, World.staked]
  | pool hp ho hs =>
    rename_i a c p q pay
    exact key _ _ _

/-- An event is a run of the staking contract's world. -/
theorem stake_run {w w' : World} {b b1 : Block} {call : Call} {out : Out} (h : step w b call = .ok (w', out))
    (haway : w.pools.get w.stake.self = none) (hb : b1.le b) :
    ∃ b2, b2.le b ∧ Cw20Stake.sys.Run w.stake b1 (stakeEvents ⟨w, b, call, out, w'⟩) w'.stake b2 := by
  by_cases hc : ∃ c, call = .stake c
  · obtain ⟨c, rfl⟩ := hc
    cases step_effect h with
    | stake hf hs hd => exact ⟨b, Block.le_refl _, .step (env := b) .refl hb hs⟩
  · have hc' : ∀ c, call ≠ .stake c := fun c e => hc ⟨c, e⟩
    have hsame := stake_same h hc'
    have hml := moved_ledger h w.staked
    have hl : w.ledger w.staked = w.stake.ledger := by simp [World.ledger]
    have he : stakeEvents ⟨w, b, call, out, w'⟩ = match moved w w.staked out call with
        | some m => [⟨w.stake, b, m.stake, {}, w'.stake⟩]
        | none => [] := by
      cases call with
      | stake c => exact absurd rfl (hc' c)
      | _ => rfl
    rw [he]
    cases hm : moved w w.staked out call with
    | none =>
      simp only [hm] at hml
      rw [hml, hl] at hsame
      refine ⟨b1, hb, ?_⟩
      rw [hsame]
      exact .refl
    | some m =>
      simp only [hm] at hml
      rw [hl] at hml
      have := move_stake (s := w.stake) (b := b) hml (fun x hx => by
        rcases moved_source h hm hx with ho | ⟨rfl, c, rfl⟩ | ⟨c, rfl⟩
        · exact (outside_iff.1 ho).1
        · exact absurd rfl (hc' c)
        · intro e
          cases step_effect h with
          | pool hp ho hs => rw [e, haway] at hp; cases hp)
      rw [← hsame] at this
      exact ⟨b, Block.le_refl _, .step (env := b) .refl hb this⟩

/-- What holds in every state of a history. -/
structure Good (w : World) (h : Nat) : Prop where
  stake : Cw20Stake.Inv w.stake h
  hooks : (Hooks.items w.stake.c.hooks).Nodup
  supply : ∀ d, total (w.ledger d) < U128
  away : w.pools.get w.stake.self = none
  staking : ∀ a p, w.pools.get a = some p → p.c.staking = w.stake.self

/-- After a stake change every reward contract is the one it was, brought up to date if it is registered. -/
theorem pools_stake {w w' : World} {b : Block} {c : Cw20Stake.Call} {out : Out} {h : Nat} (hg : Good w h)
    (hs : step w b (.stake c) = .ok (w', out)) (a : Addr) :
    (w.pools.get a = none → w'.pools.get a = none) ∧
    (∀ p, w.pools.get a = some p →
      (Cw20Stake.stakerOf c = none ∨ a ∉ Hooks.items w.stake.c.hooks → w'.pools.get a = some p) ∧
      (∀ s, Cw20Stake.stakerOf c = some s → a ∈ Hooks.items w.stake.c.hooks →
        ∃ x o, ExternalRewards.exec p.c b (stakes w'.stake b) w'.stake.self (.stakeChangeHook s) = .ok (x, o) ∧
          w'.pools.get a = some { p with c := x })) := by
  cases step_effect hs with
  | stake hf hst hd =>
    rename_i s o ps
    obtain ⟨h1, h2⟩ := Cw20Stake.stakes_step hg.stake hst
    cases hk : Cw20Stake.stakerOf c with
    | none =>
      obtain ⟨_, _, hh⟩ := h2 hk
      rw [hh] at hd
      simp only [deliver, Except.ok.injEq] at hd
      subst hd
      exact ⟨fun h => h, fun p hp => ⟨fun _ => hp, fun s hs => by cases hs⟩⟩
    | some x =>
      obtain ⟨_, _, _, hto, hst'⟩ := h1 x hk
      have hn : (o.hooks.map Cw20Stake.HookMsg.to).Nodup := by rw [hto]; exact hg.hooks
      obtain ⟨k1, k2, k3⟩ := deliver_inv hd hn a
      refine ⟨k3, fun p hp => ⟨fun hc => ?_, fun y hy ha => ?_⟩⟩
      · rcases hc with hc | hc
        · cases hc
        · rw [← hto] at hc
          exact (k1 hc).trans hp
      · cases hy
        rw [← hto] at ha
        obtain ⟨m, hm, hma⟩ := List.mem_map.1 ha
        obtain ⟨x', o', he, hg'⟩ := k2 m hm hma p hp
        rw [hst' m hm] at he
        exact ⟨x', o', he, hg'⟩

theorem hook_staking {s x : ExternalRewards.State} {b : Block} {k : ExternalRewards.Stakes} {y z : Addr}
    {o : ExternalRewards.Pay} (h : ExternalRewards.exec s b k y (.stakeChangeHook z) = .ok (x, o)) :
    x.staking = s.staking ∧ x.duration = s.duration ∧ y = s.staking ∧ o = none := by
  simp only [ExternalRewards.exec, bind_ok, require_ok, decide_eq_true_eq, Except.ok.injEq, Prod.mk.injEq] at h
  obtain ⟨_, h1, s', h2, rfl, rfl⟩ := h
  have := ExternalRewards.updateRewards_inv h2
  subst this
  exact ⟨rfl, rfl, h1, rfl⟩

theorem good_step {w w' : World} {b : Block} {call : Call} {out : Out} {h : Nat} (hg : Good w h) (hle : h ≤ b.height)
    (hs : step w b call = .ok (w', out)) : Good w' b.height ∧ w'.stake.self = w.stake.self := by
  have hsup : ∀ d, total (w'.ledger d) < U128 := by
    intro d
    have := moved_ledger hs d
    split at this
    · exact apply_total this (hg.supply d)
    · rw [this]; exact hg.supply d
  by_cases hc : ∃ c, call = .stake c
  · obtain ⟨c, rfl⟩ := hc
    have hp := pools_stake hg hs
    have hst : ∀ a p, w'.pools.get a = some p → p.c.staking = w.stake.self := by
      intro a p hp'
      cases hq : w.pools.get a with
      | none => rw [(hp a).1 hq] at hp'; cases hp'
      | some q =>
        have hq2 := (hp a).2 q hq
        cases hk : Cw20Stake.stakerOf c with
        | none => rw [hq2.1 (Or.inl hk)] at hp'; cases hp'; exact hg.staking a _ hq
        | some s =>
          by_cases ha : a ∈ Hooks.items w.stake.c.hooks
          · obtain ⟨x, o, he, hx⟩ := hq2.2 s hk ha
            rw [hx] at hp'; cases hp'
            rw [(hook_staking he).1]; exact hg.staking a _ hq
          · rw [hq2.1 (Or.inr ha)] at hp'; cases hp'; exact hg.staking a _ hq
    have haw := (hp w.stake.self).1 hg.away
    cases step_effect hs with
    | stake hf hst' hd =>
      rename_i s o ps
      obtain ⟨h1, h2⟩ := Cw20Stake.inv_step hg.stake hle hst'
      refine ⟨⟨h1, Cw20Stake.hooks_step hg.hooks hst', hsup, ?_, ?_⟩, h2⟩
      · show AMap.get ps s.self = none
        rw [h2]; exact haw
      · intro a p hp'
        rw [hst a p hp']; exact h2.symm
  · have hc' : ∀ c, call ≠ .stake c := fun c e => hc ⟨c, e⟩
    have hsame := stake_same hs hc'
    obtain ⟨b2, _, hr⟩ := stake_run hs hg.away (Block.le_refl b)
    have hinv : Cw20Stake.Inv w'.stake b.height := by
      generalize hl : stakeEvents ⟨w, b, call, out, w'⟩ = l at hr
      have key : ∀ {s : Cw20Stake.World} {bb : Block} {l}, Cw20Stake.sys.Run w.stake b l s bb →
          Cw20Stake.Inv s bb.height := by
        intro s bb l hrun
        induction hrun with
        | refl =>
          exact ⟨hg.stake.sum, hg.stake.pool, hg.stake.covered, hg.stake.supply, hg.stake.wf, hg.stake.token,
            Snap.upTo_mono hg.stake.upS hle, Snap.upTo_mono hg.stake.upT hle, hg.stake.init⟩
        | step hr hb hst ih => exact (Cw20Stake.inv_step ih hb.1 hst).1
      have := key hr
      rename_i hb2
      exact ⟨this.sum, this.pool, this.covered, this.supply, this.wf, this.token,
        Snap.upTo_mono this.upS hb2.1, Snap.upTo_mono this.upT hb2.1, this.init⟩
    have hself : w'.stake.self = w.stake.self := by rw [hsame]
    have hck : w'.stake.c = w.stake.c := by rw [hsame]
    refine ⟨⟨hinv, by rw [hck]; exact hg.hooks, hsup, ?_, ?_⟩, hself⟩
    · rw [hself]
      cases step_effect hs with
      | stake hf hst' hd => exact absurd rfl (hc' _)
      | token hd hf hl => rw [setLedger_pools]; exact hg.away
      | create ho hcr =>
        rename_i a owner d n c
        show AMap.get (AMap.set _ _ _) _ = none
        rw [AMap.get_set_ne _ _ (outside_iff.1 ho).1]; exact hg.away
      | pool hp ho hst =>
        rename_i a c p q pay
        rw [setLedger_pools]
        have hne : a ≠ w.stake.self := fun e => by rw [e, hg.away] at hp; cases hp
        show AMap.get (AMap.set _ _ _) _ = none
        rw [AMap.get_set_ne _ _ hne]; exact hg.away
    · rw [hself]
      intro x y hxy
      cases step_effect hs with
      | stake hf hst' hd => exact absurd rfl (hc' _)
      | token hd hf hl => rw [setLedger_pools] at hxy; exact hg.staking x y hxy
      | create ho hcr =>
        rename_i a owner d n c
        replace hxy : AMap.get (AMap.set w.pools a ⟨c, d⟩) x = some y := hxy
        by_cases hax : a = x
        · subst hax
          rw [AMap.get_set_self] at hxy; cases hxy
          simp only [ExternalRewards.instantiate, bind_ok, Except.ok.injEq] at hcr
          obtain ⟨_, _, rfl⟩ := hcr
          rfl
        · rw [AMap.get_set_ne _ _ hax] at hxy; exact hg.staking x y hxy
      | pool hp ho hst =>
        rename_i a c p q pay
        rw [setLedger_pools] at hxy
        replace hxy : AMap.get (AMap.set w.pools a { p with c := q.c }) x = some y := hxy
        by_cases hax : a = x
        · subst hax
          rw [AMap.get_set_self] at hxy; cases hxy
          exact (own_step hst).2.2.2.2.trans (hg.staking _ _ hp)
        · rw [AMap.get_set_ne _ _ hax] at hxy; exact hg.staking x y hxy

theorem good_init {w : World} {b : Block} (h : sys.init b w) : Good w b.height := by
  obtain ⟨h1, h2, h3⟩ := h
  refine ⟨Cw20Stake.inv_init h1, ?_, h3, by rw [h2]; rfl, by rw [h2]; intro a p hp; cases hp⟩
  obtain ⟨owner, token, d, hi, _⟩ := h1
  simp only [Cw20Stake.instantiate, bind_ok, Except.ok.injEq] at hi
  obtain ⟨_, _, hi⟩ := hi
  rw [← hi]; simp [Hooks.items]

theorem good_reach {w : World} {b : Block} {log : List Event} (h : sys.Reach w b log) : Good w b.height := by
  refine Sys.Reach.induct (P := fun w b _ => Good w b.height) (fun b s h => good_init h) ?_ h
  intro s b l env call out s' _ hg hb hs
  exact (good_step hg hb.1 hs).1

theorem Good.later {w : World} {b b' : Block} (h : Good w b.height) (hb : b.le b') : Good w b'.height :=
  { h with stake := { h.stake with upS := Snap.upTo_mono h.stake.upS hb.1, upT := Snap.upTo_mono h.stake.upT hb.1 } }

/-! ## A reward contract's own history -/

/-- The calls of the reward contract at `a`. -/
def ownCall (a : Addr) : Call → Option PoolCall
  | .pool x c => if x = a then some c else none
  | _ => none

/-- What a reward contract sees of an event elsewhere: its token moves, a stake changes. -/
def between (P Q : ExternalRewards.World) (b : Block) (mv : Option Move) (st : Option Addr) :
    List (Ev ExternalRewards.World Block ExternalRewards.Call ExternalRewards.Pay) :=
  (match st with
    | some s => [⟨{ P with ledger := Q.ledger }, b, .setStake s (Q.stake s) true, none, Q⟩]
    | none => []) ++
  (match mv with
    | some m => [⟨P, b, m.reward, none, { P with ledger := Q.ledger }⟩]
    | none => [])

/-- What happens to the reward contract at `a` in an event. -/
def poolEvents (a : Addr) (e : Event) :
    List (Ev ExternalRewards.World Block ExternalRewards.Call ExternalRewards.Pay) :=
  match e.pre.pools.get a, e.post.pools.get a with
  | some p, some q =>
    match ownCall a e.call with
    | some c => [⟨poolWorld e.pre a p, e.env, c.call, e.out.pay, poolWorld e.post a q⟩]
    | none => between (poolWorld e.pre a p) (poolWorld e.post a q) e.env (moved e.pre p.asset e.out e.call)
        (staker e.call)
  | _, _ => []

instance (w : World) (a : Addr) : Decidable (Hooked w a) := inferInstanceAs (Decidable (_ ∈ _))

/-- The history of the reward contract at `a`, since the last stake change it was not told about. -/
def poolLog (a : Addr) : List Event → List (Ev ExternalRewards.World Block ExternalRewards.Call ExternalRewards.Pay)
  | [] => []
  | e :: log => if (staker e.call).isSome ∧ ¬ Hooked e.pre a then [] else poolEvents a e ++ poolLog a log

theorem between_run {P Q : ExternalRewards.World} {b b1 : Block} {mv : Option Move} {st : Option Addr}
    (hb : b1.le b)
    (hm : match mv with
      | some m => m.apply P.ledger = .ok Q.ledger ∧ ∀ x, m.source = some x → x ≠ P.self
      | none => Q.ledger = P.ledger)
    (hst : match st with
      | some s => ExternalRewards.sys.step { P with ledger := Q.ledger } b (.setStake s (Q.stake s) true) = .ok (Q, none)
      | none => Q = { P with ledger := Q.ledger }) :
    ∃ b2, b2.le b ∧ ExternalRewards.sys.Run P b1 (between P Q b mv st) Q b2 := by
  have h1 : ∃ b2, b2.le b ∧ ExternalRewards.sys.Run P b1 (match mv with
      | some m => [⟨P, b, m.reward, none, { P with ledger := Q.ledger }⟩]
      | none => []) { P with ledger := Q.ledger } b2 := by
    cases mv with
    | none =>
      simp only at hm
      refine ⟨b1, hb, ?_⟩
      rw [hm]; exact .refl
    | some m =>
      exact ⟨b, Block.le_refl _, .step (env := b) .refl hb (move_reward hm.1 hm.2)⟩
  obtain ⟨b2, hb2, hr⟩ := h1
  unfold between
  cases st with
  | none =>
    simp only at hst
    refine ⟨b2, hb2, ?_⟩
    simp only [List.nil_append]
    rw [← hst] at hr
    rw [← hst]
    exact hr
  | some s => exact ⟨b, Block.le_refl _, .step (env := b) hr hb2 hst⟩

theorem poolWorld_view (w : World) (a : Addr) (p : Pool) (b : Block) :
    (poolWorld w a p).view b = stakes w.stake b := rfl

/-- An event that the reward contract at `a` is told about is a run of its own world. -/
theorem pool_run {w w' : World} {b b1 : Block} {call : Call} {out : Out} {a : Addr} {p : Pool} {h : Nat} (hg : Good w h)
    (hs : step w b call = .ok (w', out)) (hp : w.pools.get a = some p)
    (hh : (staker call).isSome → Hooked w a) (hb : b1.le b) :
    ∃ q, w'.pools.get a = some q ∧ q.asset = p.asset ∧ ∃ b2, b2.le b ∧
      ExternalRewards.sys.Run (poolWorld w a p) b1 (poolEvents a ⟨w, b, call, out, w'⟩) (poolWorld w' a q) b2 := by
  have hne : a ≠ w.stake.self := fun e => by rw [e, hg.away] at hp; cases hp
  -- the movement of its token, when the contract itself is not called
  have hmv : (∀ c, call ≠ .pool a c) → ∀ d, match moved w d out call with
      | some m => m.apply (w.ledger d) = .ok (w'.ledger d) ∧ ∀ x, m.source = some x → x ≠ a
      | none => w'.ledger d = w.ledger d := by
    intro hown d
    have h1 := moved_ledger hs d
    cases hm : moved w d out call with
    | none => rw [hm] at h1; exact h1
    | some m =>
      rw [hm] at h1
      refine ⟨h1, fun x hx => ?_⟩
      rcases moved_source hs hm hx with ho | ⟨rfl, _⟩ | ⟨c, rfl⟩
      · intro e; subst e
        rw [(outside_iff.1 ho).2] at hp; cases hp
      · exact hne.symm
      · intro e; subst e; exact hown c rfl
  by_cases hown : ∃ c, call = .pool a c
  · obtain ⟨c, rfl⟩ := hown
    cases step_effect hs with
    | pool hp' ho hst =>
      rename_i p' q pay
      rw [hp] at hp'; cases hp'
      obtain ⟨hsys, hself, hsk, htt, _⟩ := own_step hst
      have hq : (({ w with pools := w.pools.set a { p with c := q.c } } : World).setLedger p.asset q.ledger).pools.get a =
          some { p with c := q.c } := by
        rw [setLedger_pools]; exact AMap.get_set_self ..
      have hw : poolWorld (({ w with pools := w.pools.set a { p with c := q.c } } : World).setLedger p.asset q.ledger) a
          { p with c := q.c } = q := by
        unfold poolWorld
        rw [ledger_set, if_pos rfl, (setLedger_c _ _ _).1]
        obtain ⟨qc, qs, ql, qk, qt⟩ := q
        simp only [poolWorld] at hself hsk htt
        subst hself hsk htt
        rfl
      refine ⟨_, hq, rfl, b, Block.le_refl _, ?_⟩
      simp only [poolEvents, hp, hq, ownCall, if_true]
      rw [hw]
      exact .step (env := b) .refl hb hsys
  · have hown' : ∀ c, call ≠ .pool a c := fun c e => hown ⟨c, e⟩
    have hmv' := hmv hown' p.asset
    have hoc : ownCall a call = none := by
      cases call with
      | pool x c =>
        simp only [ownCall]
        rw [if_neg]
        intro e; subst e; exact hown' c rfl
      | _ => rfl
    by_cases hc : ∃ c, call = .stake c
    · obtain ⟨c, rfl⟩ := hc
      have hps := (pools_stake hg hs a).2 p hp
      rw [staker_stake] at hh
      cases hk : Cw20Stake.stakerOf c with
      | none =>
        have hq := hps.1 (Or.inl hk)
        refine ⟨p, hq, rfl, ?_⟩
        simp only [poolEvents, hp, hq, hoc, staker_stake, hk]
        refine between_run hb hmv' ?_
        cases step_effect hs with
        | stake hf hst hd =>
          obtain ⟨_, h2⟩ := Cw20Stake.stakes_step hg.stake hst
          obtain ⟨e1, e2, _⟩ := h2 hk
          simp only [poolWorld, e1, e2]
      | some s =>
        have ha := hh (by rw [hk]; rfl)
        obtain ⟨x, o, he, hq⟩ := hps.2 s hk ha
        refine ⟨_, hq, rfl, ?_⟩
        simp only [poolEvents, hp, hq, hoc, staker_stake, hk]
        refine between_run hb hmv' ?_
        obtain ⟨hx1, hx2, hx3, rfl⟩ := hook_staking he
        cases step_effect hs with
        | stake hf hst hd =>
          rename_i sw o ps
          obtain ⟨h1, _⟩ := Cw20Stake.stakes_step hg.stake hst
          obtain ⟨e1, e2, hlt, _⟩ := h1 s hk
          simp only at he e1 e2 hq hx3 ⊢
          have hrec : ExternalRewards.recordStake
              { poolWorld w a p with ledger := World.ledger { w with stake := sw, pools := ps } p.asset } b s
              (sw.c.stakedOf s) = .ok
              { poolWorld w a p with ledger := World.ledger { w with stake := sw, pools := ps } p.asset,
                                     stakes := sw.c.staked, totals := sw.c.stakedTotal } := by
            have hlt' : ExternalRewards.World.total
                { poolWorld w a p with ledger := World.ledger { w with stake := sw, pools := ps } p.asset } -
                ExternalRewards.World.stake
                { poolWorld w a p with ledger := World.ledger { w with stake := sw, pools := ps } p.asset } s +
                sw.c.stakedOf s < U128 := hlt
            simp only [ExternalRewards.recordStake, require, hlt', decide_true, if_true, ok_bind]
            rw [e1, e2]
            rfl
          have hex : ExternalRewards.exec p.c b (stakes sw b) p.c.staking (.stakeChangeHook s) = .ok (x, none) := by
            rw [← hx3]; exact he
          have hst' : (poolWorld { w with stake := sw, pools := ps } a { p with c := x }).stake s = sw.c.stakedOf s := rfl
          rw [hst']
          simp only [ExternalRewards.sys, require, if_true, ok_bind, ExternalRewards.step]
          have hrec' := hrec
          simp only [poolWorld] at hrec' ⊢
          rw [hrec']
          simp only [ok_bind]
          have hv : ∀ (c : ExternalRewards.State) (y : Addr) (l : Ledger Addr), ExternalRewards.World.view
              ⟨c, y, l, sw.c.staked, sw.c.stakedTotal⟩ b = stakes sw b := fun _ _ _ => rfl
          rw [hv, hex]
          simp only [ok_bind, ExternalRewards.settle]
    · have hc' : ∀ c, call ≠ .stake c := fun c e => hc ⟨c, e⟩
      have hsame := stake_same hs hc'
      have hck : w'.stake.c = w.stake.c := by rw [hsame]
      have hnk : staker call = none := by
        cases call with
        | stake c => exact absurd rfl (hc' c)
        | _ => rfl
      have hq : w'.pools.get a = some p := by
        cases step_effect hs with
        | stake hf hst' hd => exact absurd rfl (hc' _)
        | token hd hf hl => rw [setLedger_pools]; exact hp
        | create ho hcr =>
          rename_i x owner d n c
          have : x ≠ a := fun e => by
            rw [← e, (outside_iff.1 ho).2] at hp; cases hp
          show AMap.get (AMap.set _ _ _) _ = _
          rw [AMap.get_set_ne _ _ this]; exact hp
        | pool hp' ho hst =>
          rename_i x c p' q pay
          have : x ≠ a := fun e => by subst e; exact hown' _ rfl
          rw [setLedger_pools]
          show AMap.get (AMap.set _ _ _) _ = _
          rw [AMap.get_set_ne _ _ this]; exact hp
      refine ⟨p, hq, rfl, ?_⟩
      simp only [poolEvents, hp, hq, hoc, hnk]
      refine between_run hb hmv' ?_
      simp only [poolWorld, hck]

/-- A reward contract that does not exist yet has no history. -/
theorem poolEvents_none {w w' : World} {b : Block} {call : Call} {out : Out} {a : Addr} (hp : w.pools.get a = none) :
    poolEvents a ⟨w, b, call, out, w'⟩ = [] := by
  simp only [poolEvents, hp]

/-- A new reward contract appears only by its creation. -/
theorem pool_new {w w' : World} {b : Block} {call : Call} {out : Out} {a : Addr} {q : Pool} {h : Nat} (hg : Good w h)
    (hs : step w b call = .ok (w', out)) (hp : w.pools.get a = none) (hq : w'.pools.get a = some q) :
    ∃ owner d n, call = .create a owner d n ∧
      ExternalRewards.instantiate owner w.stake.self d.denom n = .ok q.c ∧ q.asset = d := by
  by_cases hc : ∃ c, call = .stake c
  · obtain ⟨c, rfl⟩ := hc
    rw [(pools_stake hg hs a).1 hp] at hq; cases hq
  · cases step_effect hs with
    | stake hf hst' hd => exact absurd ⟨_, rfl⟩ hc
    | token hd hf hl => rw [setLedger_pools, hp] at hq; cases hq
    | create ho hcr =>
      rename_i x owner d n c
      replace hq : AMap.get (AMap.set w.pools x ⟨c, d⟩) a = some q := hq
      by_cases hx : x = a
      · subst hx
        rw [AMap.get_set_self] at hq; cases hq
        exact ⟨owner, d, n, rfl, hcr, rfl⟩
      · rw [AMap.get_set_ne _ _ hx, hp] at hq; cases hq
    | pool hp' ho hst =>
      rename_i x c p' r pay
      rw [setLedger_pools] at hq
      replace hq : AMap.get (AMap.set w.pools x { p' with c := r.c }) a = some q := hq
      by_cases hx : x = a
      · subst hx; rw [hp] at hp'; cases hp'
      · rw [AMap.get_set_ne _ _ hx, hp] at hq; cases hq

/-- Reward contracts do not disappear. -/
theorem pool_stays {w w' : World} {b : Block} {call : Call} {out : Out} {a : Addr} {p : Pool} {h : Nat} (hg : Good w h)
    (hs : step w b call = .ok (w', out)) (hp : w.pools.get a = some p) :
    ∃ q, w'.pools.get a = some q ∧ q.asset = p.asset ∧
      ((∀ c, call ≠ .pool a c) → ((staker call).isSome → ¬ Hooked w a) → q = p) := by
  by_cases hh : (staker call).isSome → Hooked w a
  · obtain ⟨q, hq, hqa, hrun⟩ := pool_run hg hs hp hh (Block.le_refl b)
    clear hrun
    refine ⟨q, hq, hqa, fun hown hno => ?_⟩
    have hns : staker call = none := by
      cases hk : staker call with
      | none => rfl
      | some s =>
        have : (staker call).isSome := by rw [hk]; rfl
        exact absurd (hh this) (hno this)
    cases step_effect hs with
    | stake hf hst hd =>
      rename_i c s o ps
      rw [staker_stake] at hns
      have := ((pools_stake hg hs a).2 p hp).1 (Or.inl hns)
      rw [this] at hq; cases hq; rfl
    | token hd hf hl => rw [setLedger_pools, hp] at hq; cases hq; rfl
    | create ho hcr =>
      rename_i x owner d n c
      have : x ≠ a := fun e => by
        rw [← e, (outside_iff.1 ho).2] at hp; cases hp
      replace hq : AMap.get (AMap.set w.pools x ⟨c, d⟩) a = some q := hq
      rw [AMap.get_set_ne _ _ this, hp] at hq; cases hq; rfl
    | pool hp' ho hst =>
      rename_i x c p' r pay
      have : x ≠ a := fun e => by subst e; exact hown _ rfl
      rw [setLedger_pools] at hq
      replace hq : AMap.get (AMap.set w.pools x { p' with c := r.c }) a = some q := hq
      rw [AMap.get_set_ne _ _ this, hp] at hq; cases hq; rfl
  · have hc : ∃ c, call = .stake c := by
      cases call with
      | stake c => exact ⟨c, rfl⟩
      | _ => exact absurd (fun h => by simp [staker] at h) hh
    obtain ⟨c, rfl⟩ := hc
    refine ⟨p, ((pools_stake hg hs a).2 p hp).1 (Or.inr fun hm => hh (fun _ => hm)), rfl, fun _ _ => rfl⟩

/-- A reward contract that has not been used is as it was created. -/
theorem unused_fresh {w : World} {b : Block} {log : List Event} (h : sys.Reach w b log) {a : Addr} (hu : Unused a log) :
    ∀ p, w.pools.get a = some p →
      ∃ owner n, ExternalRewards.instantiate owner w.stake.self p.asset.denom n = .ok p.c := by
  revert hu
  refine Sys.Reach.induct (P := fun w b log => Unused a log → ∀ p, w.pools.get a = some p →
      ∃ owner n, ExternalRewards.instantiate owner w.stake.self p.asset.denom n = .ok p.c) ?_ ?_ h
  · intro b w hi _ p hp
    rw [hi.2.1] at hp; cases hp
  · intro w b log env call out w' hr ih hb hs hu q hq
    have hg := (good_reach hr).later hb
    have hself := (good_step hg (Nat.le_refl _) hs).2
    have hu1 := hu _ (List.mem_cons_self ..)
    have hu2 : Unused a log := fun e he => hu e (List.mem_cons_of_mem _ he)
    rw [hself]
    cases hp : w.pools.get a with
    | none =>
      obtain ⟨owner, d, n, _, hi, hd⟩ := pool_new hg hs hp hq
      exact ⟨owner, n, by rw [hd]; exact hi⟩
    | some p =>
      obtain ⟨q', hq', _, heq⟩ := pool_stays hg hs hp
      rw [hq] at hq'; cases hq'
      rw [heq hu1.1 hu1.2]
      exact ih hu2 p hp

theorem registered_tail {a : Addr} {e : Event} {log : List Event} (h : Registered a (e :: log)) : Registered a log :=
  fun later x before he hk => h (e :: later) x before (by rw [he]; rfl) hk

/-- The history of a reward contract is one of the model of the contract alone. -/
theorem pool_reach {w : World} {b : Block} {log : List Event} (h : sys.Reach w b log) {a : Addr}
    (hreg : Registered a log) :
    (w.pools.get a = none → poolLog a log = []) ∧
    ∀ p, w.pools.get a = some p →
      ∃ b1, b1.le b ∧ ExternalRewards.sys.Reach (poolWorld w a p) b1 (poolLog a log) := by
  revert hreg
  refine Sys.Reach.induct (P := fun w b log => Registered a log → (w.pools.get a = none → poolLog a log = []) ∧
    ∀ p, w.pools.get a = some p →
      ∃ b1, b1.le b ∧ ExternalRewards.sys.Reach (poolWorld w a p) b1 (poolLog a log)) ?_ ?_ h
  · intro b w hi _
    exact ⟨fun _ => rfl, fun p hp => by rw [hi.2.1] at hp; cases hp⟩
  · intro w b log env call out w' hr ih hb hs hreg
    replace hs : step w env call = .ok (w', out) := hs
    have hg := (good_reach hr).later hb
    have hg' := (good_step hg (Nat.le_refl _) hs).1
    obtain ⟨ih1, ih2⟩ := ih (registered_tail hreg)
    -- a reward contract as it was created can start here
    have hinit : ∀ q : Pool, (∃ owner n, ExternalRewards.instantiate owner w.stake.self q.asset.denom n = .ok q.c) →
        ExternalRewards.sys.Reach (poolWorld w' a q) env [] := by
      rintro q ⟨owner, n, hi⟩
      refine ⟨env, poolWorld w' a q, ⟨⟨owner, _, _, n, hi⟩, hg'.stake.wf, hg'.stake.sum, Cw20Stake.total_lt hg'.stake, hg'.stake.upS,
        hg'.stake.upT, hg'.supply _⟩, .refl⟩
    by_cases hsil : (staker call).isSome ∧ ¬ Hooked w a
    · have he : poolLog a (⟨w, env, call, out, w'⟩ :: log) = [] := by
        simp only [poolLog]; rw [if_pos hsil]
      rw [he]
      refine ⟨fun _ => rfl, fun q hq => ⟨env, Block.le_refl _, hinit q ?_⟩⟩
      have hun : Unused a log := by
        rcases hreg [] _ log rfl hsil.1 with h | h
        · exact absurd h hsil.2
        · exact h
      cases hp : w.pools.get a with
      | none =>
        obtain ⟨owner, d, n, rfl, _⟩ := pool_new hg hs hp hq
        simp [staker] at hsil
      | some p =>
        obtain ⟨q', hq', hqa, heq⟩ := pool_stays hg hs hp
        rw [hq] at hq'; cases hq'
        have := heq (fun c hc => by rw [hc] at hsil; simp [staker] at hsil) (fun _ => hsil.2)
        rw [this]
        exact unused_fresh hr hun p hp
    · have he : poolLog a (⟨w, env, call, out, w'⟩ :: log) =
          poolEvents a ⟨w, env, call, out, w'⟩ ++ poolLog a log := by
        simp only [poolLog]; rw [if_neg hsil]
      rw [he]
      cases hp : w.pools.get a with
      | none =>
        rw [poolEvents_none hp, ih1 hp]
        refine ⟨fun _ => rfl, fun q hq => ⟨env, Block.le_refl _, hinit q ?_⟩⟩
        obtain ⟨owner, d, n, _, hi, hd⟩ := pool_new hg hs hp hq
        exact ⟨owner, n, by rw [hd]; exact hi⟩
      | some p =>
        obtain ⟨b1, hb1, hreach⟩ := ih2 p hp
        have hh : (staker call).isSome → Hooked w a := fun h => by
          by_contra hn; exact hsil ⟨h, hn⟩
        obtain ⟨q, hq, hqa, b2, hb2, hrun⟩ := pool_run hg hs hp hh (Block.le_trans hb1 hb)
        refine ⟨fun hn => (by rw [hq] at hn; cases hn), fun q' hq' => ?_⟩
        rw [hq] at hq'; cases hq'
        exact ⟨b2, hb2, hreach.run hrun⟩

/-! ## What is paid in and out -/

theorem coins_pool {w : World} {a x : Addr} {p : Pool} (hp : w.pools.get a = some p) :
    coins w a x = Spec.ExternalRewards.coins (poolWorld w a p) x := by
  simp only [coins, hp]; rfl

theorem between_quiet {P Q : ExternalRewards.World} {b : Block} {mv : Option Move} {st : Option Addr}
    (l : List (Ev ExternalRewards.World Block ExternalRewards.Call ExternalRewards.Pay)) :
    Spec.ExternalRewards.funded (between P Q b mv st ++ l) = Spec.ExternalRewards.funded l ∧
    Spec.ExternalRewards.paidOut (between P Q b mv st ++ l) = Spec.ExternalRewards.paidOut l ∧
    (∀ s, Spec.ExternalRewards.received s (between P Q b mv st ++ l) = Spec.ExternalRewards.received s l) ∧
    (∀ x, Spec.ExternalRewards.rewardOf x (between P Q b mv st ++ l) = Spec.ExternalRewards.rewardOf x l) ∧
    (between P Q b mv st ++ l).length ≤ l.length + 2 := by
  unfold between
  cases st <;> cases mv with
  | none => simp [Spec.ExternalRewards.funded, Spec.ExternalRewards.paidOut, Spec.ExternalRewards.received,
      Spec.ExternalRewards.rewardOf]
  | some m =>
    cases m <;> simp [Spec.ExternalRewards.funded, Spec.ExternalRewards.paidOut, Spec.ExternalRewards.received,
      Spec.ExternalRewards.rewardOf, Move.reward]

theorem unused_zero {a : Addr} {log : List Event} (h : Unused a log) :
    funded a log = 0 ∧ paidOut a log = 0 ∧ (∀ s, received a s log = 0) ∧ ∀ x, rewardOf a x log = 0 := by
  induction log with
  | nil => exact ⟨rfl, rfl, fun _ => rfl, fun _ => rfl⟩
  | cons e log ih =>
    obtain ⟨h1, h2, h3, h4⟩ := ih (fun x hx => h x (List.mem_cons_of_mem _ hx))
    have hne := (h e (List.mem_cons_self ..)).1
    obtain ⟨pre, env, call, out, post⟩ := e
    simp only at hne
    cases call with
    | pool x c =>
      have hx : x ≠ a := fun e => hne c (by rw [e])
      cases c with
      | exec s m =>
        cases m <;> simp only [funded, paidOut, received, rewardOf, hx, if_false, h1, h2, h3, h4] <;> simp
      | fund s n => simp only [funded, paidOut, received, rewardOf, hx, if_false, h1, h2, h3, h4]; simp
    | _ => simp only [funded, paidOut, received, rewardOf, h1, h2, h3, h4]; simp

/-- The history of a reward contract has its fundings, payments and rewards. -/
theorem pool_counts {w : World} {b : Block} {log : List Event} (h : sys.Reach w b log) {a : Addr}
    (hreg : Registered a log) :
    Spec.ExternalRewards.funded (poolLog a log) = funded a log ∧
    Spec.ExternalRewards.paidOut (poolLog a log) = paidOut a log ∧
    (∀ s, Spec.ExternalRewards.received s (poolLog a log) = received a s log) ∧
    (∀ x, Spec.ExternalRewards.rewardOf x (poolLog a log) = rewardOf a x log) ∧
    (poolLog a log).length ≤ 2 * log.length := by
  revert hreg
  refine Sys.Reach.induct (P := fun w b log => Registered a log →
    Spec.ExternalRewards.funded (poolLog a log) = funded a log ∧
    Spec.ExternalRewards.paidOut (poolLog a log) = paidOut a log ∧
    (∀ s, Spec.ExternalRewards.received s (poolLog a log) = received a s log) ∧
    (∀ x, Spec.ExternalRewards.rewardOf x (poolLog a log) = rewardOf a x log) ∧
    (poolLog a log).length ≤ 2 * log.length) ?_ ?_ h
  · intro b w _ _
    exact ⟨rfl, rfl, fun _ => rfl, fun _ => rfl, Nat.le_refl _⟩
  · intro w b log env call out w' hr ih hb hs hreg
    replace hs : step w env call = .ok (w', out) := hs
    have hg := (good_reach hr).later hb
    obtain ⟨i1, i2, i3, i4, i5⟩ := ih (registered_tail hreg)
    -- an event elsewhere counts nothing
    have hquiet : (∀ c, call ≠ .pool a c) →
        funded a (⟨w, env, call, out, w'⟩ :: log) = funded a log ∧
        paidOut a (⟨w, env, call, out, w'⟩ :: log) = paidOut a log ∧
        (∀ s, received a s (⟨w, env, call, out, w'⟩ :: log) = received a s log) ∧
        (∀ x, rewardOf a x (⟨w, env, call, out, w'⟩ :: log) = rewardOf a x log) := by
      intro hne
      cases call with
      | pool x c =>
        have hx : x ≠ a := fun e => hne c (by rw [e])
        cases c with
        | exec s m =>
          cases m <;> simp only [funded, paidOut, received, rewardOf, hx, if_false] <;> simp
        | fund s n => simp only [funded, paidOut, received, rewardOf, hx, if_false]; simp
      | _ => simp only [funded, paidOut, received, rewardOf]; simp
    by_cases hsil : (staker call).isSome ∧ ¬ Hooked w a
    · have he : poolLog a (⟨w, env, call, out, w'⟩ :: log) = [] := by
        simp only [poolLog]; rw [if_pos hsil]
      have hun : Unused a log := by
        rcases hreg [] _ log rfl hsil.1 with h | h
        · exact absurd h hsil.2
        · exact h
      obtain ⟨u1, u2, u3, u4⟩ := unused_zero hun
      obtain ⟨q1, q2, q3, q4⟩ := hquiet (fun c hc => by rw [hc] at hsil; simp [staker] at hsil)
      rw [he, q1, q2, u1, u2]
      exact ⟨rfl, rfl, fun s => by rw [q3, u3]; rfl, fun x => by rw [q4, u4]; rfl, Nat.zero_le _⟩
    · have he : poolLog a (⟨w, env, call, out, w'⟩ :: log) =
          poolEvents a ⟨w, env, call, out, w'⟩ ++ poolLog a log := by
        simp only [poolLog]; rw [if_neg hsil]
      rw [he]
      cases hp : w.pools.get a with
      | none =>
        have hne : ∀ c, call ≠ .pool a c := by
          rintro c rfl
          cases step_effect hs with
          | pool hp' ho hst => rw [hp] at hp'; cases hp'
        obtain ⟨q1, q2, q3, q4⟩ := hquiet hne
        rw [poolEvents_none hp, List.nil_append, q1, q2]
        exact ⟨i1, i2, fun s => by rw [q3, i3], fun x => by rw [q4, i4], by simp only [List.length_cons]; omega⟩
      | some p =>
        obtain ⟨q, hq, _⟩ := pool_stays hg hs hp
        by_cases hown : ∃ c, call = .pool a c
        · obtain ⟨c, rfl⟩ := hown
          simp only [poolEvents, hp, hq, ownCall, if_true, List.singleton_append]
          refine ⟨?_, ?_, fun s => ?_, fun x => ?_, ?_⟩
          · cases c with
            | exec s m => simp only [Spec.ExternalRewards.funded, funded, PoolCall.call, i1]
            | fund s n => simp only [Spec.ExternalRewards.funded, funded, PoolCall.call, i1, if_true]
          · cases c with
            | exec s m =>
              cases m <;> simp only [Spec.ExternalRewards.paidOut, paidOut, PoolCall.call, i2, if_true]
              rw [coins_pool hp, coins_pool hq]; rfl
            | fund s n => simp only [Spec.ExternalRewards.paidOut, paidOut, PoolCall.call, i2]
          · cases c with
            | exec y m =>
              cases m <;> simp only [Spec.ExternalRewards.received, received, PoolCall.call, i3, if_true]
              rw [coins_pool hp, coins_pool hq]
            | fund y n => simp only [Spec.ExternalRewards.received, received, PoolCall.call, i3]
          · cases c with
            | exec s m => simp only [Spec.ExternalRewards.rewardOf, rewardOf, PoolCall.call, i4]
            | fund s n =>
              simp only [Spec.ExternalRewards.rewardOf, rewardOf, PoolCall.call, i4, if_true, duration, hp]; rfl
          · simp only [List.length_cons]; omega
        · have hne : ∀ c, call ≠ .pool a c := fun c e => hown ⟨c, e⟩
          have hoc : ownCall a call = none := by
            cases call with
            | pool x c =>
              simp only [ownCall]
              rw [if_neg]
              intro e; subst e; exact hne c rfl
            | _ => rfl
          obtain ⟨q1, q2, q3, q4⟩ := hquiet hne
          have hee : poolEvents a ⟨w, env, call, out, w'⟩ =
              between (poolWorld w a p) (poolWorld w' a q) env (moved w p.asset out call) (staker call) := by
            simp only [poolEvents, hp, hq, hoc]
          rw [hee]
          obtain ⟨k1, k2, k3, k4, k5⟩ := between_quiet (P := poolWorld w a p) (Q := poolWorld w' a q) (b := env)
            (mv := moved w p.asset out call) (st := staker call) (poolLog a log)
          rw [k1, k2, q1, q2]
          exact ⟨i1, i2, fun s => by rw [k3, q3, i3], fun x => by rw [k4, q4, i4],
            by simp only [List.length_cons]; omega⟩

end Verif.Farms
