import Verif.Proofs.Farms
/-!
# A staking contract and its reward contracts: what stakers can rely on (C97)
-/

namespace Verif.Farms
open Verif Verif.Spec.Farms

variable {w w' : World} {b b' : Block} {log : List Event} {a : Addr}

/-- C97. Whatever happens at the reward contracts, even when they pay in the staked token: what happens to the staking
contract and its token is one of the histories of the staking contract alone. -/
theorem C97_stake (h : sys.Reach w b log) :
    ∃ b1, b1.le b ∧ Cw20Stake.sys.Reach w.stake b1 (stakeLog log) := by
  refine Sys.Reach.induct (P := fun w b log => ∃ b1, b1.le b ∧ Cw20Stake.sys.Reach w.stake b1 (stakeLog log)) ?_ ?_ h
  · intro b w hi
    exact ⟨b, Block.le_refl _, b, w.stake, hi.1, .refl⟩
  · intro w b log env call out w' hr ih hb hs
    obtain ⟨b1, hb1, hreach⟩ := ih
    obtain ⟨b2, hb2, hrun⟩ := stake_run hs (good_reach hr).away (Block.le_trans hb1 hb)
    exact ⟨b2, hb2, hreach.run hrun⟩

/-- C97. The staked tokens are safe: the staking contract always holds what the stakers and those who wait for their
claims can take out, although reward contracts may pay in the same token. -/
theorem C97_stakers (h : sys.Reach w b log) :
    w.stake.c.balance + w.stake.c.claims.owed ≤ getD0 (w.ledger w.staked) w.stake.self ∧
      w.stake.c.total ≤ w.stake.c.balance := by
  have hg := good_reach h
  have hl : w.ledger w.staked = w.stake.ledger := by simp [World.ledger]
  rw [hl]
  exact ⟨hg.stake.covered, hg.stake.pool⟩

/-- C97. A reward contract that is registered before its first use and stays registered lives one of the histories of the
reward contract alone, in which it is told of every stake change: whatever the other reward contracts do, and whatever
token it pays in. -/
theorem C97_pool (h : sys.Reach w b log) (hreg : Registered a log) {p : Pool} (hp : w.pools.get a = some p) :
    ∃ b1, b1.le b ∧ ExternalRewards.sys.Reach (poolWorld w a p) b1 (poolLog a log) :=
  (pool_reach h hreg).2 p hp

theorem pending_pool {p : Pool} (hp : w.pools.get a = some p) (s : Addr) :
    pendingRewards w b a s = ExternalRewards.queryPending (poolWorld w a p).c b ((poolWorld w a p).view b) s := by
  simp only [pendingRewards, hp, orErr, ok_bind]
  rfl

theorem pending_exists {s : Addr} {n : Nat} (hq : pendingRewards w b a s = .ok n) : ∃ p, w.pools.get a = some p := by
  simp only [pendingRewards, bind_ok, orErr_ok] at hq
  obtain ⟨p, hp, _⟩ := hq
  exact ⟨p, hp⟩

/-- C97. What a reward contract has paid out and what everybody can claim never exceeds what it was funded with. -/
theorem C97_bound (h : sys.Reach w b log) (hreg : Registered a log) (hb : b.le b') (l : List (Addr × Nat))
    (hn : (l.map Prod.fst).Nodup) (hq : ∀ x ∈ l, pendingRewards w b' a x.1 = .ok x.2) :
    (w.pools.get a).isSome → paidOut a log + (l.map Prod.snd).sum ≤ funded a log := by
  intro hsome
  obtain ⟨p, hp⟩ := Option.isSome_iff_exists.1 hsome
  obtain ⟨b1, hb1, hr⟩ := C97_pool h hreg hp
  obtain ⟨c1, c2, _⟩ := pool_counts h hreg
  rw [← c1, ← c2]
  exact ExternalRewards.C34_bound hr (Block.le_trans hb1 hb) l hn (fun x hx => by
    rw [← pending_pool hp]; exact hq x hx)

/-- C97. A reward contract holds the tokens for everything that can be claimed from it, although others may pay in the
same token. -/
theorem C97_solvent (h : sys.Reach w b log) (hreg : Registered a log) (hb : b.le b') (l : List (Addr × Nat))
    (hn : (l.map Prod.fst).Nodup) (hq : ∀ x ∈ l, pendingRewards w b' a x.1 = .ok x.2) :
    (l.map Prod.snd).sum ≤ coins w a a := by
  cases l with
  | nil => simp
  | cons x l =>
    obtain ⟨p, hp⟩ := pending_exists (hq x (List.mem_cons_self ..))
    obtain ⟨b1, hb1, hr⟩ := C97_pool h hreg hp
    rw [coins_pool hp]
    exact ExternalRewards.C34_solvent hr (Block.le_trans hb1 hb) _ hn (fun x hx => by
      rw [← pending_pool hp]; exact hq x hx)

/-- The share of the composite history is the one of the reward contract's own history. -/
theorem share_pool (h : sys.Reach w b log) (hreg : Registered a log) {p : Pool} (s : Addr) (x : Nat) :
    Spec.ExternalRewards.share (poolWorld w a p) (poolLog a log) s x = share w log a s x := by
  obtain ⟨_, _, _, c4, _⟩ := pool_counts h hreg
  induction x with
  | zero => rfl
  | succ x ih =>
    simp only [Spec.ExternalRewards.share, share]
    rw [ih, c4]
    rfl

/-- C97. Every staker has received, or can claim, its exact share of the rewards of all blocks so far (in proportion to
what the staking contract says about the stakes at the beginning of each block), less a rounding loss. -/
theorem C97_share {s : Addr} {n : Nat} (h : sys.Reach w b log) (hreg : Registered a log) (hb : b.le b')
    (hq : pendingRewards w b' a s = .ok n) :
    ((received a s log + n : Nat) : ℚ) ≤ share w log a s b'.height ∧
      share w log a s b'.height ≤ (received a s log + n : Nat) + 2 * (2 * log.length + 1 : Nat) := by
  obtain ⟨p, hp⟩ := pending_exists hq
  obtain ⟨b1, hb1, hr⟩ := C97_pool h hreg hp
  obtain ⟨_, _, c3, _, c5⟩ := pool_counts h hreg
  rw [pending_pool hp] at hq
  obtain ⟨k1, k2⟩ := ExternalRewards.C63_share hr (Block.le_trans hb1 hb) hq
  rw [share_pool h hreg, c3] at k1 k2
  refine ⟨k1, k2.trans ?_⟩
  have : ((poolLog a log).length + 1 : Nat) ≤ (2 * log.length + 1 : Nat) := by omega
  have : (((poolLog a log).length + 1 : Nat) : ℚ) ≤ ((2 * log.length + 1 : Nat) : ℚ) := by exact_mod_cast this
  linarith

/-- C97. A claim pays exactly what was claimable, from the reward contract to the claimer, and leaves the staking contract,
the other reward contracts and the other tokens alone. -/
theorem C97_claim {s : Addr} {out : Out} (h : sys.Reach w b log) (hreg : Registered a log) (hb : b.le b')
    (hs : sys.step w b' (.pool a (.exec s .claim)) = .ok (w', out)) :
    ∃ n, pendingRewards w b' a s = .ok n ∧ n ≠ 0 ∧ coins w' a s = coins w a s + n ∧
      coins w' a a + n = coins w a a ∧ (∀ q, q ≠ s → q ≠ a → coins w' a q = coins w a q) ∧
      (∀ m, pendingRewards w' b' a s = .ok m → m = 0) ∧ w'.stake.c = w.stake.c ∧
      (∀ x, x ≠ a → w'.pools.get x = w.pools.get x) ∧
      ∀ p, w.pools.get a = some p → ∀ d, d ≠ p.asset → w'.ledger d = w.ledger d := by
  replace hs : step w b' (.pool a (.exec s .claim)) = .ok (w', out) := hs
  have hg := (good_reach h).later hb
  cases step_effect hs with
  | pool hp ho hst =>
    rename_i p q pay
    obtain ⟨b1, hb1, hr⟩ := C97_pool h hreg hp
    obtain ⟨hsys, hself, hsk, htt, _⟩ := own_step hst
    obtain ⟨n, k1, k2, k3, k4, k5, k6, k7⟩ := ExternalRewards.C34_claim hr (Block.le_trans hb1 hb) hsys
    have hq : (({ w with pools := w.pools.set a { p with c := q.c } } : World).setLedger p.asset q.ledger).pools.get a =
        some { p with c := q.c } := by
      rw [setLedger_pools]; exact AMap.get_set_self ..
    have hw : poolWorld (({ w with pools := w.pools.set a { p with c := q.c } } : World).setLedger p.asset q.ledger) a
        { p with c := q.c } = q := by
      unfold poolWorld
      rw [ledger_set, if_pos rfl, (setLedger_c _ _ _).1]
      obtain ⟨qc, qs, ql, qk, qt⟩ := q
      simp only [poolWorld] at hself hsk htt
      subst hself hsk htt
      rfl
    have hc : ∀ y, coins (({ w with pools := w.pools.set a { p with c := q.c } } : World).setLedger p.asset q.ledger) a y =
        Spec.ExternalRewards.coins q y := fun y => by rw [coins_pool hq, hw]
    refine ⟨n, by rw [pending_pool hp]; exact k1, k2, ?_, ?_, ?_, ?_, ?_, ?_, ?_⟩
    · rw [hc, coins_pool hp]; exact k4
    · rw [hc, coins_pool hp]; exact k5
    · intro y h1 h2
      rw [hc, coins_pool hp]; exact k6 y h1 h2
    · intro m hm
      rw [pending_pool hq, hw] at hm
      exact k7 m hm
    · exact (setLedger_c _ _ _).1
    · intro x hx
      rw [setLedger_pools]
      exact AMap.get_set_ne _ _ (Ne.symm hx)
    · intro p' hp' d hd
      rw [hp] at hp'; cases hp'
      rw [ledger_set, if_neg hd]
      rfl

/-- C97. In a given block only a staker's own claim at a reward contract changes what it can claim there: not the other
reward contracts, not anybody's staking and unstaking. -/
theorem C97_others {s : Addr} {n m : Nat} {call : Call} {out : Out} (h : sys.Reach w b log) (hreg : Registered a log)
    (hb : b.le b') (hs : sys.step w b' call = .ok (w', out)) (hh : (staker call).isSome → Hooked w a)
    (hc : call ≠ .pool a (.exec s .claim)) (hq : pendingRewards w b' a s = .ok n)
    (hq' : pendingRewards w' b' a s = .ok m) : m = n := by
  replace hs : step w b' call = .ok (w', out) := hs
  have hg := (good_reach h).later hb
  obtain ⟨p, hp⟩ := pending_exists hq
  obtain ⟨b1, hb1, hr⟩ := C97_pool h hreg hp
  obtain ⟨q, hpq, _, b2, hb2, hrun⟩ := pool_run hg hs hp hh (Block.le_trans hb1 hb)
  rw [pending_pool hp] at hq
  rw [pending_pool hpq] at hq'
  generalize hl : poolEvents a ⟨w, b', call, out, w'⟩ = l at hrun
  -- the events are of this block and none is the claim of `s`
  have hev : ∀ e ∈ l, e.env = b' ∧ e.call ≠ .exec s .claim := by
    intro e he
    rw [← hl] at he
    simp only [poolEvents, hp, hpq] at he
    cases ho : ownCall a call with
    | some c =>
      rw [ho] at he
      simp only [List.mem_singleton] at he
      subst he
      refine ⟨rfl, fun hc' => hc ?_⟩
      cases call with
      | pool x c0 =>
        simp only [ownCall] at ho
        split at ho
        · rename_i hx
          cases ho; subst hx
          cases c with
          | exec y m => simp only [PoolCall.call, ExternalRewards.Call.exec.injEq] at hc'; rw [hc'.1, hc'.2]
          | fund y k => simp [PoolCall.call] at hc'
        · cases ho
      | _ => simp [ownCall] at ho
    | none =>
      rw [ho] at he
      simp only [between, List.mem_append] at he
      rcases he with he | he
      · cases hk : staker call with
        | none => rw [hk] at he; simp at he
        | some y => rw [hk] at he; simp only [List.mem_singleton] at he; subst he; exact ⟨rfl, by simp⟩
      · cases hk : moved w p.asset out call with
        | none => rw [hk] at he; simp at he
        | some y =>
          rw [hk] at he; simp only [List.mem_singleton] at he; subst he
          exact ⟨rfl, by cases y <;> simp [Move.reward]⟩
  clear hl hpq hs
  -- so what can be claimed stays the same from event to event
  have key : ∀ {v : ExternalRewards.World} {bv : Block} {lv}, ExternalRewards.sys.Run (poolWorld w a p) b1 lv v bv →
      (∀ e ∈ lv, e.env = b' ∧ e.call ≠ .exec s .claim) →
      bv.le b' ∧ ExternalRewards.sys.Reach v bv (lv ++ poolLog a log) ∧
        getD0 v.c.pending s + ExternalRewards.earned v.c (v.view b') s
          (v.c.perToken + ExternalRewards.accrued v.c b' (v.view b').total) = n := by
    intro v bv lv hv
    induction hv with
    | refl => exact fun _ => ⟨Block.le_trans hb1 hb, hr, (ExternalRewards.queryPending_inv hq).symm⟩
    | step hr1 hb3 hst ih =>
      rename_i s1 s2 b3 lg env cl ou
      intro hall
      have hhead := hall _ (List.mem_cons_self ..)
      simp only at hhead
      obtain ⟨he, hcl⟩ := hhead
      subst he
      obtain ⟨i1, i2, i3⟩ := ih (fun e he => hall e (List.mem_cons_of_mem _ he))
      refine ⟨Block.le_refl _, i2.run (.step .refl hb3 hst), ?_⟩
      exact (ExternalRewards.others_value i2 hb3 hst hcl).trans i3
  have := (key hrun hev).2.2
  rw [ExternalRewards.queryPending_inv hq']
  exact this

/-- C97. Nothing blocks a claim, as long as the reward contract has been funded with less than about `10 ^ 38` units in
all. -/
theorem C97_live (h : sys.Reach w b log) (hreg : Registered a log) (hb : b.le b') {p : Pool}
    (hp : w.pools.get a = some p) (hF : ExternalRewards.SCALE * funded a log < U256) (s : Addr) :
    ∃ n, pendingRewards w b' a s = .ok n ∧
      (outside w s → n ≠ 0 → ∃ w' out, sys.step w b' (.pool a (.exec s .claim)) = .ok (w', out)) := by
  obtain ⟨b1, hb1, hr⟩ := C97_pool h hreg hp
  rw [← (pool_counts h hreg).1] at hF
  obtain ⟨k1, _⟩ := ExternalRewards.C34_live hr (Block.le_trans hb1 hb) hF
  obtain ⟨n, hq, hlive⟩ := k1 s
  refine ⟨n, by rw [pending_pool hp]; exact hq, fun ho hn => ?_⟩
  have hne : s ≠ a := fun e => by
    rw [e] at ho
    rw [(outside_iff.1 ho).2] at hp; cases hp
  obtain ⟨v, hv⟩ := hlive hne hn
  have hv' : ExternalRewards.step (poolWorld w a p) b' (PoolCall.call (.exec s .claim)) = .ok (v, some (s, n)) := by
    simp only [ExternalRewards.sys, require, if_true, ok_bind] at hv
    exact hv
  refine ⟨({ w with pools := w.pools.set a { p with c := v.c } } : World).setLedger p.asset v.ledger,
    { pay := some (s, n) }, ?_⟩
  simp only [sys, step, hp, orErr, ok_bind, require, PoolCall.sender, ho, if_true, hv']

/-- C97. Reward contracts never stand in the way of staking and unstaking, nor of anything else at the staking contract: as
long as those that are registered have been since before their first use, and each has been funded with less than about
`10 ^ 38` units in all, whatever the staking contract alone would do is done. -/
theorem C97_unblocked {c : Cw20Stake.Call} {s : Cw20Stake.World} {o : Cw20Stake.Out} (h : sys.Reach w b log)
    (hb : b.le b') (hfree : stakeFree w c) (hs : Cw20Stake.step w.stake b' c = .ok (s, o))
    (hall : ∀ a p, Hooked w a → w.pools.get a = some p →
      Registered a log ∧ ExternalRewards.SCALE * funded a log < U256) :
    ∃ w', sys.step w b' (.stake c) = .ok (w', { stake := o }) ∧ w'.stake = s := by
  have hg := (good_reach h).later hb
  obtain ⟨h1, h2⟩ := Cw20Stake.stakes_step hg.stake hs
  have hself := (Cw20Stake.token_step hs).2
  have hdel : ∃ ps, deliver s.self b' (stakes s b') o.hooks w.pools = .ok ps := by
    cases hk : Cw20Stake.stakerOf c with
    | none =>
      rw [(h2 hk).2.2]
      exact ⟨_, rfl⟩
    | some x =>
      obtain ⟨e1, e2, hlt, hto, hst⟩ := h1 x hk
      refine deliver_ok (by rw [hto]; exact hg.hooks) (fun m hm p hp => ?_)
      have hin : Hooked w m.to := by
        unfold Hooked
        rw [← hto]
        exact List.mem_map.2 ⟨m, hm, rfl⟩
      obtain ⟨hreg, hF⟩ := hall _ p hin hp
      obtain ⟨b1, hb1, hr⟩ := C97_pool h hreg hp
      rw [← (pool_counts h hreg).1] at hF
      obtain ⟨_, k2⟩ := ExternalRewards.C34_live hr (Block.le_trans hb1 hb) hF
      obtain ⟨v, hv, _⟩ := k2 x (s.c.stakedOf x) hlt
      cases ExternalRewards.step_effect hv with
      | other _ _ _ _ hc =>
        rcases hc with ⟨_, _, he, _⟩ | ⟨_, _, _, he, _⟩ | ⟨_, _, he, _⟩ | ⟨_, _, he, _⟩ <;> cases he
      | stake hw hu =>
        obtain ⟨_, rfl⟩ := ExternalRewards.recordStake_inv hw
        rw [hst m hm]
        have hview : ExternalRewards.World.view { poolWorld w m.to p with
            stakes := (poolWorld w m.to p).stakes.save x (s.c.stakedOf x) b'.height,
            totals := (poolWorld w m.to p).totals.save () ((poolWorld w m.to p).total - (poolWorld w m.to p).stake x +
              s.c.stakedOf x) b'.height } b' = stakes s b' := by
          unfold stakes ExternalRewards.World.view ExternalRewards.World.totalAt ExternalRewards.World.stakeAt
            Cw20Stake.totalStakedAt Cw20Stake.stakedAt
          rw [e1, e2]
          rfl
        rw [hview] at hu
        refine ⟨ExternalRewards.updated p.c b' (stakes s b') x, none, ?_⟩
        simp only [ExternalRewards.exec, require, hself, ← hg.staking _ _ hp, decide_true, if_true, ok_bind]
        have hu' : ExternalRewards.updateRewards p.c b' (stakes s b') x =
            .ok (ExternalRewards.updated p.c b' (stakes s b') x) := hu
        rw [hu']
        rfl
  obtain ⟨ps, hps⟩ := hdel
  refine ⟨{ w with stake := s, pools := ps }, ?_, rfl⟩
  simp only [sys, step, require, hfree, if_true, ok_bind, hs, hps]

/-- C97. An overfunded reward contract traps the stakers: when the rewards of its period, scaled, do not fit 256 bits and
the period is over, nobody can stake or unstake any more, whatever the amount, at any later time, as long as the contract
stays registered. -/
theorem C97_trap {p : Pool} (h : sys.Reach w b log) (hb : b.height < b'.height)
    (hp : w.pools.get a = some p) (hh : Hooked w a) (hend : p.c.finish ≤ b'.height) (ht : w.stake.c.total ≠ 0)
    (hover : U256 ≤ p.c.rate * (p.c.finish - p.c.lastUpdate) * ExternalRewards.SCALE)
    (c : Cw20Stake.Call) (hc : (staker (.stake c)).isSome) (w' : World) (out : Out) :
    sys.step w b' (.stake c) ≠ .ok (w', out) := by
  intro hs
  replace hs : step w b' (.stake c) = .ok (w', out) := hs
  have hg := good_reach h
  rw [staker_stake] at hc
  obtain ⟨s, hk⟩ := Option.isSome_iff_exists.1 hc
  obtain ⟨x, o, he, hx⟩ := ((pools_stake hg hs a).2 p hp).2 s hk hh
  clear hx
  cases step_effect hs with
  | stake hf hst hd =>
    rename_i sw o' ps
    obtain ⟨_, e2, _⟩ := (Cw20Stake.stakes_step hg.stake hst).1 s hk
    have htot : (stakes sw b').total = w.stake.c.total := by
      unfold stakes Cw20Stake.totalStakedAt
      simp only
      rw [e2, Snap.atHeight_save (Snap.upTo_mono hg.stake.upT (Nat.le_of_lt hb)) (Nat.le_refl _),
        Snap.atHeight_future hg.stake.upT hb]
      rfl
    simp only [ExternalRewards.exec, bind_ok, require_ok, ExternalRewards.updateRewards,
      ExternalRewards.rewardPerToken, Except.ok.injEq, Prod.mk.injEq] at he
    obtain ⟨_, _, _, ⟨_, ⟨n, hadd, _⟩, _⟩, _⟩ := he
    unfold ExternalRewards.additional at hadd
    rw [htot, if_neg ht] at hadd
    simp only [bind_ok, ExternalRewards.subN_ok, ExternalRewards.mul256_ok, ExternalRewards.applicable] at hadd
    obtain ⟨_, ⟨_, rfl⟩, _, ⟨hlt, _⟩, _⟩ := hadd
    rw [Nat.min_eq_right hend] at hlt
    omega

end Verif.Farms
