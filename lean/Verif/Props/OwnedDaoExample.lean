import Verif.Props.OwnedDaoLive
import Verif.Props.WholeDaoMajorityExample
/-!
# C122 and C123: a DAO and a payroll that belongs to it

DAO 1 pays account 2 a thousand tokens over a thousand seconds. The members of the DAO decide to cancel this.
-/

namespace Verif.OwnedDao.Example
open Verif Verif.Voting Verif.Spec Verif.Spec.OwnedDao Verif.OwnedDao
open Verif.WholeDao (tokenStaked C80_token_staked Env)
open Verif.WholeDao.Example (fine)
open Verif.Vesting (sec)
open Verif.Spec.WholeDao (Steady Sole)

/-- Message 200 of the DAO cancels the payroll, and message 201 nominates account 7 as its owner. -/
def toCall (n : Nat) : Option Vesting.Call :=
  if n = 200 then some (.msg .cancel) else if n = 201 then some (.msg (.updateOwnership (.transfer 7 none))) else none

def terms : Vesting.InstMsg := { Vesting.exM with total := 1000, duration := 1000 }

def w0 : World TokenStaked.World Vesting.World := ⟨WholeDao.Example.w0, Vesting.world terms⟩

def env (n : Nat) (a : Addr) : Env := { WholeDao.Example.env n a with block := sec n }

def at' (n : Nat) (a : Addr) : Vesting.Env := { block := sec n, sender := a }

theorem started : Spec.Vesting.Started terms (sec 0) (Vesting.world terms) := by
  refine ⟨by decide +kernel, ?_, rfl, rfl, rfl⟩
  decide +kernel

theorem past : Past tokenStaked .other vesting w0 ⟨1, 1⟩ [] [] :=
  ⟨⟨sec 0, ⟨sec 0, _, ⟨terms, started⟩, .refl⟩, ⟨by decide, by decide⟩⟩, _, _, _, WholeDao.Example.init, rfl, .refl,
    Block.le_refl _⟩

/-- The members join, and account 2 is paid. -/
def before : List (Env × Call Block TokenStaked.Call Vesting.Env Vesting.Call) :=
  [(env 2 10, .dao (.vote (sec 2) (.stake 10 60))),
   (env 2 11, .dao (.vote (sec 2) (.stake 11 40))),
   (env 5 2, .it (at' 5 2) (.msg (.distribute none)))]

def calls : List (Env × Call Block TokenStaked.Call Vesting.Env Vesting.Call) :=
  before ++
  [(env 7 10, .dao (.prop (.propose none 0 [200] none true))),
   (env 8 11, .dao (.prop (.vote 1 .no none))),
   (env 8 10, .dao (.prop (.vote 1 .yes none))),
   (env 9 99, .dao (.prop (.execute 1 false))),
   (env 9 99, .pass (at' 9 1))]

theorem fine_both {log : List (WholeDao.Event TokenStaked.World Block TokenStaked.Call)} (h : fine log = true) :
    Steady log ∧ Sole log := by
  simp only [Bool.and_eq_true, decide_eq_true_eq, fine, List.all_eq_true] at h
  refine ⟨fun e he => ⟨(h e he).1.1.1, (h e he).1.1.2⟩, fun e he => ⟨(h e he).1.2, ?_⟩⟩
  rintro a ⟨m, hm, _⟩
  exact (h e he).2 _ (AMap.mem_of_get hm)

/-- **C122.** Such a DAO: all assumptions are met, and the payroll is canceled in second 9, on the strength of 60 of 100. -/
theorem C122_example : ∃ (w : World TokenStaked.World Vesting.World) (b : Block)
    (log : List (Event TokenStaked.World Vesting.World Block TokenStaked.Call Vesting.Env Vesting.Call (List Vesting.Pay))),
    History tokenStaked .other vesting toCall w0 w ⟨1, 1⟩ b log [] [] ∧
    w0.it.c.owner = { owner := some w.dao.core.core.me } ∧
    (∃ ev ∈ itLog toCall log, vestingOwners ev.call = true ∧ ev.env.block = sec 9) ∧
    w.it.c.vest.status = .canceled 0 ∧ Spec.Vesting.paidRecipient (itLog toCall log) = 9 ∧
    Spec.Vesting.paidOwner (itLog toCall log) = 991 := by
  obtain ⟨w, b, log, hr, hp⟩ := Sys.check_run (M := sys tokenStaked .other vesting toCall) (s := w0) (b := ⟨1, 1⟩)
    (cs := calls) (p := fun w b log => fine (daoLog log) && decide (w0.it.c.owner = { owner := some w.dao.core.core.me }) &&
      (itLog toCall log).any (fun ev => vestingOwners ev.call && decide (ev.env.block = sec 9)) &&
      decide (w.it.c.vest.status = .canceled 0) && decide (Spec.Vesting.paidRecipient (itLog toCall log) = 9) &&
      decide (Spec.Vesting.paidOwner (itLog toCall log) = 991)) (by decide +kernel)
  simp only [Bool.and_eq_true, decide_eq_true_eq, List.any_eq_true] at hp
  obtain ⟨⟨⟨⟨⟨h1, h2⟩, ev, hev, h3⟩, h4⟩, h5⟩, h6⟩ := hp
  obtain ⟨f1, f2⟩ := fine_both h1
  exact ⟨w, b, log, ⟨past, hr, by simpa using f1, by simpa using f2⟩, h2, ⟨ev, hev, h3⟩, h4, h5, h6⟩

/-- **C122.** The other case is possible as well: the members give the payroll away, and then account 7 cancels it. -/
theorem C122_example_given_away : ∃ (w : World TokenStaked.World Vesting.World) (b : Block)
    (log : List (Event TokenStaked.World Vesting.World Block TokenStaked.Call Vesting.Env Vesting.Call (List Vesting.Pay))),
    History tokenStaked .other vesting toCall w0 w ⟨1, 1⟩ b log [] [] ∧
    w0.it.c.owner = { owner := some w.dao.core.core.me } ∧
    (∃ ev ∈ itLog toCall log, vestingOwners ev.call = true ∧ ev.env.sender = 7) := by
  obtain ⟨w, b, log, hr, hp⟩ := Sys.check_run (M := sys tokenStaked .other vesting toCall) (s := w0) (b := ⟨1, 1⟩)
    (cs := before ++
      [(env 7 10, .dao (.prop (.propose none 0 [201] none true))),
       (env 8 10, .dao (.prop (.vote 1 .yes none))),
       (env 9 99, .dao (.prop (.execute 1 false))),
       (env 9 99, .pass (at' 9 1)),
       (env 10 7, .it (at' 10 7) (.msg (.updateOwnership .accept))),
       (env 11 7, .it (at' 11 7) (.msg .cancel))])
    (p := fun w b log => fine (daoLog log) && decide (w0.it.c.owner = { owner := some w.dao.core.core.me }) &&
      (itLog toCall log).any (fun ev => vestingOwners ev.call && decide (ev.env.sender = 7))) (by decide +kernel)
  simp only [Bool.and_eq_true, decide_eq_true_eq, List.any_eq_true] at hp
  obtain ⟨⟨h1, h2⟩, ev, hev, h3⟩ := hp
  obtain ⟨f1, f2⟩ := fine_both h1
  exact ⟨w, b, log, ⟨past, hr, by simpa using f1, by simpa using f2⟩, h2, ⟨ev, hev, h3⟩⟩

/-- Member 10 can act from second 7 on, as a program. -/
def ready (w : WholeDao.World TokenStaked.World) : Bool :=
  decide (w.core.core.voting = some w.voteAddr) && decide (w.prop.config.dao = w.core.core.me) &&
  decide (w.prop.policy = .anyone) && decide (w.prop.config.veto = none) && decide (w.prop.count = 0) &&
  decide (tokenStaked.totalWeight w.vote = 100) && decide (tokenStaked.weight w.vote 10 = 60) &&
  decide (w.prop.config.maxVotingPeriod = .height 100) &&
  decide (w.prop.config.threshold = .absolutePercentage .majority) &&
  decide (w.prop.config.onlyMembersExecute = false) && decide (DaoCore.isPaused w.core.core (sec 200) = false) &&
  (match w.core.core.modules.get w.propAddr with | some m => m.enabled | none => false)

theorem ready_majority {w : WholeDao.World TokenStaked.World} (h : ready w = true) :
    Majority tokenStaked w (sec 5) [10] (env 7 10) (env 200 99) := by
  simp only [ready, Bool.and_eq_true, decide_eq_true_eq] at h
  obtain ⟨⟨⟨⟨⟨⟨⟨⟨⟨⟨⟨h1, h2⟩, h3⟩, h4⟩, h5⟩, h6⟩, h7⟩, h8⟩, h9⟩, h10⟩, h11⟩, h12⟩ := h
  refine ⟨⟨h1, h2⟩, h3, h4, by rw [h5]; decide +kernel, by rw [h6]; decide +kernel, ⟨by decide, by decide⟩, by decide, rfl,
    by rw [h8]; decide, by simp, by simp [h7], by rw [h6, h9]; simp [h7, ShouldPass, Meets], ⟨by decide, by decide⟩,
    by rw [h8]; decide, by rw [h10]; simp, h11, ?_⟩
  split at h12
  · rename_i m hm; exact ⟨m, hm, h12⟩
  · cases h12

/-- **C123.** Member 10 proposes to cancel the payroll in second 7, votes, and has it carried out in second 200: account 2 got
or gets 200 of the thousand tokens, and the DAO 800. -/
theorem C123_example : ∃ (w w' : World TokenStaked.World Vesting.World) (b : Block)
    (log log' : List (Event TokenStaked.World Vesting.World Block TokenStaked.Call Vesting.Env Vesting.Call
      (List Vesting.Pay))) (o : List Vesting.Pay) (ow : Nat),
    (sys tokenStaked .other vesting toCall).Run w0 ⟨1, 1⟩ log w b ∧ log.length = 3 ∧
    (sys tokenStaked .other vesting toCall).Run w b log' w' (sec 200) ∧
    log'.map (fun ev => (ev.env, ev.call)) = [(env 200 99, .pass (at' 200 1)),
      (env 200 99, .dao (.prop (.execute 1 false))), (env 7 10, .dao (.prop (.vote 1 .yes none))),
      (env 7 10, .dao (.prop (.propose none 0 [200] none true)))] ∧
    w'.it.c.vest.status = .canceled ow ∧
    Spec.Vesting.paidRecipient (⟨w.it, at' 200 1, .msg .cancel, o, w'.it⟩ :: itLog toCall log) +
      Spec.Vesting.due w'.it.c.vest 200 = 200 ∧
    Spec.Vesting.paidOwner (⟨w.it, at' 200 1, .msg .cancel, o, w'.it⟩ :: itLog toCall log) + ow = 800 := by
  obtain ⟨w, b, log, hr, hp⟩ := Sys.check_run (M := sys tokenStaked .other vesting toCall) (s := w0) (b := ⟨1, 1⟩)
    (cs := before) (p := fun w b log => fine (daoLog log) && ready w.dao && decide (b = sec 5) && decide (log.length = 3) &&
      decide (w.dao.core.core.me = 1) && decide (w.it.c.owner.owner = some 1) && decide (w.it.c.vest.status = .funded) &&
      (itLog toCall log).all (fun e => Spec.Vesting.plainCall e.call) &&
      decide (w.it.c.vest.vested 200 = .ok 200) && decide (w.it.c.vest.slashed = 0) &&
      decide (Spec.Vesting.paidRecipient (itLog toCall log) = 5)) (by decide +kernel)
  simp only [Bool.and_eq_true, decide_eq_true_eq] at hp
  obtain ⟨⟨⟨⟨⟨⟨⟨⟨⟨⟨h1, h2⟩, rfl⟩, h4⟩, h5⟩, h6⟩, h7⟩, h8⟩, h9⟩, h10⟩, h11⟩ := hp
  obtain ⟨f1, _⟩ := fine_both h1
  have h8' : Spec.Vesting.Plain (itLog toCall log ++ []) := by
    simpa [Spec.Vesting.Plain, List.all_eq_true] using h8
  obtain ⟨w', log', o, g1, g2, g3, ow, g4, g5, g6⟩ := C123_cancel C80_token_staked past started .refl
    ⟨by decide, by decide⟩ hr (by simpa using f1) (ready_majority h2) (n := 200) (j := 200) rfl rfl (by rw [h5]; exact h6) h7
    h8' (y := 200) (by have : StakeTracker.secs (env 200 99).block = 200 := by decide
                       rw [this]; exact h9) 0
  simp only [List.append_nil, h5, h10, h11] at g2 g5 g6
  have hc : w.dao.prop.count = 0 := by
    simp only [ready, Bool.and_eq_true, decide_eq_true_eq] at h2
    exact h2.1.1.1.1.1.1.1.2
  rw [hc] at g2
  refine ⟨w, w', _, log, log', o, ow, hr, h4, g1, g2, g4, ?_, ?_⟩
  · exact g5.trans (by decide)
  · have : Spec.Vesting.paidRecipient (⟨w.it, at' 200 1, .msg .cancel, o, w'.it⟩ :: itLog toCall log) +
      Spec.Vesting.due w'.it.c.vest 200 = 200 := g5.trans (by decide)
    have h12 : Spec.Vesting.paidRecipient (⟨w.it, at' 200 1, .msg .cancel, o, w'.it⟩ :: itLog toCall log) +
      Spec.Vesting.due w'.it.c.vest 200 +
      (Spec.Vesting.paidOwner (⟨w.it, at' 200 1, .msg .cancel, o, w'.it⟩ :: itLog toCall log) + ow) = 1000 := g6
    omega

/-! ## The other contracts

In each case the members of DAO 1 decide to do what only the owner may do, and the DAO does it. -/

/-- Message 200 is the call `k`. -/
def tell {K : Type} (k : K) (n : Nat) : Option K := if n = 200 then some k else none

/-- The members join, decide on message 200, and it is carried out. -/
def story {G K : Type} (g : G) : List (Env × Call Block TokenStaked.Call G K) :=
  [(WholeDao.Example.env 2 10, .dao (.vote ⟨2, 2⟩ (.stake 10 60))),
   (WholeDao.Example.env 7 10, .dao (.prop (.propose none 0 [200] none true))),
   (WholeDao.Example.env 8 10, .dao (.prop (.vote 1 .yes none))),
   (WholeDao.Example.env 9 99, .dao (.prop (.execute 1 false))),
   (WholeDao.Example.env 9 99, .pass g)]

/-- The tests of the examples, as a program. -/
def passes {A G K R : Type} [DecidableEq K] (X : Contract A G K R) (x0 : A) (g : G) (k : K) : Bool :=
  (sys tokenStaked .other X (tell k)).check ⟨WholeDao.Example.w0, x0⟩ ⟨1, 1⟩ (story g) (fun w _ log => fine (daoLog log) &&
    decide (w.dao.core.core.me = 1) && decide ((itLog (tell k) log).map (fun ev => ev.call) = [k]))

theorem passes_history {A G K R : Type} [DecidableEq K] {X : Contract A G K R} {x0 : A} {g : G} {k : K}
    (hi : X.sys.init ⟨1, 1⟩ x0) (h : passes X x0 g k = true) :
    ∃ (w : World TokenStaked.World A) (b : Block) (log : List (Event TokenStaked.World A Block TokenStaked.Call G K R)),
      History tokenStaked .other X (tell k) ⟨WholeDao.Example.w0, x0⟩ w ⟨1, 1⟩ b log [] [] ∧ w.dao.core.core.me = 1 ∧
      ∃ ev ∈ itLog (tell k) log, ev.call = k := by
  obtain ⟨w, b, log, hr, hp⟩ := Sys.check_run h
  simp only [Bool.and_eq_true, decide_eq_true_eq] at hp
  obtain ⟨⟨h1, h2⟩, h3⟩ := hp
  obtain ⟨f1, f2⟩ := fine_both h1
  refine ⟨w, b, log, ⟨⟨⟨⟨1, 1⟩, ⟨⟨1, 1⟩, _, hi, .refl⟩, Block.le_refl _⟩, _, _, _, WholeDao.Example.init, rfl, .refl,
    Block.le_refl _⟩, hr, by simpa using f1, by simpa using f2⟩, h2, ?_⟩
  have : k ∈ (itLog (tell k) log).map (fun ev => ev.call) := by rw [h3]; exact List.mem_singleton.2 rfl
  obtain ⟨ev, hev, hk⟩ := List.mem_map.1 this
  exact ⟨ev, hev, hk⟩

def issuer0 : Issuer.World :=
  { here := 10, st := Issuer.instantiate 1 1, chain := { admin := [(1, 10)], hook := [], bal := [], burnsAny := true } }

/-- **C122.** The DAO lets account 5 mint a hundred tokens. -/
theorem C122_example_issuer : issuer0.st.owner = { owner := some 1 } ∧ issuerOwners (.exec (.setMinter 5 100)) = true ∧
    ∃ (w : World TokenStaked.World Issuer.World) (b : Block) (log : List (Event TokenStaked.World Issuer.World Block
      TokenStaked.Call Issuer.Env Issuer.Call Unit)),
      History tokenStaked .other issuer (tell (.exec (.setMinter 5 100))) ⟨WholeDao.Example.w0, issuer0⟩ w ⟨1, 1⟩ b log [] [] ∧
      w.dao.core.core.me = 1 ∧ ∃ ev ∈ itLog (tell (.exec (.setMinter 5 100))) log, ev.call = .exec (.setMinter 5 100) :=
  ⟨rfl, rfl, passes_history (g := { block := ⟨9, 9⟩, sender := 1 }) ⟨1, 1, rfl⟩ (by decide +kernel)⟩

def rewards0 : DaoRewards.World :=
  { c := { ownership := { owner := some 1 }, count := 0, dists := [], pending := [], accounted := [], hooks := [] }
    me := 7, bal := [], votes := [], now := ⟨1, 1⟩ }

def newDist : DaoRewards.Call := .exec 1 [] (.create (.native 0) (.linear 10 (.height 10) true) 50 60 none none)

/-- **C122.** The DAO creates a distribution. -/
theorem C122_example_rewards : rewards0.c.ownership = { owner := some 1 } ∧ rewardsOwners newDist = true ∧
    ∃ (w : World TokenStaked.World DaoRewards.World) (b : Block) (log : List (Event TokenStaked.World DaoRewards.World Block
      TokenStaked.Call Block DaoRewards.Call (List Verif.Pay))),
      History tokenStaked .other rewards (tell newDist) ⟨WholeDao.Example.w0, rewards0⟩ w ⟨1, 1⟩ b log [] [] ∧
      w.dao.core.core.me = 1 ∧ ∃ ev ∈ itLog (tell newDist) log, ev.call = newDist :=
  ⟨rfl, rfl, passes_history (g := ⟨9, 9⟩) ⟨rfl, rfl, fun a => ⟨AMap.WF_nil, AMap.WF_nil, Nat.zero_le _⟩⟩
    (by decide +kernel)⟩

def stake0 : Cw20Stake.World := Cw20Stake.exW

/-- **C122.** The DAO has account 77 told about stakes. -/
theorem C122_example_stake : stake0.c.ownership = { owner := some 1 } ∧ stakeOwners (.exec 1 (.addHook 77)) = true ∧
    ∃ (w : World TokenStaked.World Cw20Stake.World) (b : Block) (log : List (Event TokenStaked.World Cw20Stake.World Block
      TokenStaked.Call Block Cw20Stake.Call Cw20Stake.Out)),
      History tokenStaked .other stake (tell (.exec 1 (.addHook 77))) ⟨WholeDao.Example.w0, stake0⟩ w ⟨1, 1⟩ b log [] [] ∧
      w.dao.core.core.me = 1 ∧ ∃ ev ∈ itLog (tell (.exec 1 (.addHook 77))) log, ev.call = .exec 1 (.addHook 77) :=
  ⟨rfl, rfl, passes_history (g := ⟨9, 9⟩) ⟨some 1, 8, some (.height 10), rfl, by decide +kernel, by decide +kernel⟩
    (by decide +kernel)⟩

def distributor0 : RewardDistributor.World :=
  { c := { ownership := { owner := some 1 }, staking := 20, rate := 5, token := 30, lastPayment := 1 }
    self := 99, ledger := [((30, 99), 60)] }

/-- **C122.** The DAO takes the tokens back. -/
theorem C122_example_distributor : distributor0.c.ownership = { owner := some 1 } ∧
    distributorOwners (.exec 1 .withdraw) = true ∧
    ∃ (w : World TokenStaked.World RewardDistributor.World) (b : Block) (log : List (Event TokenStaked.World
      RewardDistributor.World Block TokenStaked.Call RewardDistributor.Env RewardDistributor.Call
      (Option RewardDistributor.Pay))),
      History tokenStaked .other distributor (tell (.exec 1 .withdraw)) ⟨WholeDao.Example.w0, distributor0⟩ w ⟨1, 1⟩ b log []
        [] ∧ w.dao.core.core.me = 1 ∧ ∃ ev ∈ itLog (tell (.exec 1 .withdraw)) log, ev.call = .exec 1 .withdraw :=
  ⟨rfl, rfl, passes_history (g := { block := ⟨9, 9⟩ }) ⟨{ block := ⟨1, 1⟩ }, 1, 20, 5, 30, rfl, by decide +kernel⟩
    (by decide +kernel)⟩

def external0 : ExternalRewards.World :=
  { c := { ownership := { owner := some 1 }, staking := 20, token := .native, finish := 0, rate := 0, duration := 10
           perToken := 0, lastUpdate := 0, pending := [], userPerToken := [] }
    self := 99, ledger := [], stakes := Snap.empty, totals := Snap.empty }

/-- **C122.** The DAO changes how long a funding lasts. -/
theorem C122_example_external : external0.c.ownership = { owner := some 1 } ∧
    externalOwners (.exec 1 (.updateRewardDuration 7)) = true ∧
    ∃ (w : World TokenStaked.World ExternalRewards.World) (b : Block) (log : List (Event TokenStaked.World
      ExternalRewards.World Block TokenStaked.Call Block ExternalRewards.Call ExternalRewards.Pay)),
      History tokenStaked .other external (tell (.exec 1 (.updateRewardDuration 7))) ⟨WholeDao.Example.w0, external0⟩ w ⟨1, 1⟩
        b log [] [] ∧ w.dao.core.core.me = 1 ∧
      ∃ ev ∈ itLog (tell (.exec 1 (.updateRewardDuration 7))) log, ev.call = .exec 1 (.updateRewardDuration 7) :=
  ⟨rfl, rfl, passes_history (g := ⟨9, 9⟩) ⟨⟨some 1, 20, .native, 10, by decide +kernel⟩, AMap.WF_nil, rfl, by decide +kernel,
    Snap.upTo_empty _, Snap.upTo_empty _, by decide +kernel⟩ (by decide +kernel)⟩

def payroll0 : PayrollFactory.World :=
  { c := PayrollFactory.instantiate (some 1) 4, self := 99, bal := [], vests := [], honest := [], bond := 0, vestCode := 4 }

/-- **C122.** The DAO changes the code of payrolls. -/
theorem C122_example_payroll : payroll0.c.owner = { owner := some 1 } ∧ payrollOwners (.msg (.updateCodeId 5)) = true ∧
    ∃ (w : World TokenStaked.World PayrollFactory.World) (b : Block) (log : List (Event TokenStaked.World
      PayrollFactory.World Block TokenStaked.Call PayrollFactory.Env PayrollFactory.Call (Option Addr))),
      History tokenStaked .other payroll (tell (.msg (.updateCodeId 5))) ⟨WholeDao.Example.w0, payroll0⟩ w ⟨1, 1⟩ b log [] [] ∧
      w.dao.core.core.me = 1 ∧ ∃ ev ∈ itLog (tell (.msg (.updateCodeId 5))) log, ev.call = .msg (.updateCodeId 5) :=
  ⟨rfl, rfl, passes_history (g := { block := ⟨9, 9⟩, sender := 1, newAddr := 98 })
    ⟨⟨some 1, 4, rfl⟩, rfl, by decide, fun _ => (by decide +kernel : (0 : Nat) < U128)⟩ (by decide +kernel)⟩

def roles0 : Roles.State := Roles.instantiate ⟨1, 1⟩ 1

/-- **C122.** The DAO gives account 5 a role with weight 3. -/
theorem C122_example_roles : roles0.ownership = { owner := some 1 } ∧
    ∃ (w : World TokenStaked.World Roles.State) (b : Block) (log : List (Event TokenStaked.World Roles.State Block
      TokenStaked.Call Roles.Env Roles.Msg Roles.Out)),
      History tokenStaked .other roles (tell (.mint 1 5 none none 3)) ⟨WholeDao.Example.w0, roles0⟩ w ⟨1, 1⟩ b log [] [] ∧
      w.dao.core.core.me = 1 ∧ ∃ ev ∈ itLog (tell (.mint 1 5 none none 3)) log, ev.call = .mint 1 5 none none 3 :=
  ⟨rfl, passes_history (g := ⟨⟨9, 9⟩, 1⟩) ⟨1, rfl⟩ (by decide +kernel)⟩

end Verif.OwnedDao.Example
