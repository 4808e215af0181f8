import Verif.Props.OwnRulesLive
import Verif.Props.WholeDaoExample
/-!
# C124, C125: DAOs that change their rules and their members

Members 10 and 11 have 60 and 40 votes. Message 200 is what the DAO is to say to its modules.
-/

namespace Verif.OwnRules.Example
open Verif Verif.Voting Verif.WholeDao Verif.Spec.OwnRules
open Verif.Spec (ShouldPass Meets)
open Verif.Spec.WholeDao (Lawful Steady Sole Authorised)
open Verif.Spec.OwnedDao (Majority)
open Verif.WholeDao.Example (oldCore prop0 env)

variable {S E C O : Type}

/-- A DAO with the voting module `v`. -/
def world (v : S) : World S := ⟨⟨(DaoCore.migrate oldCore [3] none).1, []⟩, prop0, v, 3, 2⟩

theorem world_init {V : VotingModule S E C O} {v : S} {l : List (Ev S E C O)} (hv : V.sys.Reach v ⟨1, 1⟩ l) :
    Init V ⟨1, 1⟩ (world v) := by
  refine ⟨(by decide : (3 : Nat) ≠ 1), ⟨⟨1, 1⟩, [], ⟨⟨1, 1⟩, _, ?_, .refl⟩, Block.le_refl _⟩, ⟨⟨1, 1⟩, l, hv, Block.le_refl _⟩,
    ⟨⟨1, 1⟩, 1, fun _ _ _ => 0, fun _ _ => 0, true⟩, prop0.config, .anyoneMayPropose, ⟨[], none⟩,
    rfl, rfl, (by decide +kernel : Single.instantiate _ prop0.config .anyoneMayPropose = .ok (prop0, ⟨[], none⟩))⟩
  exact DaoCore.Init.migrated (old := oldCore) (keys := [3]) (params := none) (by decide) (by decide)
    (by decide +kernel) (by decide) AMap.WF_nil AMap.WF_nil AMap.WF_nil rfl

/-- `Steady` and `Sole`, as a program. -/
def fine (log : List (Event S E C)) : Bool :=
  log.all (fun e => decide (e.pre.core.core.voting = some e.pre.voteAddr) &&
    decide (e.pre.prop.config.dao = e.pre.core.core.me) && decide (e.pre.core.core.admin = e.pre.core.core.me) &&
    e.pre.core.core.modules.all (fun m => decide (m.1 = e.pre.propAddr)))

theorem fine_steady {log : List (Event S E C)} (h : fine log = true) : Steady log ∧ Sole log := by
  simp only [Bool.and_eq_true, decide_eq_true_eq, fine, List.all_eq_true] at h
  refine ⟨fun e he => ⟨(h e he).1.1.1, (h e he).1.1.2⟩, fun e he => ⟨(h e he).1.2, ?_⟩⟩
  rintro a ⟨m, hm, _⟩
  exact (h e he).2 _ (AMap.mem_of_get hm)

/-- The last delivered message says `x`, as a program. -/
def justSent [DecidableEq C] (toCall : Nat → Option (Said C)) (x : Said C) : List (Event S E C) → Bool
  | [] => false
  | e :: _ => match e.call, e.pre.core.stack with
    | .core (.deliver _), .send (.other n) :: _ => decide (toCall n = some x)
    | _, _ => false

/-- `FromList`, as a program. -/
def fromListB [DecidableEq C] (caller : E → C → Option Addr) (toCall : Nat → Option (Said C)) : List (Event S E C) → Bool
  | [] => true
  | e :: log => fromListB caller toCall log && (match said e.call with
    | none => true
    | some x => !decide (speaker caller e.env e.call = some e.pre.core.core.me) || justSent toCall x log)

theorem fromListB_ok [DecidableEq C] {caller : E → C → Option Addr} {toCall : Nat → Option (Said C)} :
    ∀ {log : List (Event S E C)}, fromListB caller toCall log = true → FromList caller toCall log
  | [], _ => by intro later before e x hl; simp at hl
  | e :: log, h => by
    simp only [fromListB, Bool.and_eq_true] at h
    refine fromList_cons (fromListB_ok h.1) (fun x hx hs => ?_)
    have h2 := h.2
    rw [hx] at h2
    simp only [hs, decide_true, Bool.not_true, Bool.false_or] at h2
    cases log with
    | nil => cases h2
    | cons e' rest =>
      simp only [justSent] at h2
      split at h2
      · rename_i r n tl h3 h4
        exact ⟨e', rest, r, n, tl, rfl, h3, h4, of_decide_eq_true h2⟩
      · cases h2

theorem story_history [DecidableEq C] {V : VotingModule S E C O} {caller : E → C → Option Addr}
    {toCall : Nat → Option (Said C)} {v : S} {l : List (Ev S E C O)} (hv : V.sys.Reach v ⟨1, 1⟩ l) {w : World S} {b : Block}
    {log : List (Event S E C)} (hr : (sys V .other).Run (world v) ⟨1, 1⟩ log w b)
    (hf : fine log = true) (hl : fromListB caller toCall log = true) :
    History V .other caller toCall (world v) w ⟨1, 1⟩ b log :=
  ⟨world_init hv, rfl, hr, (fine_steady hf).1, (fine_steady hf).2, fromListB_ok hl⟩

/-- Message 200 says `x`. -/
def tell (x : Said C) (n : Nat) : Option (Said C) := if n = 200 then some x else none

/-- The members decide on message 200 in a proposal `i`, and the DAO has it to say. -/
def decided : List (Env × Call E C) :=
  [(env 6 11, .prop (.propose none 0 [3] none true)),
   (env 7 10, .prop (.propose none 0 [200] none true)),
   (env 8 11, .prop (.vote 2 .no none)),
   (env 8 10, .prop (.vote 2 .yes none)),
   (env 9 99, .prop (.execute 2 false)),
   (env 9 99, .core (.deliver ⟨0, []⟩))]

/-- Member 10 can act from block 7 on, as a program. -/
def ready (V : VotingModule S E C O) (w : World S) : Bool :=
  decide (w.core.core.voting = some w.voteAddr) && decide (w.prop.config.dao = w.core.core.me) &&
  decide (w.prop.policy = .anyone) && decide (w.prop.config.veto = none) && decide (w.prop.count = 1) &&
  decide (V.totalWeight w.vote = 100) && decide (V.weight w.vote 10 = 60) &&
  decide (w.prop.config.maxVotingPeriod = .height 100) &&
  decide (w.prop.config.threshold = .absolutePercentage .majority) &&
  decide (w.prop.config.onlyMembersExecute = false) && decide (DaoCore.isPaused w.core.core ⟨200, 200⟩ = false) &&
  (match w.core.core.modules.get w.propAddr with | some m => m.enabled | none => false)

theorem ready_majority {V : VotingModule S E C O} {w : World S} (h : ready V w = true) :
    Majority V w ⟨6, 6⟩ [10] (env 7 10) (env 200 99) := by
  simp only [ready, Bool.and_eq_true, decide_eq_true_eq] at h
  obtain ⟨⟨⟨⟨⟨⟨⟨⟨⟨⟨⟨h1, h2⟩, h3⟩, h4⟩, h5⟩, h6⟩, h7⟩, h8⟩, h9⟩, h10⟩, h11⟩, h12⟩ := h
  refine ⟨⟨h1, h2⟩, h3, h4, by rw [h5]; decide +kernel, by rw [h6]; decide +kernel, ⟨by decide, by decide⟩, by decide, rfl,
    by rw [h8]; decide, by simp, by simp [h7], by rw [h6, h9]; simp [h7, ShouldPass, Meets], ⟨by decide, by decide⟩,
    by rw [h8]; decide, by rw [h10]; simp, h11, ?_⟩
  split at h12
  · rename_i m hm; exact ⟨m, hm, h12⟩
  · cases h12

/-! ## A group of members -/

def group0 : Cw4Voting.World := (Cw4Voting.instantiateNew ⟨1, 1⟩ 1 2 [(10, 60), (11, 40)]).toOption.getD
  ⟨0, 0, ⟨none, Snap.empty, Snap.empty⟩⟩

theorem group0_reach : cw4.sys.Reach group0 ⟨1, 1⟩ [] :=
  ⟨⟨1, 1⟩, _, Cw4Voting.Created.new (dao := 1) (group := 2) (ms := [(10, 60), (11, 40)]) (by decide +kernel), .refl⟩

/-- Expel 11, admit 12 with 5 votes. -/
def admit : Cw4Voting.VCall := .group ⟨1, .updateMembers [11] [(12, 5)]⟩

/-- **C124.** A DAO over a group: the members decide to expel 11 and to admit 12, and the DAO does it. -/
theorem C124_example_cw4 : ∃ (w : World Cw4Voting.World) (b : Block)
    (log : List (Event Cw4Voting.World Block Cw4Voting.VCall)),
    History cw4 .other cw4Caller (tell (.vote admit)) (world group0) w ⟨1, 1⟩ b log ∧
    (world group0).vote.group.admin = some (world group0).core.core.me ∧ (∃ e ∈ log, e.post.vote ≠ e.pre.vote) ∧
    cw4.weight w.vote 11 = 0 ∧ cw4.weight w.vote 12 = 5 := by
  obtain ⟨w, b, log, hr, hp⟩ := Sys.check_run (M := sys cw4 .other) (s := world group0) (b := ⟨1, 1⟩)
    (cs := decided ++ [(env 9 99, .vote ⟨9, 9⟩ admit)])
    (p := fun w b log => fine log && fromListB cw4Caller (tell (.vote admit)) log &&
      log.any (fun e => decide (e.post.vote ≠ e.pre.vote)) && decide (cw4.weight w.vote 11 = 0) &&
      decide (cw4.weight w.vote 12 = 5)) (by decide +kernel)
  simp only [Bool.and_eq_true, decide_eq_true_eq, List.any_eq_true] at hp
  obtain ⟨⟨⟨⟨h1, h2⟩, h3⟩, h4⟩, h5⟩ := hp
  exact ⟨w, b, log, story_history group0_reach hr h1 h2, by decide +kernel, h3, h4, h5⟩

/-- **C125.** With 60 of the 100 votes, member 10 has 11 expelled and 12 admitted. -/
theorem C125_example_cw4 : ∃ (w w' : World Cw4Voting.World) (log log' : List (Event Cw4Voting.World Block Cw4Voting.VCall)),
    History cw4 .other cw4Caller (tell (.vote admit)) (world group0) w ⟨1, 1⟩ ⟨6, 6⟩ log ∧ log.length = 1 ∧
    (sys cw4 .other).Run w ⟨6, 6⟩ log' w' ⟨200, 200⟩ ∧ log'.length = 5 ∧
    cw4.weight w.vote 11 = 40 ∧ cw4.weight w'.vote 11 = 0 ∧ cw4.weight w'.vote 12 = 5 ∧ cw4.weight w'.vote 10 = 60 := by
  obtain ⟨w, b, log, hr, hp⟩ := Sys.check_run (M := sys cw4 .other) (s := world group0) (b := ⟨1, 1⟩)
    (cs := decided.take 1)
    (p := fun w b log => fine log && fromListB cw4Caller (tell (.vote admit)) log && ready cw4 w && decide (b = ⟨6, 6⟩) &&
      decide (w.core.core.me = 1) && decide (w.vote.group.admin = some 1) && decide (log.length = 1) &&
      decide (cw4.weight w.vote 11 = 40)) (by decide +kernel)
  simp only [Bool.and_eq_true, decide_eq_true_eq] at hp
  obtain ⟨⟨⟨⟨⟨⟨⟨h1, h2⟩, h3⟩, rfl⟩, h5⟩, h6⟩, h7⟩, h8⟩ := hp
  have hh := story_history group0_reach hr h1 h2
  have ht : cw4.totalWeight w.vote = 100 ∧ cw4.weight w.vote 10 = 60 := by
    simp only [ready, Bool.and_eq_true, decide_eq_true_eq] at h3
    exact ⟨h3.1.1.1.1.1.1.2, h3.1.1.1.1.1.2⟩
  obtain ⟨w', log', g1, _, g2, g3, g4, g5⟩ := C125_members_cw4 hh (ready_majority h3) (by rw [h5]; decide) (by rw [h5]; exact h6)
    (n := 200) (j := 200) rfl (remove := [11]) (add := [(12, 5)]) (by rw [h5]; rfl) (by simp) (by rw [ht.1]; decide) 0
  refine ⟨w, w', log, log', hh, h7, g1, ?_, h8, g3 11 (by simp), g4 12 5 (by simp) (by decide), ?_⟩
  · have := congrArg List.length g2
    simpa [script] using this
  · rw [g5 10 (by decide) (by simp)]; exact ht.2

/-! ## Roles -/

/-- The DAO made the role contract, and gave member 10 a role of 60 and member 11 one of 40. -/
def roles0 : Roles.Voting.World := ⟨1, 2, 4,
  ((Roles.Voting.mintAll (Roles.instantiate ⟨1, 1⟩ 1) ⟨1, 1⟩ 1 [⟨1, 10, none, none, 60⟩, ⟨2, 11, none, none, 40⟩]).toOption.getD
    (Roles.instantiate ⟨1, 1⟩ 1))⟩

theorem roles0_reach : roles.sys.Reach roles0 ⟨1, 1⟩ [] := by
  obtain ⟨s, b, log, hr, hp⟩ := Sys.check_run (M := Roles.sys) (s := Roles.instantiate ⟨1, 1⟩ 1) (b := ⟨1, 1⟩)
    (cs := [(⟨⟨1, 1⟩, 1⟩, .mint 1 10 none none 60), (⟨⟨1, 1⟩, 1⟩, .mint 2 11 none none 40)])
    (p := fun s b _ => decide (s = roles0.roles) && decide (b = ⟨1, 1⟩)) (by decide +kernel)
  simp only [Bool.and_eq_true, decide_eq_true_eq] at hp
  obtain ⟨rfl, rfl⟩ := hp
  exact ⟨⟨1, 1⟩, _, ⟨log, ⟨_, _, ⟨1, rfl⟩, hr⟩⟩, .refl⟩

/-- A role of 5 for account 12. -/
def appoint : Roles.Voting.Call := .roles (.mint 3 12 none none 5)

/-- **C124.** A DAO of roles: the members decide to give 12 a role, and the DAO does it. -/
theorem C124_example_roles : ∃ (w : World Roles.Voting.World) (b : Block)
    (log : List (Event Roles.Voting.World Roles.Env Roles.Voting.Call)),
    History roles .other rolesCaller (tell (.vote appoint)) (world roles0) w ⟨1, 1⟩ b log ∧
    (world roles0).vote.roles.ownership.owner = some (world roles0).core.core.me ∧ (∃ e ∈ log, e.post.vote ≠ e.pre.vote) ∧
    roles.weight w.vote 12 = 5 := by
  obtain ⟨w, b, log, hr, hp⟩ := Sys.check_run (M := sys roles .other) (s := world roles0) (b := ⟨1, 1⟩)
    (cs := decided ++ [(env 9 99, .vote ⟨⟨9, 9⟩, 1⟩ appoint)])
    (p := fun w b log => fine log && fromListB rolesCaller (tell (.vote appoint)) log &&
      log.any (fun e => decide (e.post.vote ≠ e.pre.vote)) && decide (roles.weight w.vote 12 = 5)) (by decide +kernel)
  simp only [Bool.and_eq_true, decide_eq_true_eq, List.any_eq_true] at hp
  obtain ⟨⟨⟨h1, h2⟩, h3⟩, h4⟩ := hp
  exact ⟨w, b, log, story_history roles0_reach hr h1 h2, by decide +kernel, h3, h4⟩

/-- **C125.** With 60 of the 100 votes, member 10 has a role given to 12. -/
theorem C125_example_roles : ∃ (w w' : World Roles.Voting.World)
    (log log' : List (Event Roles.Voting.World Roles.Env Roles.Voting.Call)),
    History roles .other rolesCaller (tell (.vote appoint)) (world roles0) w ⟨1, 1⟩ ⟨6, 6⟩ log ∧ log.length = 1 ∧
    (sys roles .other).Run w ⟨6, 6⟩ log' w' ⟨200, 200⟩ ∧ log'.length = 5 ∧
    roles.weight w'.vote 12 = 5 ∧ roles.weight w'.vote 10 = 60 := by
  obtain ⟨w, b, log, hr, hp⟩ := Sys.check_run (M := sys roles .other) (s := world roles0) (b := ⟨1, 1⟩)
    (cs := decided.take 1)
    (p := fun w b log => fine log && fromListB rolesCaller (tell (.vote appoint)) log && ready roles w && decide (b = ⟨6, 6⟩) &&
      decide (w.core.core.me = 1) && decide (w.vote = roles0) && decide (log.length = 1)) (by decide +kernel)
  simp only [Bool.and_eq_true, decide_eq_true_eq] at hp
  obtain ⟨⟨⟨⟨⟨⟨h1, h2⟩, h3⟩, rfl⟩, h5⟩, h6⟩, h7⟩ := hp
  have hh := story_history roles0_reach hr h1 h2
  obtain ⟨w', log', g1, _, g2, g3, g4⟩ := C125_members_roles hh (ready_majority h3) (by rw [h5]; decide)
    (by rw [h5, h6]; decide +kernel) (by rw [h5, h6]; decide) (n := 200) (j := 200) rfl (t := 3) (a := 12) (k := 5) (u := none)
    (r := none) rfl (by rw [h6]; decide +kernel) (by rw [h6]; decide +kernel) (by rw [h6]; decide +kernel) 0
  refine ⟨w, w', log, log', hh, h7, g1, ?_, ?_, ?_⟩
  · have := congrArg List.length g2
    simpa [script] using this
  · rw [g3, h6]; decide +kernel
  · rw [g4 10 (by decide), h6]; decide +kernel

/-! ## Staked tokens and NFTs: the rules -/

/-- Member `a` joins by `c` and decides alone on message 200, and the DAO says `k`. -/
def rule (a : Addr) (joins : List C) (k : C) : List (Env × Call Block C) :=
  joins.map (fun c => (env 2 a, .vote ⟨2, 2⟩ c)) ++
  [(env 7 a, .prop (.propose none 0 [200] none true)),
   (env 8 a, .prop (.vote 1 .yes none)),
   (env 9 99, .prop (.execute 1 false)),
   (env 9 99, .core (.deliver ⟨0, []⟩)),
   (env 9 99, .vote ⟨9, 9⟩ k)]

/-- **C124.** dao-voting-token-staked: the members decide on an unstaking duration. -/
theorem C124_example_token : ∃ (w : World TokenStaked.World) (b : Block)
    (log : List (Event TokenStaked.World Block TokenStaked.Call)),
    History tokenStaked .other tokenCaller (tell (.vote (.exec 1 (.updateConfig (some (.height 5))))))
      (world WholeDao.Example.vote0) w ⟨1, 1⟩ b log ∧ w.vote.c.unstakingDuration = some (.height 5) ∧
    (∃ e ∈ log, e.post.vote.c.unstakingDuration ≠ e.pre.vote.c.unstakingDuration) := by
  obtain ⟨w, b, log, hr, hp⟩ := Sys.check_run (M := sys tokenStaked .other) (s := world WholeDao.Example.vote0) (b := ⟨1, 1⟩)
    (cs := rule 10 [.stake 10 60] (.exec 1 (.updateConfig (some (.height 5)))))
    (p := fun w b log => fine log && fromListB tokenCaller (tell (.vote (.exec 1 (.updateConfig (some (.height 5)))))) log &&
      decide (w.vote.c.unstakingDuration = some (.height 5)) &&
      log.any (fun e => decide (e.post.vote.c.unstakingDuration ≠ e.pre.vote.c.unstakingDuration))) (by decide +kernel)
  simp only [Bool.and_eq_true, decide_eq_true_eq, List.any_eq_true] at hp
  obtain ⟨⟨⟨h1, h2⟩, h3⟩, h4⟩ := hp
  exact ⟨w, b, log, story_history (V := tokenStaked) (v := WholeDao.Example.vote0) (l := []) ⟨⟨1, 1⟩, _, ⟨1, none, none, by decide +kernel, .existing (by decide +kernel),
    by decide +kernel⟩, .refl⟩ hr h1 h2, h3, h4⟩

/-- **C124.** dao-voting-cw721-staked: the members decide on an active threshold. -/
theorem C124_example_nft : ∃ (w : World NftStaked.World) (b : Block)
    (log : List (Event NftStaked.World Block NftStaked.Call)),
    History nftStaked .other nftCaller (tell (.vote (.exec 1 (.updateActiveThreshold (some (.absolute 2))))))
      (world NftStaked.exW) w ⟨1, 1⟩ b log ∧ w.vote.c.threshold = some (.absolute 2) ∧
    (∃ e ∈ log, e.post.vote.c.threshold ≠ e.pre.vote.c.threshold) := by
  obtain ⟨w, b, log, hr, hp⟩ := Sys.check_run (M := sys nftStaked .other) (s := world NftStaked.exW) (b := ⟨1, 1⟩)
    (cs := rule 2 [.send 2 4, .send 2 5] (.exec 1 (.updateActiveThreshold (some (.absolute 2)))))
    (p := fun w b log => fine log && fromListB nftCaller (tell (.vote (.exec 1 (.updateActiveThreshold (some (.absolute 2)))))) log &&
      decide (w.vote.c.threshold = some (.absolute 2)) &&
      log.any (fun e => decide (e.post.vote.c.threshold ≠ e.pre.vote.c.threshold))) (by decide +kernel)
  simp only [Bool.and_eq_true, decide_eq_true_eq, List.any_eq_true] at hp
  obtain ⟨⟨⟨h1, h2⟩, h3⟩, h4⟩ := hp
  exact ⟨w, b, log, story_history (V := nftStaked) (v := NftStaked.exW) (l := []) ⟨⟨1, 1⟩, _, ⟨1, 8, some 4, some (.height 10), some (.percentage 400000000000000000),
    by decide +kernel, Or.inl rfl, by unfold AMap.WF; decide +kernel, by decide +kernel⟩, .refl⟩ hr h1 h2, h3, h4⟩

/-- **C124.** dao-voting-onft-staked: the members decide to have no active threshold. -/
theorem C124_example_onft : ∃ (w : World OnftStaked.World) (b : Block)
    (log : List (Event OnftStaked.World Block OnftStaked.Call)),
    History onftStaked .other onftCaller (tell (.vote (.exec 1 (.updateActiveThreshold none))))
      (world OnftStaked.exW) w ⟨1, 1⟩ b log ∧ w.vote.n.c.threshold = none ∧
    (∃ e ∈ log, e.post.vote.n.c.threshold ≠ e.pre.vote.n.c.threshold) := by
  obtain ⟨w, b, log, hr, hp⟩ := Sys.check_run (M := sys onftStaked .other) (s := world OnftStaked.exW) (b := ⟨1, 1⟩)
    (cs := rule 2 [.exec 2 (.prepareStake [5, 4]), .transfer 2 9 4, .transfer 2 9 5, .exec 2 (.confirmStake [4, 5])]
      (.exec 1 (.updateActiveThreshold none)))
    (p := fun w b log => fine log && fromListB onftCaller (tell (.vote (.exec 1 (.updateActiveThreshold none)))) log &&
      decide (w.vote.n.c.threshold = none) &&
      log.any (fun e => decide (e.post.vote.n.c.threshold ≠ e.pre.vote.n.c.threshold))) (by decide +kernel)
  simp only [Bool.and_eq_true, decide_eq_true_eq, List.any_eq_true] at hp
  obtain ⟨⟨⟨h1, h2⟩, h3⟩, h4⟩ := hp
  exact ⟨w, b, log, story_history (l := []) ⟨⟨1, 1⟩, _, OnftStaked.exW_init, .refl⟩ hr h1 h2, h3, h4⟩

/-- **C124.** dao-voting-cw20-staked: the members decide to have no active threshold. -/
theorem C124_example_cw20 : ∃ (w : World Cw20Voting.World) (b : Block)
    (log : List (Event Cw20Voting.World Block Cw20Voting.Call)),
    History cw20Staked .other cw20Caller (tell (.vote (.update 1 none))) (world Cw20Voting.exW) w ⟨1, 1⟩ b log ∧
    w.vote.v.threshold = none ∧ (∃ e ∈ log, e.post.vote.v.threshold ≠ e.pre.vote.v.threshold) := by
  obtain ⟨w, b, log, hr, hp⟩ := Sys.check_run (M := sys cw20Staked .other) (s := world Cw20Voting.exW) (b := ⟨1, 1⟩)
    (cs := rule 2 [.stake (.send 2 1000 .stake)] (.update 1 none))
    (p := fun w b log => fine log && fromListB cw20Caller (tell (.vote (.update 1 none))) log &&
      decide (w.vote.v.threshold = none) &&
      log.any (fun e => decide (e.post.vote.v.threshold ≠ e.pre.vote.v.threshold))) (by decide +kernel)
  simp only [Bool.and_eq_true, decide_eq_true_eq, List.any_eq_true] at hp
  obtain ⟨⟨⟨h1, h2⟩, h3⟩, h4⟩ := hp
  exact ⟨w, b, log, story_history (l := []) ⟨⟨1, 1⟩, _, Cw20Voting.exCreated, .refl⟩ hr h1 h2, h3, h4⟩

/-! ## The rules of proposals -/

/-- Only members execute. -/
def strict : Single.Config := { prop0.config with onlyMembersExecute := true }

/-- **C124, C125.** With 60 of the 100 votes, member 10 has the configuration of the proposal module changed. The whole history is
as C124 wants it. -/
theorem C125_example_rules : ∃ (w w' : World Cw4Voting.World) (log log' : List (Event Cw4Voting.World Block Cw4Voting.VCall)),
    History cw4 .other cw4Caller (tell (.prop (.updateConfig strict))) (world group0) w ⟨1, 1⟩ ⟨6, 6⟩ log ∧ log.length = 1 ∧
    (sys cw4 .other).Run w ⟨6, 6⟩ log' w' ⟨200, 200⟩ ∧
    FromList cw4Caller (tell (.prop (.updateConfig strict))) (log' ++ log) ∧
    w.prop.config.onlyMembersExecute = false ∧ w'.prop.config.onlyMembersExecute = true := by
  obtain ⟨w, b, log, hr, hp⟩ := Sys.check_run (M := sys cw4 .other) (s := world group0) (b := ⟨1, 1⟩)
    (cs := decided.take 1)
    (p := fun w b log => fine log && fromListB cw4Caller (tell (.prop (.updateConfig strict))) log && ready cw4 w &&
      decide (b = ⟨6, 6⟩) && decide (w.core.core.me = 1) && decide (log.length = 1) &&
      decide (w.prop.config.onlyMembersExecute = false)) (by decide +kernel)
  simp only [Bool.and_eq_true, decide_eq_true_eq] at hp
  obtain ⟨⟨⟨⟨⟨⟨h1, h2⟩, h3⟩, rfl⟩, h5⟩, h6⟩, h7⟩ := hp
  have hh := story_history group0_reach hr h1 h2
  obtain ⟨w', log', g1, g2, _, g3, _⟩ := C125_rules C80_cw4 hh (ready_majority h3) (by rw [h5]; decide)
    (n := 200) (j := 200) rfl (c := strict) rfl (Single.sound_ok.1 (by decide +kernel : Single.validateConfig strict = .ok ())) 0
  exact ⟨w, w', log, log', hh, h6, g1, g2, h7, by rw [g3]; rfl⟩

end Verif.OwnRules.Example
