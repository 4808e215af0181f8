import Verif.Props.WholeCondorcetModules
/-!
# C94: examples, and what goes wrong with cw4-group and cw721-roles
-/

namespace Verif.WholeCondorcet.Example
open Verif
open Verif.Voting hiding Vote Votes
open Verif.Spec.WholeCondorcet Verif.WholeCondorcet
open Verif.Spec (NineDec)
open Verif.Spec.Condorcet (castPower)
open Verif.WholeDao (tokenStaked cw4 roles VotingModule)

/-- Message 7 is an admin message of the DAO to itself. -/
def decode (n : Nat) : DaoCore.CosmosMsg :=
  if n = 7 then .toSelf (.executeAdminMsgs [.other 9]) else .other n

def oldCore : DaoCore.State :=
  { me := 1, admin := 1, nominated := none, config := ⟨0, true, true⟩, paused := none, voting := some 2, modules := []
    active := 0, total := 0, items := [], cw20s := [], cw721s := [], subDaos := [] }

def config0 : Condorcet.Config :=
  { quorum := .majority, votingPeriod := .height 100, minVotingPeriod := none, closeOnExecutionFailure := true }

def prop0 : Condorcet.State := { dao := 1, config := config0, tallies := [], proposals := [], votes := [] }

/-- The DAO over a voting module. -/
def dao {S : Type} (v : S) : World S := ⟨⟨(DaoCore.migrate oldCore [3] none).1, []⟩, prop0, v, 3, 2⟩

def env (h : Nat) (sender : Addr) : Env :=
  ⟨⟨h, h⟩, sender, fun _ _ _ => 0, fun _ _ => 0, fun _ => 0, fun _ => true, fun _ => true⟩

theorem core_init : DaoCore.Init ⟨1, 1⟩ ⟨(DaoCore.migrate oldCore [3] none).1, []⟩ :=
  DaoCore.Init.migrated (old := oldCore) (keys := [3]) (params := none) (by decide) (by decide)
    (by decide +kernel) (by decide) AMap.WF_nil AMap.WF_nil AMap.WF_nil rfl

theorem prop_init : Condorcet.instantiate ⟨⟨1, 1⟩, 1, fun _ _ _ => 0, fun _ _ => 0, fun _ => 0⟩ config0 = .ok prop0 := by
  decide +kernel

theorem init {S E C O : Type} {V : VotingModule S E C O} {v : S} (hv : V.sys.init ⟨1, 1⟩ v) : Init V ⟨1, 1⟩ (dao v) :=
  ⟨show (3 : Nat) ≠ 1 by decide, ⟨⟨1, 1⟩, [], ⟨⟨1, 1⟩, _, core_init, .refl⟩, Block.le_refl _⟩,
    ⟨⟨1, 1⟩, [], ⟨⟨1, 1⟩, _, hv, .refl⟩, Block.le_refl _⟩, ⟨⟨1, 1⟩, 1, fun _ _ _ => 0, fun _ _ => 0, fun _ => 0⟩,
    config0, rfl, rfl, prop_init⟩

/-- The tests of an example, as a program. -/
def fine {S E C : Type} (log : List (Event S E C)) : Bool :=
  log.all (fun e => decide (e.pre.core.core.voting = some e.pre.voteAddr) &&
    decide (e.pre.core.core.admin = e.pre.core.core.me) &&
    e.pre.core.core.modules.all (fun m => decide (m.1 = e.pre.propAddr)))

theorem fine_steady {S E C : Type} {log : List (Event S E C)} (h : fine log = true) : Steady log := by
  simp only [Bool.and_eq_true, decide_eq_true_eq, fine, List.all_eq_true] at h
  exact fun e he => (h e he).1.1

theorem fine_sole {S E C : Type} {log : List (Event S E C)} (h : fine log = true) : Sole log := by
  simp only [Bool.and_eq_true, decide_eq_true_eq, fine, List.all_eq_true] at h
  refine fun e he => ⟨(h e he).1.2, ?_⟩
  rintro a ⟨m, hm, _⟩
  exact (h e he).2 _ (AMap.mem_of_get hm)

def sent {S E C : Type} (k : Nat) (log : List (Event S E C)) : Bool :=
  log.any (fun e => e.out.core.any (fun d => match d with | .send (.other n) => decide (n = k) | _ => false))

theorem sent_mem {S E C : Type} {k : Nat} {log : List (Event S E C)} (hs : sent k log = true) :
    ∃ ev ∈ log, DaoCore.Sub.send (.other k) ∈ ev.out.core := by
  unfold sent at hs
  rw [List.any_eq_true] at hs
  obtain ⟨e, he, hs⟩ := hs
  rw [List.any_eq_true] at hs
  obtain ⟨d, hd, hs⟩ := hs
  refine ⟨e, he, ?_⟩
  split at hs
  · rw [of_decide_eq_true hs] at hd; exact hd
  · cases hs

/-! ### A DAO of three members

10 stakes 40, 11 stakes 35, 12 stakes 25. In the block of the proposal a stranger stakes 1000, which does not count.
There are two choices and "none of the above". No choice is first for a majority, but the second, message 7, beats each
other: 12 prefers it to the first, and 10 to none of the above. -/

def vote0 : TokenStaked.World :=
  ⟨{ dao := 1, unstakingDuration := none, threshold := none, staked := .empty, stakedTotal := .empty, claims := [], hooks := none }, 2,
    [(10, 40), (11, 35), (12, 25), (13, 1000)]⟩

theorem vote0_init : tokenStaked.sys.init ⟨1, 1⟩ vote0 :=
  ⟨1, none, none, by decide +kernel, .existing (by decide +kernel), by decide +kernel⟩

def calls : List (Env × Call Block TokenStaked.Call) :=
  [(env 2 10, .vote ⟨2, 2⟩ (.stake 10 40)),
   (env 2 11, .vote ⟨2, 2⟩ (.stake 11 35)),
   (env 2 12, .vote ⟨2, 2⟩ (.stake 12 25)),
   (env 5 13, .vote ⟨5, 5⟩ (.stake 13 1000)),
   (env 5 10, .prop (.propose [[8], [7]])),
   (env 6 10, .prop (.vote 1 [0, 1, 2])),
   (env 6 11, .prop (.vote 1 [1, 0, 2])),
   (env 6 12, .prop (.vote 1 [2, 1, 0])),
   (env 7 11, .prop (.execute 1 false)),
   (env 7 99, .core (.deliver ⟨0, []⟩)),
   (env 7 99, .core (.deliver ⟨0, []⟩))]

/-- **C94.** Such a DAO: all assumptions are met, and it sends message 9. -/
theorem C94_example : ∃ (w : World TokenStaked.World) (b : Block)
    (log : List (Event TokenStaked.World Block TokenStaked.Call)),
    Init tokenStaked ⟨1, 1⟩ (dao vote0) ∧ (dao vote0).core.stack = [] ∧
    (sys tokenStaked tokenStakedNow decode).Run (dao vote0) ⟨1, 1⟩ log w b ∧ Steady log ∧ Sole log ∧
    TotalsOfHeight tokenStaked tokenStakedNow log ∧ (∃ ev ∈ log, DaoCore.Sub.send (.other 9) ∈ ev.out.core) ∧
    votesOn 1 log = [(10, [0, 1, 2]), (11, [1, 0, 2]), (12, [2, 1, 0])] ∧
    tokenStaked.power w.vote 10 5 = 40 ∧ tokenStaked.total w.vote 5 = 100 ∧ tokenStaked.weight w.vote 13 = 1000 := by
  obtain ⟨w, b, log, hr, hp⟩ := Sys.check_run (M := sys tokenStaked tokenStakedNow decode) (s := dao vote0) (b := ⟨1, 1⟩)
    (cs := calls) (p := fun w b log => fine log && sent 9 log &&
      decide (votesOn 1 log = [(10, [0, 1, 2]), (11, [1, 0, 2]), (12, [2, 1, 0])] ∧ tokenStaked.power w.vote 10 5 = 40 ∧
      tokenStaked.total w.vote 5 = 100 ∧ tokenStaked.weight w.vote 13 = 1000)) (by decide +kernel)
  simp only [Bool.and_eq_true, decide_eq_true_eq] at hp
  exact ⟨w, b, log, init vote0_init, rfl, hr, fine_steady hp.1.1, fine_sole hp.1.1,
    C94_totals C94_token_staked.2 ⟨_, _, init vote0_init, hr⟩, sent_mem hp.1.2, hp.2⟩

/-- Proposal 1 is open, with three choices and the majority as quorum; 12 has power; nothing is paused. -/
def due (w : World TokenStaked.World) : Bool :=
  decide (w.core.core.voting = some w.voteAddr) && decide (DaoCore.isPaused w.core.core ⟨7, 7⟩ = false) &&
    (match w.core.core.modules.get w.propAddr with | some m => m.enabled | none => false) &&
    (match w.prop.proposals.get 1, w.prop.tallies.get 1 with
      | some p, some t => decide (p.lastStatus = .opened) && decide (p.choices.length = 3) && decide (p.quorum = .majority) &&
          decide (t.expiration.isExpired ⟨7, 7⟩ = false) && decide (t.startHeight = 5)
      | _, _ => false)

/-- **C94.** The assumptions of `C94_carried_out` are met in the example, with voting not over. -/
theorem C94_example_due : ∃ (w : World TokenStaked.World) (b : Block)
    (log : List (Event TokenStaked.World Block TokenStaked.Call)) (p : Condorcet.Proposal) (t : Condorcet.Tally),
    (sys tokenStaked tokenStakedNow decode).Reach w b log ∧ Steady log ∧ TotalsOfHeight tokenStaked tokenStakedNow log ∧
    w.core.core.voting = some w.voteAddr ∧ w.prop.proposals.get 1 = some p ∧ w.prop.tallies.get 1 = some t ∧
    p.lastStatus = .opened ∧ p.choices.length = 3 ∧ t.expiration.isExpired ⟨7, 7⟩ = false ∧
    Decided tokenStaked log w.vote ⟨7, 7⟩ 1 p t 1 ∧ tokenStaked.power w.vote 12 t.startHeight ≠ 0 ∧
    DaoCore.isPaused w.core.core ⟨7, 7⟩ = false ∧ Spec.DaoCore.Enabled w.core.core w.propAddr := by
  obtain ⟨w, b, log, hr, hp⟩ := Sys.check_run (M := sys tokenStaked tokenStakedNow decode) (s := dao vote0) (b := ⟨1, 1⟩)
    (cs := calls.take 8) (p := fun w b log => fine log && due w &&
      decide (tokenStaked.power w.vote 12 5 = 25) &&
      decide (∀ p ∈ w.prop.proposals.get 1, ∀ t ∈ w.prop.tallies.get 1, p.status t ⟨7, 7⟩ = .ok (.passed 1)))
    (by decide +kernel)
  simp only [Bool.and_eq_true, decide_eq_true_eq] at hp
  obtain ⟨⟨⟨hf, hd⟩, h12⟩, hpass⟩ := hp
  have hst : Steady log := fine_steady hf
  have htot := C94_totals C94_token_staked.2 ⟨_, _, init vote0_init, hr⟩
  simp only [due, Bool.and_eq_true, decide_eq_true_eq] at hd
  obtain ⟨⟨⟨h1, h2⟩, h3⟩, h4⟩ := hd
  split at h4
  · rename_i p t hp ht
    simp only [Bool.and_eq_true, decide_eq_true_eq] at h4
    obtain ⟨⟨⟨⟨h5, h6⟩, h7⟩, h8⟩, h9⟩ := h4
    refine ⟨w, b, log, p, t, ⟨_, _, init vote0_init, hr⟩, hst, htot, h1, hp, ht, h5, h6, h8, ?_, ?_, h2, ?_⟩
    · exact passed_decided C94_token_staked.1 ⟨_, _, init vote0_init, hr⟩ hst htot hp ht (hpass p hp t ht)
        (by rw [h7]; trivial)
    · rw [h9, h12]; decide
    · split at h3
      · rename_i m hm; exact ⟨m, hm, h3⟩
      · cases h3
  · cases h4

/-! ### A minority decides

Member 10 has 90, member 11 has 10. In one block somebody who may do so removes 10, and 11 makes a proposal. The powers
that count are those from before the block; the total is the one from after the removal. -/

/-- What goes wrong: in a DAO without outside admin and with one proposal module, a proposal is executed and a message
sent although the members have not decided for any of its choices. Only 11 has voted, with 10 of 100 votes. And member
10, with 90 of 100 votes at the height of the proposal, cannot vote although voting is not over. -/
def Minority {S E C O : Type} (V : VotingModule S E C O) (N : Now S) : Prop :=
  ∃ (w : World S) (b : Block) (ev : Event S E C) (before : List (Event S E C)) (p : Condorcet.Proposal)
    (t : Condorcet.Tally),
    (sys V N decode).Reach w b (ev :: before) ∧ Steady (ev :: before) ∧ Sole (ev :: before) ∧
    Executes ev 1 p t ∧ NineDec p.quorum ∧ p.choices.length = 3 ∧ t.expiration.isExpired ev.env.block = false ∧
    DaoCore.Sub.send (.other 8) ∈ ev.out.core ∧ V.total ev.pre.vote t.startHeight = 100 ∧
    V.power ev.pre.vote 11 t.startHeight = 10 ∧ V.power ev.pre.vote 10 t.startHeight = 90 ∧
    votesOn 1 before = [(11, [0, 1, 2])] ∧ (∀ i, ¬ Decided V before ev.pre.vote ev.env.block 1 p t i) ∧
    ((sys V N decode).step ev.pre { ev.env with sender := 10 } (.prop (.vote 1 [2, 1, 0]))).toOption.isNone = true

/-- The tests for `Minority`, as a program. -/
def minority {S E C O : Type} (V : VotingModule S E C O) (N : Now S) (log : List (Event S E C)) : Bool :=
  match log with
  | [] => false
  | ev :: before =>
    (match ev.call with | .prop (.execute id f) => decide (id = 1) && decide (f = false) | _ => false) &&
    decide (votesOn 1 before = [(11, [0, 1, 2])]) &&
    ((sys V N decode).step ev.pre { ev.env with sender := 10 } (.prop (.vote 1 [2, 1, 0]))).toOption.isNone &&
    (match ev.pre.prop.proposals.get 1, ev.pre.prop.tallies.get 1 with
      | some p, some t => decide (V.power ev.pre.vote 11 t.startHeight = 10) &&
          decide (V.power ev.pre.vote 10 t.startHeight = 90) &&
          decide (V.total ev.pre.vote t.startHeight = 100) && decide (p.choices.length = 3) &&
          decide (t.expiration.isExpired ev.env.block = false) && decide (p.quorum = .majority)
      | _, _ => false)

theorem minority_of {S E C O : Type} {V : VotingModule S E C O} {N : Now S} {v : S} {w : World S} {b : Block}
    {log : List (Event S E C)} (hv : V.sys.init ⟨1, 1⟩ v)
    (hr : (sys V N decode).Run (dao v) ⟨1, 1⟩ log w b)
    (hp : (fine log && sent 8 (log.take 1) && minority V N log) = true) : Minority V N := by
  simp only [Bool.and_eq_true] at hp
  obtain ⟨⟨hf, hs⟩, hm⟩ := hp
  cases log with
  | nil => cases hs
  | cons ev before =>
    obtain ⟨e, he, hs⟩ := sent_mem hs
    simp only [List.take_succ_cons, List.take_zero, List.mem_singleton] at he
    rw [he] at hs
    simp only [minority, Bool.and_eq_true, decide_eq_true_eq] at hm
    obtain ⟨⟨⟨hcall, h11⟩, hno⟩, hprop⟩ := hm
    split at hprop
    · rename_i p t hg ht
      simp only [Bool.and_eq_true, decide_eq_true_eq] at hprop
      obtain ⟨⟨⟨⟨⟨h1, h2⟩, h3⟩, h4⟩, h5⟩, h6⟩ := hprop
      refine ⟨w, b, ev, before, p, t, ⟨_, _, init hv, hr⟩, fine_steady hf, fine_sole hf, ⟨?_, hg, ht⟩, by rw [h6]; trivial,
        h4, h5, hs, h3, h1, h2, h11, ?_, hno⟩
      · split at hcall
        · rename_i id f hc
          simp only [Bool.and_eq_true, decide_eq_true_eq] at hcall
          rw [hc, hcall.1, hcall.2]
        · cases hcall
      · rintro i ⟨_, _, hq, _⟩
        rw [h11, h3, h6] at hq
        obtain ⟨_, hq⟩ := hq
        simp only [ballots, List.map_cons, List.map_nil, castPower, h1] at hq
        omega
    · cases hprop

/-- A group with an admin of its own, 99. -/
def group0 : Cw4Voting.Group := (Cw4Voting.createGroup ⟨1, 1⟩ (some 99) [(10, 90), (11, 10)]).toOption.getD
  ⟨none, Snap.empty, Snap.empty⟩

theorem group_init : cw4.sys.init ⟨1, 1⟩ (⟨1, 4, group0⟩ : Cw4Voting.World) :=
  Cw4Voting.Created.existing (dao := 1) (group := 4) (g := group0) (b0 := ⟨1, 1⟩) (log := [])
    ⟨_, _, ⟨some 99, [(10, 90), (11, 10)], by decide +kernel⟩, .refl⟩ (Block.le_refl _) (by decide +kernel)

/-- **C94**, why not always with dao-voting-cw4: a member with 10 of 100 votes decides alone, and the member with the
other 90 cannot vote. -/
theorem C94_cw4_witness : Minority cw4 cw4Now := by
  obtain ⟨w, b, log, hr, hp⟩ := Sys.check_run (M := sys cw4 cw4Now decode) (s := dao ⟨1, 4, group0⟩) (b := ⟨1, 1⟩)
    (cs := [(env 5 99, .vote ⟨5, 5⟩ (.group ⟨99, .updateMembers [10] []⟩)),
      (env 5 11, .prop (.propose [[8], []])),
      (env 5 11, .prop (.vote 1 [0, 1, 2])),
      (env 5 11, .prop (.execute 1 false))])
    (p := fun w b log => fine log && sent 8 (log.take 1) && minority cw4 cw4Now log)
    (by decide +kernel)
  exact minority_of group_init hr hp

def settled {S E C : Type} (h0 : Nat) : List (Event S E C) → Bool
  | [] => true
  | e :: before =>
    (match e.call with
      | .prop (.propose _) => decide (h0 < e.env.block.height) &&
          before.all (fun e' => match e'.call with
            | .vote _ _ => decide (e'.env.block.height < e.env.block.height) | _ => true)
      | _ => true) && settled h0 before

theorem settled_of {S E C : Type} {b0 : Block} {log : List (Event S E C)} (h : settled b0.height log = true) :
    Settled b0 log := by
  induction log with
  | nil =>
    intro later e before hl
    cases later <;> cases hl
  | cons e0 log ih =>
    simp only [settled, Bool.and_eq_true] at h
    intro later e before hl hp
    cases later with
    | cons _ later =>
      injection hl with h1 h2
      exact ih h.2 later e before h2 hp
    | nil =>
      injection hl with h1 h2
      subst h1 h2
      obtain ⟨c, hc⟩ := hp
      have h1 := h.1
      rw [hc] at h1
      simp only [Bool.and_eq_true, decide_eq_true_eq, List.all_eq_true] at h1
      refine ⟨h1.1, ?_⟩
      rintro e' he' ⟨ve, c', hc'⟩
      have := h1.2 e' he'
      rw [hc'] at this
      exact of_decide_eq_true this

/-- **C94.** With dao-voting-cw4, when the group changes in an earlier block than that of the proposal: 10 gives up 50 of
its 90, and the proposal carries with 40 of 50. -/
theorem C94_cw4_example : ∃ (w : World Cw4Voting.World) (b : Block)
    (log : List (Event Cw4Voting.World Block Cw4Voting.VCall)), Init cw4 ⟨1, 1⟩ (dao ⟨1, 4, group0⟩) ∧
    (sys cw4 cw4Now decode).Run (dao ⟨1, 4, group0⟩) ⟨1, 1⟩ log w b ∧ Steady log ∧ Sole log ∧ Settled ⟨1, 1⟩ log ∧
    (∃ ev ∈ log, DaoCore.Sub.send (.other 8) ∈ ev.out.core) ∧ cw4.total w.vote 5 = 50 := by
  obtain ⟨w, b, log, hr, hp⟩ := Sys.check_run (M := sys cw4 cw4Now decode) (s := dao ⟨1, 4, group0⟩) (b := ⟨1, 1⟩)
    (cs := [(env 4 99, .vote ⟨4, 4⟩ (.group ⟨99, .updateMembers [] [(10, 40)]⟩)),
      (env 5 11, .prop (.propose [[8], []])),
      (env 5 10, .prop (.vote 1 [0, 1, 2])),
      (env 5 11, .prop (.execute 1 false))])
    (p := fun w b log => fine log && sent 8 log && settled 1 log && decide (cw4.total w.vote 5 = 50)) (by decide +kernel)
  simp only [Bool.and_eq_true, decide_eq_true_eq] at hp
  exact ⟨w, b, log, init group_init, hr, fine_steady hp.1.1.1, fine_sole hp.1.1.1, settled_of hp.1.2, sent_mem hp.1.1.2, hp.2⟩

/-- The role contract: its minter, 99, gives 90 to 10 and 10 to 11. -/
def roles0 : Roles.State := (do
  let r ← Roles.exec (Roles.instantiate ⟨1, 1⟩ 99) ⟨1, 1⟩ 99 (.mint 1 10 none none 90)
  let r ← Roles.exec r.1 ⟨1, 1⟩ 99 (.mint 2 11 none none 10)
  .ok r.1 : Res Roles.State).toOption.getD (Roles.instantiate ⟨1, 1⟩ 99)

/-- **C94**, why not always with dao-voting-cw721-roles: likewise. -/
theorem C94_roles_witness : Minority roles rolesNow := by
  have hv : roles.sys.init ⟨1, 1⟩ (⟨1, 2, 4, roles0⟩ : Roles.Voting.World) := by
    obtain ⟨w, b, log, hr, hp⟩ := Sys.check_run (M := Roles.sys) (s := Roles.instantiate ⟨1, 1⟩ 99) (b := ⟨1, 1⟩)
      (cs := [(⟨⟨1, 1⟩, 99⟩, .mint 1 10 none none 90), (⟨⟨1, 1⟩, 99⟩, .mint 2 11 none none 10)])
      (p := fun w b _ => decide (w = roles0 ∧ b = ⟨1, 1⟩)) (by decide +kernel)
    obtain ⟨rfl, rfl⟩ := of_decide_eq_true hp
    exact ⟨log, _, _, ⟨99, rfl⟩, hr⟩
  obtain ⟨w, b, log, hr, hp⟩ := Sys.check_run (M := sys roles rolesNow decode) (s := dao ⟨1, 2, 4, roles0⟩) (b := ⟨1, 1⟩)
    (cs := [(env 5 99, .vote ⟨⟨5, 5⟩, 99⟩ (.roles (.burn 1))),
      (env 5 11, .prop (.propose [[8], []])),
      (env 5 11, .prop (.vote 1 [0, 1, 2])),
      (env 5 11, .prop (.execute 1 false))])
    (p := fun w b log => fine log && sent 8 (log.take 1) && minority roles rolesNow log)
    (by decide +kernel)
  exact minority_of hv hr hp

end Verif.WholeCondorcet.Example
