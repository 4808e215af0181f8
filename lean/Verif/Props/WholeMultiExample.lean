import Verif.Props.WholeMultiLive
import Verif.Props.WholeMultiModules
/-!
# C81: examples, and what goes wrong with cw4-group and cw721-roles
-/

namespace Verif.WholeMulti.Example
open Verif
open Verif.Voting hiding Vote Votes
open Verif.Spec.WholeMulti Verif.WholeMulti
open Verif.Spec (NineDec)
open Verif.WholeDao (tokenStaked cw4 roles VotingModule)

/-- Message 7 is an admin message of the DAO to itself. -/
def decode (n : Nat) : DaoCore.CosmosMsg :=
  if n = 7 then .toSelf (.executeAdminMsgs [.other 9]) else .other n

def oldCore : DaoCore.State :=
  { me := 1, admin := 1, nominated := none, config := ⟨0, true, true⟩, paused := none, voting := some 2, modules := []
    active := 0, total := 0, items := [], cw20s := [], cw721s := [], subDaos := [] }

def prop0 : Multiple.State :=
  { config := { quorum := .majority, maxVotingPeriod := .height 100, minVotingPeriod := none
                onlyMembersExecute := false, allowRevoting := false, dao := 1, closeOnExecutionFailure := true
                veto := none }
    count := 0, proposals := [], ballots := [], proposalHooks := none, voteHooks := none, policy := .anyone }

/-- The DAO over a voting module. -/
def dao {S : Type} (v : S) : World S := ⟨⟨(DaoCore.migrate oldCore [3] none).1, []⟩, prop0, v, 3, 2⟩

def env (h : Nat) (sender : Addr) : Env := ⟨⟨h, h⟩, sender, fun _ _ _ => 0, fun _ => 0, true, fun _ => true, fun _ => true⟩

theorem core_init : DaoCore.Init ⟨1, 1⟩ ⟨(DaoCore.migrate oldCore [3] none).1, []⟩ :=
  DaoCore.Init.migrated (old := oldCore) (keys := [3]) (params := none) (by decide) (by decide)
    (by decide +kernel) (by decide) AMap.WF_nil AMap.WF_nil AMap.WF_nil rfl

theorem prop_init : Multiple.instantiate ⟨⟨1, 1⟩, 1, fun _ _ _ => 0, fun _ => 0, true⟩ prop0.config .anyoneMayPropose =
    .ok (prop0, ⟨[], none⟩) := by decide +kernel

theorem init {S E C O : Type} {V : VotingModule S E C O} {v : S} (hv : V.sys.init ⟨1, 1⟩ v) : Init V ⟨1, 1⟩ (dao v) :=
  ⟨show (3 : Nat) ≠ 1 by decide, ⟨⟨1, 1⟩, [], ⟨⟨1, 1⟩, _, core_init, .refl⟩, Block.le_refl _⟩,
    ⟨⟨1, 1⟩, [], ⟨⟨1, 1⟩, _, hv, .refl⟩, Block.le_refl _⟩, ⟨⟨1, 1⟩, 1, fun _ _ _ => 0, fun _ => 0, true⟩, prop0.config,
    .anyoneMayPropose, ⟨[], none⟩, rfl, rfl, prop_init⟩

/-- The tests of an example, as a program. -/
def fine {S E C : Type} (log : List (Event S E C)) : Bool :=
  log.all (fun e => decide (e.pre.core.core.voting = some e.pre.voteAddr) &&
    decide (e.pre.prop.config.dao = e.pre.core.core.me) && decide (e.pre.core.core.admin = e.pre.core.core.me) &&
    e.pre.core.core.modules.all (fun m => decide (m.1 = e.pre.propAddr)))

theorem fine_steady {S E C : Type} {log : List (Event S E C)} (h : fine log = true) : Steady log := by
  simp only [Bool.and_eq_true, decide_eq_true_eq, fine, List.all_eq_true] at h
  exact fun e he => ⟨(h e he).1.1.1, (h e he).1.1.2⟩

theorem fine_sole {S E C : Type} {log : List (Event S E C)} (h : fine log = true) : Sole log := by
  simp only [Bool.and_eq_true, decide_eq_true_eq, fine, List.all_eq_true] at h
  refine fun e he => ⟨(h e he).1.2, ?_⟩
  rintro a ⟨m, hm, _⟩
  exact (h e he).2 _ (AMap.mem_of_get hm)

def sent {S E C : Type} (k : Nat) (log : List (Event S E C)) : Bool :=
  log.any (fun e => e.out.core.any (fun d => match d with | .send (.other n) => decide (n = k) | _ => false))

theorem sent_mem {S E C : Type} {k : Nat} {log : List (Event S E C)} (hs : sent k log = true) :
    ∃ ev ∈ log, DaoCore.Sub.send (.other k) ∈ ev.out.core := by
  unfold sent at hs
  rw [List.any_eq_true] at hs
  obtain ⟨e, he, hs⟩ := hs
  rw [List.any_eq_true] at hs
  obtain ⟨d, hd, hs⟩ := hs
  refine ⟨e, he, ?_⟩
  split at hs
  · rw [of_decide_eq_true hs] at hd; exact hd
  · cases hs

/-! ### A DAO of two members

Member 10 stakes 60, member 11 stakes 40. In the block of the proposal a stranger stakes 1000, which does not count.
There are two options; 10 votes for the first, 11 for the second. -/

def vote0 : TokenStaked.World :=
  ⟨{ dao := 1, unstakingDuration := none, threshold := none, staked := .empty, stakedTotal := .empty, claims := [], hooks := none }, 2,
    [(10, 60), (11, 40), (12, 1000)]⟩

theorem vote0_init : tokenStaked.sys.init ⟨1, 1⟩ vote0 :=
  ⟨1, none, none, by decide +kernel, .existing (by decide +kernel), by decide +kernel⟩

def calls : List (Env × Call Block TokenStaked.Call) :=
  [(env 2 10, .vote ⟨2, 2⟩ (.stake 10 60)),
   (env 2 11, .vote ⟨2, 2⟩ (.stake 11 40)),
   (env 5 12, .vote ⟨5, 5⟩ (.stake 12 1000)),
   (env 5 10, .prop (.propose none 0 [(0, [7]), (1, [8])] none true)),
   (env 6 11, .prop (.vote 1 1 none)),
   (env 6 10, .prop (.vote 1 0 none)),
   (env 7 99, .prop (.execute 1 false)),
   (env 7 99, .core (.deliver ⟨0, []⟩)),
   (env 7 99, .core (.deliver ⟨0, []⟩))]

/-- **C81.** Such a DAO: all assumptions are met, and it sends message 9, on the strength of 60 of 100. -/
theorem C81_example : ∃ (w : World TokenStaked.World) (b : Block)
    (log : List (Event TokenStaked.World Block TokenStaked.Call)),
    Init tokenStaked ⟨1, 1⟩ (dao vote0) ∧ (dao vote0).core.stack = [] ∧
    (sys tokenStaked tokenStakedNow decode).Run (dao vote0) ⟨1, 1⟩ log w b ∧ Steady log ∧ Sole log ∧
    TotalsOfHeight tokenStaked tokenStakedNow log ∧ (∃ ev ∈ log, DaoCore.Sub.send (.other 9) ∈ ev.out.core) ∧
    tokenStaked.power w.vote 10 5 = 60 ∧ tokenStaked.total w.vote 5 = 100 ∧ tokenStaked.weight w.vote 12 = 1000 := by
  obtain ⟨w, b, log, hr, hp⟩ := Sys.check_run (M := sys tokenStaked tokenStakedNow decode) (s := dao vote0) (b := ⟨1, 1⟩)
    (cs := calls) (p := fun w b log => fine log && sent 9 log && decide (tokenStaked.power w.vote 10 5 = 60 ∧
      tokenStaked.total w.vote 5 = 100 ∧ tokenStaked.weight w.vote 12 = 1000)) (by decide +kernel)
  simp only [Bool.and_eq_true, decide_eq_true_eq] at hp
  exact ⟨w, b, log, init vote0_init, rfl, hr, fine_steady hp.1.1, fine_sole hp.1.1,
    C81_totals C81_token_staked.2 ⟨_, _, init vote0_init, hr⟩, sent_mem hp.1.2, hp.2⟩

/-- The proposal is about to be executed. -/
def due (w : World TokenStaked.World) (log : List (Event TokenStaked.World Block TokenStaked.Call)) : Bool :=
  match log with
  | [] => false
  | ev :: _ =>
    (match ev.call with | .prop (.execute id f) => decide (id = 1) && decide (f = false) | _ => false) &&
    decide (ev.env.block = ⟨7, 7⟩) && decide (w.core.core.voting = some w.voteAddr) &&
    (match ev.pre.prop.proposals.get 1 with
      | some p => decide (p.status = .passed) && decide (p.veto = none) && decide (p.choices.length = 3) &&
          decide (p.quorum = .majority)
      | none => false) &&
    decide (ev.pre.prop.config.onlyMembersExecute = false) && decide (DaoCore.isPaused ev.pre.core.core ⟨7, 7⟩ = false) &&
    (match ev.pre.core.core.modules.get ev.pre.propAddr with | some m => m.enabled | none => false)

/-- **C81.** The assumptions of `C81_carried_out` are met in the example, with a proposal of two options. -/
theorem C81_example_due : ∃ (w : World TokenStaked.World) (b : Block)
    (log : List (Event TokenStaked.World Block TokenStaked.Call)) (p : Multiple.Proposal) (i : Nat),
    (sys tokenStaked tokenStakedNow decode).Reach w b log ∧ Steady log ∧ TotalsOfHeight tokenStaked tokenStakedNow log ∧
    w.core.core.voting = some w.voteAddr ∧
    w.prop.config.dao = w.core.core.me ∧ w.prop.proposals.get 1 = some p ∧ p.status = .passed ∧ p.veto = none ∧
    p.choices.length = 3 ∧ Decided tokenStaked tokenStakedNow log w.vote ⟨7, 7⟩ 1 p i ∧
    w.prop.config.onlyMembersExecute = false ∧
    DaoCore.isPaused w.core.core ⟨7, 7⟩ = false ∧ Spec.DaoCore.Enabled w.core.core w.propAddr := by
  obtain ⟨w, b, log, hr, hp⟩ := Sys.check_run (M := sys tokenStaked tokenStakedNow decode) (s := dao vote0) (b := ⟨1, 1⟩)
    (cs := calls.take 7) (p := fun w b log => fine log && due w log) (by decide +kernel)
  simp only [Bool.and_eq_true] at hp
  obtain ⟨hf, hd⟩ := hp
  have hst : Steady log := fine_steady hf
  have htot := C81_totals C81_token_staked.2 ⟨_, _, init vote0_init, hr⟩
  cases hr with
  | refl => cases hd
  | @step s1 _ b1 before env call out h1 hb hs =>
    simp only [due, Bool.and_eq_true, decide_eq_true_eq] at hd
    obtain ⟨⟨⟨⟨⟨⟨hcall, hblk⟩, _⟩, hprop⟩, honly⟩, hpause⟩, hen⟩ := hd
    have hc : ∃ f, call = .prop (.execute 1 f) := by
      split at hcall
      · rename_i id f
        simp only [Bool.and_eq_true, decide_eq_true_eq] at hcall
        rw [hcall.1]; exact ⟨f, rfl⟩
      · cases hcall
    obtain ⟨f, hc⟩ := hc
    obtain ⟨p, i, hg, hdec⟩ := C81_decided C81_token_staked.1 (decode := decode)
      (log := ⟨s1, env, call, out, w⟩ :: before) (later := []) ⟨_, _, init vote0_init, .step h1 hb hs⟩ hst htot rfl hc
    simp only at hg hdec
    rw [hg] at hprop
    simp only [Bool.and_eq_true, decide_eq_true_eq] at hprop
    obtain ⟨⟨⟨hstat, hveto⟩, hch⟩, hthr⟩ := hprop
    have hnow := hst _ (List.mem_cons_self)
    refine ⟨s1, b1, before, p, i, ⟨_, _, init vote0_init, h1⟩, fun e he => hst e (List.mem_cons_of_mem _ he),
      fun e he => htot e (List.mem_cons_of_mem _ he), hnow.1, hnow.2, hg, hstat, hveto, hch, ?_, honly, hpause, ?_⟩
    · rw [← hblk]; exact hdec (by rw [hthr]; trivial)
    · split at hen
      · rename_i m hm; exact ⟨m, hm, hen⟩
      · cases hen

/-! ### A minority decides

Member 10 has 90, member 11 has 10. In one block somebody who may do so removes 10, and 11 makes a proposal. The powers
that count are those from before the block; the total is the one from after the removal. -/

/-- All ballots are by 11. -/
def byEleven {S E C : Type} (log : List (Event S E C)) : Bool :=
  log.all (fun e => match e.call with
    | .prop (.vote _ _ _) => decide (e.env.sender = 11)
    | .prop (.propose g _ _ _ _) => decide (g = none) && decide (e.env.sender = 11)
    | _ => true)

theorem eleven {S E C O : Type} {V : VotingModule S E C O} {N : TotalNow S} {log : List (Event S E C)} {a : Addr} {id j : Nat}
    (h : byEleven log = true) (hv : Spec.Multi.lastVote a id (propLog V N log) = some j) : a = 11 := by
  induction log with
  | nil => cases hv
  | cons e log ih =>
    simp only [byEleven, List.all_cons, Bool.and_eq_true] at h
    obtain ⟨he, hrest⟩ := h
    obtain ⟨pre, env, call, out, post⟩ := e
    simp only [propLog] at hv
    split at hv
    · rename_i c o ho
      simp only [Spec.Multi.lastVote] at hv
      split at hv
      · rename_i a' id' v hb
        split at hv
        · rename_i hx
          rw [← hx.1]
          cases c <;> simp only [Spec.Multi.ballotCast] at hb he
          case vote =>
            simp only [Option.some.injEq, Prod.mk.injEq] at hb
            rw [← hb.1]; exact of_decide_eq_true he
          case propose g _ _ vo _ =>
            cases vo with
            | none => cases hb
            | some v =>
              simp only [Option.some.injEq, Prod.mk.injEq] at hb
              simp only [Bool.and_eq_true, decide_eq_true_eq] at he
              rw [← hb.1, he.1]; exact he.2
          all_goals cases hb
        · exact ih hrest hv
      · exact ih hrest hv
    · exact ih hrest hv

theorem not_decided {S E C O : Type} {V : VotingModule S E C O} {N : TotalNow S} {log : List (Event S E C)} {s : S} {b : Block}
    {p : Multiple.Proposal} {id : Nat} (h : byEleven log = true) (hp : V.power s 11 p.startHeight = 10)
    (ht : V.total s p.startHeight = 100) (hc : p.choices.length = 3) (hx : p.expiration.isExpired b = false) (i : Nat) :
    ¬ Decided V N log s b id p i := by
  rintro ⟨_, _, hi, voters, hv, _, _, hd⟩
  have hle : ∀ j, powerOf V s p.startHeight (voters j) ≤ 10 := by
    intro j
    obtain ⟨hn, hm⟩ := hv j
    have hsub : ∀ a ∈ voters j, a = 11 := fun a ha => eleven h ((hm a).1 ha)
    cases hvj : voters j with
    | nil => simp [powerOf]
    | cons a l =>
      rw [hvj] at hn hsub
      have ha := hsub a (by simp)
      cases l with
      | nil => simp [powerOf, ha, hp]
      | cons a' l =>
        have ha' := hsub a' (by simp)
        rw [ha, ha'] at hn
        simp at hn
  rcases hd with hd | hd
  · rw [hx] at hd; cases hd
  · have h1 := hd (i + 1) (by omega) (by omega)
    rw [ht, hc] at h1
    have h2 : castSum 3 (fun j => powerOf V s p.startHeight (voters j)) ≤ 30 := by
      have e1 := hle 0
      have e2 := hle 1
      have e3 := hle 2
      simp only [castSum, List.range_succ, List.range_zero, List.nil_append, List.map_append, List.map_cons, List.map_nil,
        List.sum_append, List.sum_cons, List.sum_nil]
      omega
    have h3 := hle i
    omega

/-- An execution by a minority, as a program. -/
def minority {S E C O : Type} (V : VotingModule S E C O) (log : List (Event S E C)) : Bool :=
  match log with
  | [] => false
  | ev :: before =>
    (match ev.call with | .prop (.execute id f) => decide (id = 1) && decide (f = false) | _ => false) &&
    byEleven before &&
    (match ev.pre.prop.proposals.get 1 with
      | some p => decide (V.power ev.pre.vote 11 p.startHeight = 10) && decide (V.power ev.pre.vote 10 p.startHeight = 90) &&
          decide (V.total ev.pre.vote p.startHeight = 100) && decide (p.choices.length = 3) &&
          decide (p.expiration.isExpired ev.env.block = false) && decide (p.quorum = .majority)
      | none => false)

/-- What goes wrong: in a DAO without outside admin and with one proposal module, a proposal is executed and a message
sent although the members have not decided for any of its options. Member 10, with 90 of 100 votes, has not voted and
voting is not over. -/
def Minority {S E C O : Type} (V : VotingModule S E C O) (N : TotalNow S) : Prop :=
  ∃ (w : World S) (b : Block) (ev : Event S E C) (before : List (Event S E C)) (p : Multiple.Proposal),
    (sys V N decode).Reach w b (ev :: before) ∧ Steady (ev :: before) ∧ Sole (ev :: before) ∧
    ev.call = .prop (.execute 1 false) ∧ ev.pre.prop.proposals.get 1 = some p ∧ NineDec p.quorum ∧
    DaoCore.Sub.send (.other 8) ∈ ev.out.core ∧ V.total ev.pre.vote p.startHeight = 100 ∧
    V.power ev.pre.vote 11 p.startHeight = 10 ∧ V.power ev.pre.vote 10 p.startHeight = 90 ∧
    ∀ i, ¬ Decided V N before ev.pre.vote ev.env.block 1 p i

theorem minority_of {S E C O : Type} {V : VotingModule S E C O} {N : TotalNow S} {v : S} {w : World S} {b : Block}
    {log : List (Event S E C)} (hv : V.sys.init ⟨1, 1⟩ v)
    (hr : (sys V N decode).Run (dao v) ⟨1, 1⟩ log w b)
    (hp : (fine log && sent 8 (log.take 1) && minority V log) = true) : Minority V N := by
  simp only [Bool.and_eq_true] at hp
  obtain ⟨⟨hf, hs⟩, hm⟩ := hp
  cases log with
  | nil => cases hs
  | cons ev before =>
    obtain ⟨e, he, hs⟩ := sent_mem hs
    simp only [List.take_succ_cons, List.take_zero, List.mem_singleton] at he
    rw [he] at hs
    simp only [minority, Bool.and_eq_true] at hm
    obtain ⟨⟨hcall, h11⟩, hprop⟩ := hm
    cases hg : ev.pre.prop.proposals.get 1 with
    | none => rw [hg] at hprop; cases hprop
    | some p =>
      rw [hg] at hprop
      simp only [Bool.and_eq_true, decide_eq_true_eq] at hprop
      obtain ⟨⟨⟨⟨⟨h1, h2⟩, h3⟩, h4⟩, h5⟩, h6⟩ := hprop
      refine ⟨w, b, ev, before, p, ⟨_, _, init hv, hr⟩, fine_steady hf, fine_sole hf, ?_, hg, by rw [h6]; trivial, hs, h3, h1, h2,
        not_decided h11 h1 h3 h4 h5⟩
      split at hcall
      · rename_i id f hc
        simp only [Bool.and_eq_true, decide_eq_true_eq] at hcall
        rw [hc, hcall.1, hcall.2]
      · cases hcall

/-- A group with an admin of its own, 99. -/
def group0 : Cw4Voting.Group := (Cw4Voting.createGroup ⟨1, 1⟩ (some 99) [(10, 90), (11, 10)]).toOption.getD
  ⟨none, Snap.empty, Snap.empty⟩

/-- **C81**, why not always with dao-voting-cw4: a member with 10 of 100 votes decides alone. -/
theorem C81_cw4_witness : Minority cw4 cw4Now := by
  have hv : cw4.sys.init ⟨1, 1⟩ (⟨1, 4, group0⟩ : Cw4Voting.World) :=
    Cw4Voting.Created.existing (dao := 1) (group := 4) (g := group0) (b0 := ⟨1, 1⟩) (log := [])
      ⟨_, _, ⟨some 99, [(10, 90), (11, 10)], by decide +kernel⟩, .refl⟩ (Block.le_refl _) (by decide +kernel)
  obtain ⟨w, b, log, hr, hp⟩ := Sys.check_run (M := sys cw4 cw4Now decode) (s := dao ⟨1, 4, group0⟩) (b := ⟨1, 1⟩)
    (cs := [(env 5 99, .vote ⟨5, 5⟩ (.group ⟨99, .updateMembers [10] []⟩)),
      (env 5 11, .prop (.propose none 0 [(0, [8]), (1, [])] (some (0, none)) true)),
      (env 5 11, .prop (.execute 1 false))])
    (p := fun w b log => fine log && sent 8 (log.take 1) && minority cw4 log)
    (by decide +kernel)
  exact minority_of hv hr hp

def settled {S E C : Type} (h0 : Nat) : List (Event S E C) → Bool
  | [] => true
  | e :: before =>
    (match e.call with
      | .prop (.propose _ _ _ _ _) => decide (h0 < e.env.block.height) &&
          before.all (fun e' => match e'.call with
            | .vote _ _ => decide (e'.env.block.height < e.env.block.height) | _ => true)
      | _ => true) && settled h0 before

theorem settled_of {S E C : Type} {b0 : Block} {log : List (Event S E C)} (h : settled b0.height log = true) :
    Settled b0 log := by
  induction log with
  | nil =>
    intro later e before hl
    cases later <;> cases hl
  | cons e0 log ih =>
    simp only [settled, Bool.and_eq_true] at h
    intro later e before hl hp
    cases later with
    | cons _ later =>
      injection hl with h1 h2
      exact ih h.2 later e before h2 hp
    | nil =>
      injection hl with h1 h2
      subst h1 h2
      obtain ⟨g, c, m, v, z, hc⟩ := hp
      have h1 := h.1
      rw [hc] at h1
      simp only [Bool.and_eq_true, decide_eq_true_eq, List.all_eq_true] at h1
      refine ⟨h1.1, ?_⟩
      rintro e' he' ⟨ve, c', hc'⟩
      have := h1.2 e' he'
      rw [hc'] at this
      exact of_decide_eq_true this

/-- **C81.** With dao-voting-cw4, when the group changes in an earlier block than that of the proposal: 10 gives up 50 of
its 90, and the proposal carries with 40 of 50. -/
theorem C81_cw4_example : ∃ (w : World Cw4Voting.World) (b : Block)
    (log : List (Event Cw4Voting.World Block Cw4Voting.VCall)), Init cw4 ⟨1, 1⟩ (dao ⟨1, 4, group0⟩) ∧
    (sys cw4 cw4Now decode).Run (dao ⟨1, 4, group0⟩) ⟨1, 1⟩ log w b ∧ Steady log ∧ Sole log ∧ Settled ⟨1, 1⟩ log ∧
    (∃ ev ∈ log, DaoCore.Sub.send (.other 8) ∈ ev.out.core) ∧ cw4.total w.vote 5 = 50 := by
  have hv : cw4.sys.init ⟨1, 1⟩ (⟨1, 4, group0⟩ : Cw4Voting.World) :=
    Cw4Voting.Created.existing (dao := 1) (group := 4) (g := group0) (b0 := ⟨1, 1⟩) (log := [])
      ⟨_, _, ⟨some 99, [(10, 90), (11, 10)], by decide +kernel⟩, .refl⟩ (Block.le_refl _) (by decide +kernel)
  obtain ⟨w, b, log, hr, hp⟩ := Sys.check_run (M := sys cw4 cw4Now decode) (s := dao ⟨1, 4, group0⟩) (b := ⟨1, 1⟩)
    (cs := [(env 4 99, .vote ⟨4, 4⟩ (.group ⟨99, .updateMembers [] [(10, 40)]⟩)),
      (env 5 10, .prop (.propose none 0 [(0, [8]), (1, [])] (some (0, none)) true)),
      (env 5 11, .prop (.execute 1 false))])
    (p := fun w b log => fine log && sent 8 log && settled 1 log && decide (cw4.total w.vote 5 = 50)) (by decide +kernel)
  simp only [Bool.and_eq_true, decide_eq_true_eq] at hp
  exact ⟨w, b, log, init hv, hr, fine_steady hp.1.1.1, fine_sole hp.1.1.1, settled_of hp.1.2, sent_mem hp.1.1.2, hp.2⟩

/-- The role contract: its minter, 99, gives 90 to 10 and 10 to 11. -/
def roles0 : Roles.State := (do
  let r ← Roles.exec (Roles.instantiate ⟨1, 1⟩ 99) ⟨1, 1⟩ 99 (.mint 1 10 none none 90)
  let r ← Roles.exec r.1 ⟨1, 1⟩ 99 (.mint 2 11 none none 10)
  .ok r.1 : Res Roles.State).toOption.getD (Roles.instantiate ⟨1, 1⟩ 99)

/-- **C81**, why not always with dao-voting-cw721-roles: likewise. -/
theorem C81_roles_witness : Minority roles rolesNow := by
  have hv : roles.sys.init ⟨1, 1⟩ (⟨1, 2, 4, roles0⟩ : Roles.Voting.World) := by
    obtain ⟨w, b, log, hr, hp⟩ := Sys.check_run (M := Roles.sys) (s := Roles.instantiate ⟨1, 1⟩ 99) (b := ⟨1, 1⟩)
      (cs := [(⟨⟨1, 1⟩, 99⟩, .mint 1 10 none none 90), (⟨⟨1, 1⟩, 99⟩, .mint 2 11 none none 10)])
      (p := fun w b _ => decide (w = roles0 ∧ b = ⟨1, 1⟩)) (by decide +kernel)
    obtain ⟨rfl, rfl⟩ := of_decide_eq_true hp
    exact ⟨log, _, _, ⟨99, rfl⟩, hr⟩
  obtain ⟨w, b, log, hr, hp⟩ := Sys.check_run (M := sys roles rolesNow decode) (s := dao ⟨1, 2, 4, roles0⟩) (b := ⟨1, 1⟩)
    (cs := [(env 5 99, .vote ⟨⟨5, 5⟩, 99⟩ (.roles (.burn 1))),
      (env 5 11, .prop (.propose none 0 [(0, [8]), (1, [])] (some (0, none)) true)),
      (env 5 11, .prop (.execute 1 false))])
    (p := fun w b log => fine log && sent 8 (log.take 1) && minority roles log)
    (by decide +kernel)
  exact minority_of hv hr hp

end Verif.WholeMulti.Example
