import Verif.Props.FullDaoLive
import Verif.Props.WholeCondorcetModules
/-!
# C95: a DAO with three proposal modules, from its birth

The DAO is created with a voting module and three proposal modules, one of each kind. 10 stakes 60 and 11 stakes 40. In
the block of the proposals a stranger stakes 1000, which does not count. Three proposals are made and voted on: in the
first module to send message 9, in the second to disable the first module, in the third to send message 11. All three
are carried out, and the first module has no effect after that.
-/

namespace Verif.FullDao.Example
open Verif
open Verif.Voting hiding Vote Votes
open Verif.Spec.FullDao Verif.FullDao
open Verif.Spec (NineDec NineDecAll)
open Verif.Spec.DaoCore (Enabled)
open Verif.WholeDao (tokenStaked)
open Verif.WholeCondorcet (tokenStakedNow C94_token_staked)

/-- Message 7 is an admin message of the DAO to itself, message 6 disables the module at 3. -/
def decode (n : Nat) : DaoCore.CosmosMsg :=
  if n = 7 then .toSelf (.executeAdminMsgs [.other 9]) else
  if n = 6 then .toSelf (.updateProposalModules [] [3]) else .other n

def core0 : DaoCore.World :=
  match DaoCore.instantiate 1 ⟨0, true, true⟩ none 20 [30, 31, 32] [] with
  | .ok (s, out) => ⟨s, out⟩
  | .error _ => ⟨{ me := 1, admin := 1, nominated := none, config := ⟨0, true, true⟩, paused := none, voting := none
                   modules := [], active := 0, total := 0, items := [], cw20s := [], cw721s := [], subDaos := [] }, []⟩

theorem core_init : DaoCore.Init ⟨1, 1⟩ core0 :=
  DaoCore.Init.new (me := 1) (config := ⟨0, true, true⟩) (admin := none) (voting := 20) (proposals := [30, 31, 32])
    (items := []) rfl

def vote0 : TokenStaked.World :=
  ⟨{ dao := 1, unstakingDuration := none, threshold := none, staked := .empty, stakedTotal := .empty, claims := [], hooks := none }, 2,
    [(10, 60), (11, 40), (12, 1000)]⟩

/-- The DAO when it has just been created. -/
def w0 : World TokenStaked.World := ⟨core0, [], vote0, 2⟩

theorem init : Init tokenStaked ⟨1, 1⟩ w0 :=
  ⟨rfl, ⟨⟨1, 1⟩, [], ⟨⟨1, 1⟩, _, core_init, .refl⟩, Block.le_refl _⟩, ⟨⟨1, 1⟩, [], ⟨⟨1, 1⟩, _,
    ⟨1, none, none, by decide +kernel, .existing (by decide +kernel), by decide +kernel⟩, .refl⟩, Block.le_refl _⟩⟩

def single : Setup :=
  .single { threshold := .absolutePercentage .majority, maxVotingPeriod := .height 100, minVotingPeriod := none
            onlyMembersExecute := false, allowRevoting := false, dao := 0, closeOnExecutionFailure := true
            veto := none } .anyoneMayPropose

def multi : Setup :=
  .multi { quorum := .majority, maxVotingPeriod := .height 100, minVotingPeriod := none
           onlyMembersExecute := false, allowRevoting := false, dao := 0, closeOnExecutionFailure := true
           veto := none } .anyoneMayPropose

def condorcet : Setup :=
  .condorcet { quorum := .majority, votingPeriod := .height 100, minVotingPeriod := none, closeOnExecutionFailure := true }

def env (h : Nat) (sender : Addr) : Env :=
  ⟨⟨h, h⟩, sender, fun _ _ _ => 0, fun _ _ => 0, fun _ _ => 0, fun _ => 0, true, fun _ => true, fun _ => true⟩

def calls : List (Env × Call Block TokenStaked.Call) :=
  [(env 1 99, .core (.deliver ⟨2, []⟩)),
   (env 1 99, .spawn 3 single),
   (env 1 99, .core (.deliver ⟨3, []⟩)),
   (env 1 99, .spawn 4 multi),
   (env 1 99, .core (.deliver ⟨4, []⟩)),
   (env 1 99, .spawn 5 condorcet),
   (env 1 99, .core (.deliver ⟨5, []⟩)),
   (env 2 10, .vote ⟨2, 2⟩ (.stake 10 60)),
   (env 2 11, .vote ⟨2, 2⟩ (.stake 11 40)),
   (env 5 12, .vote ⟨5, 5⟩ (.stake 12 1000)),
   (env 5 10, .single 3 (.propose none 0 [7] none true)),
   (env 5 10, .multi 4 (.propose none 0 [(0, [8]), (1, [6])] none true)),
   (env 5 10, .condorcet 5 (.propose [[11], [8]])),
   (env 6 11, .single 3 (.vote 1 .no none)),
   (env 6 11, .multi 4 (.vote 1 0 none)),
   (env 6 11, .condorcet 5 (.vote 1 [1, 2, 0])),
   (env 6 10, .condorcet 5 (.vote 1 [0, 1, 2])),
   (env 6 10, .multi 4 (.vote 1 1 none)),
   (env 6 10, .single 3 (.vote 1 .yes none)),
   -- the first module sends message 7 and so message 9
   (env 7 99, .single 3 (.execute 1 false)),
   (env 7 99, .core (.deliver ⟨0, []⟩)),
   (env 7 99, .core (.deliver ⟨0, []⟩)),
   -- the second disables the first
   (env 7 99, .multi 4 (.execute 1 false)),
   (env 7 99, .core (.deliver ⟨0, []⟩)),
   -- the third sends message 11
   (env 7 11, .condorcet 5 (.execute 1 false)),
   (env 7 99, .core (.deliver ⟨0, []⟩)),
   -- the disabled module still answers, but for nothing
   (env 8 10, .single 3 (.propose none 0 [8] none true))]

def keepsDao (me : Addr) : Module → Bool
  | .single s => decide (s.config.dao = me)
  | .multi s => decide (s.config.dao = me)
  | .condorcet _ => true

/-- The tests of an example, as a program. -/
def fine {S E C : Type} (log : List (Event S E C)) : Bool :=
  log.all (fun e => decide (e.pre.core.core.admin = e.pre.core.core.me) &&
    e.pre.mods.all (fun m => decide (e.pre.core.core.voting = some e.pre.voteAddr) && keepsDao e.pre.core.core.me m.2) &&
    e.pre.core.core.modules.all (fun m => (e.pre.mods.get m.1).isSome))

theorem fine_steady {S E C : Type} {log : List (Event S E C)} (h : fine log = true) : Steady log := by
  simp only [Bool.and_eq_true, decide_eq_true_eq, fine, List.all_eq_true] at h
  intro e he a m hm
  obtain ⟨h1, h2⟩ := (h e he).1.2 (a, m) (AMap.mem_of_get hm)
  refine ⟨h1, ?_⟩
  cases m with
  | single s => simpa [keepsDao, KeepsDao] using h2
  | multi s => simpa [keepsDao, KeepsDao] using h2
  | condorcet s => trivial

theorem fine_governed {S E C : Type} {log : List (Event S E C)} (h : fine log = true) : Governed log := by
  simp only [Bool.and_eq_true, decide_eq_true_eq, fine, List.all_eq_true] at h
  refine fun e he => ⟨(h e he).1.1, ?_⟩
  rintro a ⟨m, hm, _⟩
  exact Option.isSome_iff_exists.1 ((h e he).2 (a, m) (AMap.mem_of_get hm))

def sent {S E C : Type} (k : Nat) (log : List (Event S E C)) : Bool :=
  log.any (fun e => e.out.core.any (fun d => match d with | .send (.other n) => decide (n = k) | _ => false))

theorem sent_mem {S E C : Type} {k : Nat} {log : List (Event S E C)} (hs : sent k log = true) :
    ∃ ev ∈ log, DaoCore.Sub.send (.other k) ∈ ev.out.core := by
  unfold sent at hs
  rw [List.any_eq_true] at hs
  obtain ⟨e, he, hs⟩ := hs
  rw [List.any_eq_true] at hs
  obtain ⟨d, hd, hs⟩ := hs
  refine ⟨e, he, ?_⟩
  split at hs
  · rw [of_decide_eq_true hs] at hd; exact hd
  · cases hs

def enabled (w : World TokenStaked.World) (a : Addr) : Bool :=
  match w.core.core.modules.get a with | some m => m.enabled | none => false

theorem enabled_iff {w : World TokenStaked.World} {a : Addr} : enabled w a = true ↔ Enabled w.core.core a := by
  unfold enabled Enabled
  cases h : w.core.core.modules.get a with
  | none => simp
  | some m => simp

/-- **C95.** Such a DAO: all assumptions are met, all its modules have made it send something, and the first is disabled in
the end. -/
theorem C95_example : ∃ (w : World TokenStaked.World) (b : Block)
    (log : List (Event TokenStaked.World Block TokenStaked.Call)),
    Init tokenStaked ⟨1, 1⟩ w0 ∧ (sys tokenStaked tokenStakedNow decode).Run w0 ⟨1, 1⟩ log w b ∧ Steady log ∧
    Governed log ∧ TotalsOfHeight tokenStaked tokenStakedNow log ∧
    (∃ ev ∈ log, DaoCore.Sub.send (.other 9) ∈ ev.out.core) ∧ (∃ ev ∈ log, DaoCore.Sub.send (.other 11) ∈ ev.out.core) ∧
    ¬ Enabled w.core.core 3 ∧ Enabled w.core.core 4 ∧ Enabled w.core.core 5 ∧
    tokenStaked.power w.vote 10 5 = 60 ∧ tokenStaked.total w.vote 5 = 100 ∧ tokenStaked.weight w.vote 12 = 1000 := by
  obtain ⟨w, b, log, hr, hp⟩ := Sys.check_run (M := sys tokenStaked tokenStakedNow decode) (s := w0) (b := ⟨1, 1⟩)
    (cs := calls) (p := fun w b log => fine log && sent 9 log && sent 11 log && !enabled w 3 && enabled w 4 && enabled w 5 &&
      decide (tokenStaked.power w.vote 10 5 = 60 ∧ tokenStaked.total w.vote 5 = 100 ∧ tokenStaked.weight w.vote 12 = 1000))
    (by decide +kernel)
  simp only [Bool.and_eq_true, decide_eq_true_eq, Bool.not_eq_true'] at hp
  obtain ⟨⟨⟨⟨⟨⟨h1, h2⟩, h3⟩, h4⟩, h5⟩, h6⟩, h7⟩ := hp
  exact ⟨w, b, log, init, hr, fine_steady h1, fine_governed h1, C95_totals C94_token_staked.2 ⟨_, _, init, hr⟩, sent_mem h2,
    sent_mem h3, fun h => (Bool.eq_false_iff.1 h4) (enabled_iff.2 h), enabled_iff.1 h5, enabled_iff.1 h6, h7⟩

/-- The last event executes proposal 1 of the module at an address, which is enabled. -/
def due (a : Addr) (log : List (Event TokenStaked.World Block TokenStaked.Call)) : Bool :=
  match log with
  | [] => false
  | ev :: _ => executes a 1 ev && decide (ev.env.block = ⟨7, 7⟩) && decide (DaoCore.isPaused ev.pre.core.core ⟨7, 7⟩ = false) &&
    enabled ev.pre a &&
    (match ev.pre.mods.get a with
      | some (.single s) => decide (s.config.onlyMembersExecute = false) &&
          (match s.proposals.get 1 with
            | some p => decide (p.status = .passed) && decide (p.veto = none) && decide (p.msgs = [7]) &&
                decide (p.threshold = .absolutePercentage .majority)
            | none => false)
      | some (.multi s) => decide (s.config.onlyMembersExecute = false) &&
          (match s.proposals.get 1 with
            | some p => decide (p.status = .passed) && decide (p.veto = none) && decide (p.choices.length = 3) &&
                decide (p.quorum = .majority)
            | none => false)
      | some (.condorcet s) =>
          (match s.proposals.get 1, s.tallies.get 1 with
            | some p, some t => decide (p.lastStatus = .opened) && decide (p.choices.length = 3) &&
                decide (p.quorum = .majority) && decide (t.expiration.isExpired ⟨7, 7⟩ = false) &&
                decide (tokenStaked.power ev.pre.vote 11 t.startHeight = 40)
            | _, _ => false)
      | none => false)

/-- The assumptions of `C95_carried_out_single`, `C95_carried_out_multi` or `C95_carried_out_condorcet`. -/
inductive Due (w : World TokenStaked.World) (log : List (Event TokenStaked.World Block TokenStaked.Call)) (a : Addr) : Prop where
  | single {s : Single.State} {p : Single.Proposal} (hs : w.mods.get a = some (.single s))
      (hnow : w.core.core.voting = some w.voteAddr ∧ s.config.dao = w.core.core.me) (hp : s.proposals.get 1 = some p)
      (hopen : p.status = .passed) (hveto : p.veto = none) (hmsgs : p.msgs = [7])
      (hdec : DecidedSingle tokenStaked (fun x => lastSingle a 1 x log) w.vote ⟨7, 7⟩ p)
      (hmem : s.config.onlyMembersExecute = false) (hpause : DaoCore.isPaused w.core.core ⟨7, 7⟩ = false)
      (hen : Enabled w.core.core a) : Due w log a
  | multi {s : Multiple.State} {p : Multiple.Proposal} {i : Nat} (hs : w.mods.get a = some (.multi s))
      (hnow : w.core.core.voting = some w.voteAddr ∧ s.config.dao = w.core.core.me) (hp : s.proposals.get 1 = some p)
      (hopen : p.status = .passed) (hveto : p.veto = none) (hmsgs : p.choices.length = 3)
      (hdec : DecidedMulti tokenStaked (fun x => lastMulti a 1 x log) w.vote ⟨7, 7⟩ p i)
      (hmem : s.config.onlyMembersExecute = false) (hpause : DaoCore.isPaused w.core.core ⟨7, 7⟩ = false)
      (hen : Enabled w.core.core a) : Due w log a
  | condorcet {s : Condorcet.State} {p : Condorcet.Proposal} {t : Condorcet.Tally} {i : Nat}
      (hs : w.mods.get a = some (.condorcet s)) (hnow : w.core.core.voting = some w.voteAddr)
      (hp : s.proposals.get 1 = some p) (ht : s.tallies.get 1 = some t) (hopen : p.lastStatus = .opened)
      (hmsgs : p.choices.length = 3) (hexp : t.expiration.isExpired ⟨7, 7⟩ = false)
      (hdec : DecidedCondorcet tokenStaked (rankings a 1 log) w.vote ⟨7, 7⟩ p t i)
      (hmem : tokenStaked.power w.vote 11 t.startHeight ≠ 0) (hpause : DaoCore.isPaused w.core.core ⟨7, 7⟩ = false)
      (hen : Enabled w.core.core a) : Due w log a

theorem due_of {a : Addr} {w : World TokenStaked.World} {b : Block}
    {log : List (Event TokenStaked.World Block TokenStaked.Call)}
    (hr : (sys tokenStaked tokenStakedNow decode).Run w0 ⟨1, 1⟩ log w b) (hp : (fine log && due a log) = true) :
    ∃ (w : World TokenStaked.World) (b : Block) (log : List (Event TokenStaked.World Block TokenStaked.Call)),
      (sys tokenStaked tokenStakedNow decode).Reach w b log ∧ Steady log ∧ TotalsOfHeight tokenStaked tokenStakedNow log ∧
      Due w log a := by
  rw [Bool.and_eq_true] at hp
  obtain ⟨hf, hd⟩ := hp
  have hst : Steady log := fine_steady hf
  have htot := C95_totals C94_token_staked.2 ⟨_, _, init, hr⟩
  cases hr with
  | refl => cases hd
  | @step s1 _ b1 before env call out h1 hb hs =>
    simp only [due, Bool.and_eq_true, decide_eq_true_eq] at hd
    obtain ⟨⟨⟨⟨hcall, hblk⟩, hpause⟩, hen⟩, hprop⟩ := hd
    obtain ⟨msgs, hc⟩ := C95_decided C94_token_staked.1 (decode := decode) (log := ⟨s1, env, call, out, w⟩ :: before)
      (later := []) ⟨_, _, init, .step h1 hb hs⟩ hst htot rfl hcall
    refine ⟨s1, b1, before, ⟨_, _, init, h1⟩, fun e he => hst e (List.mem_cons_of_mem _ he),
      fun e he => htot e (List.mem_cons_of_mem _ he), ?_⟩
    have hnow := hst _ (List.mem_cons_self)
    have hen := enabled_iff.1 hen
    simp only at hnow
    cases hc with
    | @single f s p hc hg hp hd _ =>
      simp only at hg hd
      rw [hg] at hprop
      simp only [hp, Bool.and_eq_true, decide_eq_true_eq] at hprop
      obtain ⟨h2, ⟨⟨h3, h4⟩, h5⟩, h6⟩ := hprop
      exact .single hg (hnow a _ hg) hp h3 h4 h5 (by rw [← hblk]; exact hd (by rw [h6]; trivial)) h2 hpause hen
    | @multi i f s p c hc hg hp hi hd _ =>
      simp only at hg hd
      rw [hg] at hprop
      simp only [hp, Bool.and_eq_true, decide_eq_true_eq] at hprop
      obtain ⟨h2, ⟨⟨h3, h4⟩, h5⟩, h6⟩ := hprop
      exact .multi (i := i) hg (hnow a _ hg) hp h3 h4 h5 (by rw [← hblk]; exact hd (by rw [h6]; trivial)) h2 hpause hen
    | @condorcet i f s p t _ hc hg hp ht hi hd _ =>
      simp only at hg hd
      rw [hg] at hprop
      simp only [hp, ht, Bool.and_eq_true, decide_eq_true_eq] at hprop
      obtain ⟨⟨⟨⟨h2, h3⟩, h4⟩, h5⟩, h6⟩ := hprop
      exact .condorcet (i := i) hg (hnow a _ hg).1 hp ht h2 h3 h5 (by rw [← hblk]; exact hd (by rw [h4]; trivial))
        (by rw [h6]; decide) hpause hen

/-- **C95.** The assumptions of the three theorems on carrying out are met in the example. -/
theorem C95_example_due : ∀ a ∈ [3, 4, 5], ∃ (w : World TokenStaked.World) (b : Block)
    (log : List (Event TokenStaked.World Block TokenStaked.Call)),
    (sys tokenStaked tokenStakedNow decode).Reach w b log ∧ Steady log ∧ TotalsOfHeight tokenStaked tokenStakedNow log ∧
    Due w log a := by
  have key : ∀ (a : Addr) (n : Nat), Sys.check (sys tokenStaked tokenStakedNow decode) w0 ⟨1, 1⟩ (calls.take n)
      (fun _ _ log => fine log && due a log) = true → ∃ (w : World TokenStaked.World) (b : Block)
      (log : List (Event TokenStaked.World Block TokenStaked.Call)),
      (sys tokenStaked tokenStakedNow decode).Reach w b log ∧ Steady log ∧ TotalsOfHeight tokenStaked tokenStakedNow log ∧
      Due w log a := by
    intro a n h
    obtain ⟨w, b, log, hr, hp⟩ := Sys.check_run h
    exact due_of hr hp
  intro a ha
  simp only [List.mem_cons, List.not_mem_nil, or_false] at ha
  rcases ha with rfl | rfl | rfl
  · exact key 3 20 (by decide +kernel)
  · exact key 4 23 (by decide +kernel)
  · exact key 5 25 (by decide +kernel)

end Verif.FullDao.Example
