import Verif.Props.FederationLive
import Verif.Props.SubDaoExample
/-!
# C136: a DAO that is a member of another one

DAO 1 has three proposal modules, one of each kind. Its members are DAO 51, with 60 staked, and 10, with 40. DAO 51 has a proposal
module and a member, 11. There is a proposal in each of the modules of DAO 1. The members of DAO 51 decide how it votes on them.
-/

namespace Verif.Federation.Example
open Verif Verif.Spec Verif.Spec.Federation Verif.Federation
open Verif.Spec.FullDao (lastSingle lastMulti rankings Steady TotalsOfHeight)
open Verif.Spec.Condorcet (IsRanking)
open Verif.WholeDao (tokenStaked C80_token_staked)
open Verif.WholeCondorcet (tokenStakedNow C94_token_staked)
open Verif.FullDao (Env)
open Verif.FullDao.Example (vote0 core0 core_init single multi condorcet env fine fine_steady fine_governed enabled enabled_iff)

abbrev T' : Fin 2 → Type := fun _ => TokenStaked.World
abbrev F' : Fin 2 → Type := fun _ => Block
abbrev D' : Fin 2 → Type := fun _ => TokenStaked.Call

def U' : ∀ i, WholeDao.VotingModule (T' i) (F' i) (D' i) ((fun _ => TokenStaked.Out : Fin 2 → Type) i) := fun _ => tokenStaked
def N' : ∀ i, WholeCondorcet.Now (T' i) := fun _ => tokenStakedNow

theorem lawful : ∀ i, Spec.WholeDao.Lawful (U' i) := fun _ => C80_token_staked

/-- The voting module of DAO 1: DAO 51 and 10 own its tokens. -/
def vote1 : TokenStaked.World :=
  ⟨{ dao := 1, unstakingDuration := none, threshold := none, staked := .empty, stakedTotal := .empty, claims := [], hooks := none }, 2,
    [(51, 60), (10, 40)]⟩

/-- DAO 1 is `0`, DAO 51 is `1`. -/
def w0 : World T' := ⟨fun i => if i = 0 then ⟨core0, [], vote1, 2⟩ else ⟨SubDao.Example.core 51 none, [], vote0, 52⟩⟩

/-- Messages 301, 302 and 303 of DAO 51 are votes in the modules of DAO 1. -/
def reading : Reading (Fin 2) := fun i n =>
  if i = 1 ∧ n = 301 then some (0, .single 3 (.vote 1 .yes none)) else
  if i = 1 ∧ n = 302 then some (0, .multi 4 (.vote 1 1 none)) else
  if i = 1 ∧ n = 303 then some (0, .condorcet 5 (.vote 1 [0, 1, 2])) else none

abbrev theSys : Sys (World T') Env (Call F' D') Out := sys U' N' (fun _ => .other) reading

theorem init : Init U' ⟨1, 1⟩ w0 := by
  refine ⟨fun i => ?_, by decide +kernel⟩
  match i with
  | 0 => exact ⟨rfl, ⟨⟨1, 1⟩, [], ⟨⟨1, 1⟩, _, core_init, .refl⟩, Block.le_refl _⟩, ⟨⟨1, 1⟩, [], ⟨⟨1, 1⟩, _,
    ⟨1, none, none, by decide +kernel, .existing (by decide +kernel), by decide +kernel⟩, .refl⟩, Block.le_refl _⟩⟩
  | 1 => exact ⟨rfl, ⟨⟨1, 1⟩, [], ⟨⟨1, 1⟩, _, SubDao.Example.core_init _ _, .refl⟩, Block.le_refl _⟩, FullDao.Example.init.2.2⟩

abbrev Step := Env × Call F' D'

/-- What happens until the members of DAO 51 have decided to send these messages. -/
def start (msgs : List Nat) : List Step :=
  [(env 1 99, .dao 0 (.core (.deliver ⟨2, []⟩))),
   (env 1 99, .dao 0 (.spawn 3 single)),
   (env 1 99, .dao 0 (.core (.deliver ⟨3, []⟩))),
   (env 1 99, .dao 0 (.spawn 4 multi)),
   (env 1 99, .dao 0 (.core (.deliver ⟨4, []⟩))),
   (env 1 99, .dao 0 (.spawn 5 condorcet)),
   (env 1 99, .dao 0 (.core (.deliver ⟨5, []⟩))),
   (env 1 99, .dao 1 (.core (.deliver ⟨52, []⟩))),
   (env 1 99, .dao 1 (.spawn 53 single)),
   (env 1 99, .dao 1 (.core (.deliver ⟨53, []⟩))),
   (env 2 10, .dao 0 (.vote ⟨2, 2⟩ (.stake 10 40))),
   (env 2 51, .dao 0 (.vote ⟨2, 2⟩ (.stake 51 60))),
   (env 2 11, .dao 1 (.vote ⟨2, 2⟩ (.stake 11 40))),
   (env 5 10, .dao 0 (.single 3 (.propose none 0 [9] none true))),
   (env 5 10, .dao 0 (.multi 4 (.propose none 0 [(0, [8]), (1, [6])] none true))),
   (env 5 10, .dao 0 (.condorcet 5 (.propose [[11], [8]]))),
   (env 5 11, .dao 1 (.single 53 (.propose none 0 msgs none true))),
   (env 6 11, .dao 1 (.single 53 (.vote 1 .yes none))),
   (env 7 99, .dao 1 (.single 53 (.execute 1 false)))]

/-- DAO 51 votes on all three proposals, and that is enough to execute the first. -/
def calls : List Step := start [301, 302, 303] ++
  [(env 7 99, .pass 1), (env 7 99, .pass 1), (env 7 99, .pass 1),
   (env 8 99, .dao 0 (.single 3 (.execute 1 false))), (env 8 99, .dao 0 (.core (.deliver ⟨0, []⟩)))]

theorem fine_free {w : World T'} {b : Block} {log : List (Event T' F' D')} (hr : theSys.Run w0 ⟨1, 1⟩ log w b) {i : Fin 2}
    (hf : fine (daoLog reading i log) = true) : Free U' N' reading log i := by
  obtain ⟨b1, h1, _⟩ := C136_dao hr i
  exact ⟨fine_steady hf, FullDao.C95_totals C94_token_staked.2 ⟨_, _, init.1 i, h1⟩, fine_governed hf⟩

/-- DAO 1 sends message `k` in the history. -/
def sends (k : Nat) (log : List (Event T' F' D')) : Bool :=
  (daoLog reading 0 log).any (fun e => e.out.core.any (fun d => match d with | .send (.other n) => decide (n = k) | _ => false))

/-- **C136.** A history in which DAO 51 meets the hypotheses and votes in all three kinds of modules of DAO 1. DAO 1 sends message 9,
for which DAO 51 was decisive. -/
theorem C136_example : ∃ (w : World T') (b : Block) (log : List (Event T' F' D')),
    Init U' ⟨1, 1⟩ w0 ∧ theSys.Run w0 ⟨1, 1⟩ log w b ∧ Free U' N' reading log 1 ∧ Free U' N' reading log 0 ∧
    lastSingle 3 1 (w.dao 1).core.core.me (daoLog reading 0 log) = some .yes ∧
    lastMulti 4 1 (w.dao 1).core.core.me (daoLog reading 0 log) = some 1 ∧
    rankings 5 1 (daoLog reading 0 log) = [((w.dao 1).core.core.me, [0, 1, 2])] ∧
    ∃ ev ∈ daoLog reading 0 log, DaoCore.Sub.send (.other 9) ∈ ev.out.core := by
  obtain ⟨w, b, log, hr, hp⟩ := Sys.check_run (M := theSys) (s := w0) (b := ⟨1, 1⟩) (cs := calls)
    (p := fun w _ log => fine (daoLog reading 1 log) && (fine (daoLog reading 0 log) &&
      (decide (lastSingle 3 1 (w.dao 1).core.core.me (daoLog reading 0 log) = some .yes) &&
      (decide (lastMulti 4 1 (w.dao 1).core.core.me (daoLog reading 0 log) = some 1) &&
      (decide (rankings 5 1 (daoLog reading 0 log) = [((w.dao 1).core.core.me, [0, 1, 2])]) && sends 9 log)))))
    (by decide +kernel)
  simp only [Bool.and_eq_true, decide_eq_true_eq] at hp
  obtain ⟨h1, h2, h3, h4, h5, h6⟩ := hp
  refine ⟨w, b, log, init, hr, fine_free hr h1, fine_free hr h2, h3, h4, h5, ?_⟩
  unfold sends at h6
  rw [List.any_eq_true] at h6
  obtain ⟨e, he, hs⟩ := h6
  rw [List.any_eq_true] at hs
  obtain ⟨d, hd, hs⟩ := hs
  refine ⟨e, he, ?_⟩
  split at hs
  · rw [of_decide_eq_true hs] at hd; exact hd
  · cases hs

/-- Only this message is to be sent. -/
def only (j : Nat) : List DaoCore.Sub → Bool
  | [.send (.other n)] => decide (n = j)
  | _ => false

theorem only_eq {j : Nat} {l : List DaoCore.Sub} (h : only j l = true) : l = [.send (.other j)] := by
  unfold only at h
  split at h
  · rw [of_decide_eq_true h]
  · cases h

/-- **C136.** A state in which `C136_counts_single` applies. -/
theorem C136_example_single : ∃ (w : World T') (b : Block) (log : List (Event T' F' D')) (s : Single.State) (p : Single.Proposal),
    theSys.Run w0 ⟨1, 1⟩ log w b ∧ Steady (daoLog reading 0 log) ∧ (w.dao 1).core.stack = [.send (.other 301)] ∧
    reading 1 301 = some (0, .single 3 (.vote 1 .yes none)) ∧ (w.dao 0).mods.get 3 = some (.single s) ∧
    ((w.dao 0).core.core.voting = some (w.dao 0).voteAddr ∧ s.config.dao = (w.dao 0).core.core.me) ∧
    s.proposals.get 1 = some p ∧ p.expiration.isExpired (env 8 99).block = false ∧
    (U' 0).power (w.dao 0).vote (w.dao 1).core.core.me p.startHeight ≠ 0 ∧
    lastSingle 3 1 (w.dao 1).core.core.me (daoLog reading 0 log) = none := by
  obtain ⟨w, b, log, hr, hp⟩ := Sys.check_run (M := theSys) (s := w0) (b := ⟨1, 1⟩) (cs := start [301])
    (p := fun w _ log => fine (daoLog reading 0 log) && (only 301 (w.dao 1).core.stack &&
      (decide (lastSingle 3 1 (w.dao 1).core.core.me (daoLog reading 0 log) = none) &&
      match (w.dao 0).mods.get 3 with
      | some (.single s) => decide ((w.dao 0).core.core.voting = some (w.dao 0).voteAddr ∧ s.config.dao = (w.dao 0).core.core.me) &&
        match s.proposals.get 1 with
        | some p => decide (p.expiration.isExpired (env 8 99).block = false ∧
            tokenStaked.power (w.dao 0).vote (w.dao 1).core.core.me p.startHeight ≠ 0)
        | none => false
      | _ => false))) (by decide +kernel)
  simp only [Bool.and_eq_true, decide_eq_true_eq] at hp
  obtain ⟨h1, h2, h3, h4⟩ := hp
  split at h4
  · rename_i s hs
    simp only [Bool.and_eq_true, decide_eq_true_eq] at h4
    obtain ⟨h4, h5⟩ := h4
    split at h5
    · rename_i p hp
      obtain ⟨h6, h7⟩ := of_decide_eq_true h5
      exact ⟨w, b, log, s, p, hr, fine_steady h1, only_eq h2, rfl, hs, h4, hp, h6, h7, h3⟩
    · cases h5
  · cases h4

/-- **C136.** A state in which `C136_counts_multi` applies. -/
theorem C136_example_multi : ∃ (w : World T') (b : Block) (log : List (Event T' F' D')) (s : Multiple.State)
    (p : Multiple.Proposal),
    theSys.Run w0 ⟨1, 1⟩ log w b ∧ Steady (daoLog reading 0 log) ∧ TotalsOfHeight (U' 0) (N' 0) (daoLog reading 0 log) ∧
    (w.dao 1).core.stack = [.send (.other 302)] ∧
    reading 1 302 = some (0, .multi 4 (.vote 1 1 none)) ∧ (w.dao 0).mods.get 4 = some (.multi s) ∧
    ((w.dao 0).core.core.voting = some (w.dao 0).voteAddr ∧ s.config.dao = (w.dao 0).core.core.me) ∧
    s.proposals.get 1 = some p ∧ 1 < p.choices.length ∧ p.expiration.isExpired (env 8 99).block = false ∧
    (U' 0).power (w.dao 0).vote (w.dao 1).core.core.me p.startHeight ≠ 0 ∧
    lastMulti 4 1 (w.dao 1).core.core.me (daoLog reading 0 log) = none := by
  obtain ⟨w, b, log, hr, hp⟩ := Sys.check_run (M := theSys) (s := w0) (b := ⟨1, 1⟩) (cs := start [302])
    (p := fun w _ log => fine (daoLog reading 0 log) && (only 302 (w.dao 1).core.stack &&
      (decide (lastMulti 4 1 (w.dao 1).core.core.me (daoLog reading 0 log) = none) &&
      match (w.dao 0).mods.get 4 with
      | some (.multi s) => decide ((w.dao 0).core.core.voting = some (w.dao 0).voteAddr ∧ s.config.dao = (w.dao 0).core.core.me) &&
        match s.proposals.get 1 with
        | some p => decide (1 < p.choices.length ∧ p.expiration.isExpired (env 8 99).block = false ∧
            tokenStaked.power (w.dao 0).vote (w.dao 1).core.core.me p.startHeight ≠ 0)
        | none => false
      | _ => false))) (by decide +kernel)
  simp only [Bool.and_eq_true, decide_eq_true_eq] at hp
  obtain ⟨h1, h2, h3, h4⟩ := hp
  split at h4
  · rename_i s hs
    simp only [Bool.and_eq_true, decide_eq_true_eq] at h4
    obtain ⟨h4, h5⟩ := h4
    split at h5
    · rename_i p hp
      obtain ⟨h6, h7, h8⟩ := of_decide_eq_true h5
      exact ⟨w, b, log, s, p, hr, fine_steady h1, (fine_free hr h1).2.1, only_eq h2, rfl, hs, h4, hp, h6, h7, h8, h3⟩
    · cases h5
  · cases h4

/-- **C136.** A state in which `C136_counts_condorcet` applies. -/
theorem C136_example_condorcet : ∃ (w : World T') (b : Block) (log : List (Event T' F' D')) (s : Condorcet.State)
    (p : Condorcet.Proposal) (t : Condorcet.Tally),
    theSys.Run w0 ⟨1, 1⟩ log w b ∧ Steady (daoLog reading 0 log) ∧ TotalsOfHeight (U' 0) (N' 0) (daoLog reading 0 log) ∧
    (w.dao 1).core.stack = [.send (.other 303)] ∧
    reading 1 303 = some (0, .condorcet 5 (.vote 1 [0, 1, 2])) ∧ (w.dao 0).mods.get 5 = some (.condorcet s) ∧
    (w.dao 0).core.core.voting = some (w.dao 0).voteAddr ∧
    s.proposals.get 1 = some p ∧ s.tallies.get 1 = some t ∧ IsRanking p.choices.length [0, 1, 2] ∧
    t.expiration.isExpired (env 8 99).block = false ∧
    (U' 0).power (w.dao 0).vote (w.dao 1).core.core.me t.startHeight ≠ 0 ∧
    (w.dao 1).core.core.me ∉ (rankings 5 1 (daoLog reading 0 log)).map Prod.fst := by
  obtain ⟨w, b, log, hr, hp⟩ := Sys.check_run (M := theSys) (s := w0) (b := ⟨1, 1⟩) (cs := start [303])
    (p := fun w _ log => fine (daoLog reading 0 log) && (only 303 (w.dao 1).core.stack &&
      (decide ((w.dao 1).core.core.me ∉ (rankings 5 1 (daoLog reading 0 log)).map Prod.fst) &&
      (decide ((w.dao 0).core.core.voting = some (w.dao 0).voteAddr) &&
      match (w.dao 0).mods.get 5 with
      | some (.condorcet s) =>
        match s.proposals.get 1, s.tallies.get 1 with
        | some p, some t => decide (p.choices.length = 3 ∧ t.expiration.isExpired (env 8 99).block = false ∧
            tokenStaked.power (w.dao 0).vote (w.dao 1).core.core.me t.startHeight ≠ 0)
        | _, _ => false
      | _ => false)))) (by decide +kernel)
  simp only [Bool.and_eq_true, decide_eq_true_eq] at hp
  obtain ⟨h1, h2, h3, h4, h5⟩ := hp
  split at h5
  · rename_i s hs
    split at h5
    · rename_i p t hp ht
      obtain ⟨h6, h7, h8⟩ := of_decide_eq_true h5
      refine ⟨w, b, log, s, p, t, hr, fine_steady h1, (fine_free hr h1).2.1, only_eq h2, rfl, hs, h4, hp, ht, ?_, h7, h8, h3⟩
      rw [h6]
      exact ⟨by decide, fun i => by simp only [List.mem_cons, List.not_mem_nil, or_false]; omega⟩
    · cases h5
  · cases h5

/-- The last event executes the proposal of DAO 51 to send message `k`. -/
def ready (k : Nat) (log : List (Event T' F' D')) : Bool :=
  match log with
  | [] => false
  | ev :: before => decide (DaoCore.isPaused (ev.pre.dao 1).core.core ev.env.block = false) && (enabled (ev.pre.dao 1) 53 &&
    (fine (daoLog reading 0 before) && (fine (daoLog reading 1 before) &&
    (decide (∀ k, (ev.pre.dao k).core.core.me ≠ ev.env.sender) &&
    ((match ev.call with
      | .dao 1 (.single x (.execute n false)) => decide (x = 53 ∧ n = 1)
      | _ => false) &&
    (match (ev.pre.dao 1).mods.get 53 with
      | some (.single s) => decide (s.config.onlyMembersExecute = false) &&
          (match s.proposals.get 1 with
            | some p => decide (p.status = .passed ∧ p.veto = none ∧ p.threshold = .absolutePercentage .majority ∧ p.msgs = [k])
            | none => false)
      | _ => false))))))

/-- The state before the last event, and that event's environment, pass a test. -/
def beforeLast (q : World T' → Env → List (Event T' F' D') → Bool) : List (Event T' F' D') → Bool
  | [] => false
  | ev :: before => q ev.pre ev.env before

theorem ready_of {k : Nat} {q : World T' → Env → List (Event T' F' D') → Bool}
    (hchk : theSys.check w0 ⟨1, 1⟩ (start [k])
      (fun _ _ log => fine (daoLog reading 1 log) && (ready k log && beforeLast q log)) = true) :
    ∃ (w : World T') (b : Block) (log : List (Event T' F' D')) (e : Env) (c : FullDao.Call Block TokenStaked.Call),
    theSys.Run w0 ⟨1, 1⟩ log w b ∧ Free U' N' reading log 0 ∧ Free U' N' reading log 1 ∧ b.le e.block ∧
    (∀ k, (w.dao k).core.core.me ≠ e.sender) ∧ Spec.Treasury.Resolved (U' 1) (w.dao 1) (daoLog reading 1 log) e [k] c ∧
    q w e log = true := by
  obtain ⟨w, b, log, hr, hp⟩ := Sys.check_run (M := theSys) (s := w0) (b := ⟨1, 1⟩) (cs := start [k])
    (p := fun _ _ log => fine (daoLog reading 1 log) && (ready k log && beforeLast q log)) hchk
  rw [Bool.and_eq_true, Bool.and_eq_true] at hp
  obtain ⟨hf, hu, hq⟩ := hp
  have hh := fine_free hr hf
  obtain ⟨b2, hrd, _⟩ := C136_dao hr 1
  cases hr with
  | refl => cases hu
  | @step s1 _ b1 before env call out h1 hb hs =>
    simp only [ready, Bool.and_eq_true, decide_eq_true_eq] at hu
    obtain ⟨hpause, hen, hf0, hf1, hex, hcall, hprop⟩ := hu
    have hen := enabled_iff.1 hen
    have key : call = .dao 1 (.single 53 (.execute 1 false)) := by
      split at hcall
      · obtain ⟨rfl, rfl⟩ := of_decide_eq_true hcall; rfl
      · cases hcall
    subst key
    clear hcall
    have hlog : daoLog reading 1 ((⟨s1, env, .dao 1 (.single 53 (.execute 1 false)), out, w⟩ : Event T' F' D') :: before) =
        ⟨s1.dao 1, env, .single 53 (.execute 1 false), out.dao, w.dao 1⟩ :: daoLog reading 1 before := by
      simp only [daoLog]
      rw [List.filterMap_cons_some]
      simp only [daoEvent, dite_true]
    obtain ⟨hst, htot, _⟩ := hh
    rw [hlog] at hst htot hrd
    have hnow := hst ⟨s1.dao 1, env, .single 53 (.execute 1 false), out.dao, w.dao 1⟩ List.mem_cons_self
    simp only at hnow
    obtain ⟨msgs, hch⟩ := FullDao.C95_decided C94_token_staked.1 (decode := .other) (later := [])
      (ev := ⟨s1.dao 1, env, .single 53 (.execute 1 false), out.dao, w.dao 1⟩) (before := daoLog reading 1 before) (a := 53)
      (id := 1) ⟨_, _, init.1 1, hrd⟩ hst htot rfl (by simp [FullDao.executes])
    cases hch with
    | @single f s p hc' hg hp hdd _ =>
      simp only at hg hdd hc'
      rw [hg] at hprop
      simp only [hp, Bool.and_eq_true, decide_eq_true_eq] at hprop
      obtain ⟨h2, h3, h4, h6, h7⟩ := hprop
      exact ⟨s1, b1, before, env, _, h1, fine_free h1 hf0, fine_free h1 hf1, hb, hex,
        .single hg (hnow 53 _ hg) hp (Or.inr h3) h4 (hdd (by rw [h6]; trivial)) (by simp [h2]) hpause hen h7, hq⟩
    | multi hc' => cases hc'
    | condorcet hc' => cases hc'

/-- **C136.** A state in which `C136_members_single` applies. -/
theorem C136_example_members_single : ∃ (w : World T') (b : Block) (log : List (Event T' F' D')) (e : Env)
    (c : FullDao.Call Block TokenStaked.Call) (s : Single.State) (p : Single.Proposal),
    theSys.Run w0 ⟨1, 1⟩ log w b ∧ Free U' N' reading log 0 ∧ Free U' N' reading log 1 ∧ b.le e.block ∧
    (∀ k, (w.dao k).core.core.me ≠ e.sender) ∧ Spec.Treasury.Resolved (U' 1) (w.dao 1) (daoLog reading 1 log) e [301] c ∧
    reading 1 301 = some (0, .single 3 (.vote 1 .yes none)) ∧ (w.dao 0).mods.get 3 = some (.single s) ∧
    ((w.dao 0).core.core.voting = some (w.dao 0).voteAddr ∧ s.config.dao = (w.dao 0).core.core.me) ∧
    s.proposals.get 1 = some p ∧ p.expiration.isExpired e.block = false ∧
    (U' 0).power (w.dao 0).vote (w.dao 1).core.core.me p.startHeight ≠ 0 ∧
    lastSingle 3 1 (w.dao 1).core.core.me (daoLog reading 0 log) = none := by
  obtain ⟨w, b, log, e, c, g1, g2, g3, g4, g5, g6, hp⟩ := ready_of (k := 301)
    (q := fun w e log => decide (lastSingle 3 1 (w.dao 1).core.core.me (daoLog reading 0 log) = none) &&
      match (w.dao 0).mods.get 3 with
      | some (.single s) => decide ((w.dao 0).core.core.voting = some (w.dao 0).voteAddr ∧ s.config.dao = (w.dao 0).core.core.me) &&
        match s.proposals.get 1 with
        | some p => decide (p.expiration.isExpired e.block = false ∧
            tokenStaked.power (w.dao 0).vote (w.dao 1).core.core.me p.startHeight ≠ 0)
        | none => false
      | _ => false) (by decide +kernel)
  simp only [Bool.and_eq_true, decide_eq_true_eq] at hp
  obtain ⟨h3, h4⟩ := hp
  split at h4
  · rename_i s hs
    simp only [Bool.and_eq_true, decide_eq_true_eq] at h4
    obtain ⟨h4, h5⟩ := h4
    split at h5
    · rename_i p hp
      obtain ⟨h6, h7⟩ := of_decide_eq_true h5
      exact ⟨w, b, log, e, c, s, p, g1, g2, g3, g4, g5, g6, rfl, hs, h4, hp, h6, h7, h3⟩
    · cases h5
  · cases h4

/-- **C136.** A state in which `C136_members_multi` applies. -/
theorem C136_example_members_multi : ∃ (w : World T') (b : Block) (log : List (Event T' F' D')) (e : Env)
    (c : FullDao.Call Block TokenStaked.Call) (s : Multiple.State) (p : Multiple.Proposal),
    theSys.Run w0 ⟨1, 1⟩ log w b ∧ Free U' N' reading log 0 ∧ Free U' N' reading log 1 ∧ b.le e.block ∧
    (∀ k, (w.dao k).core.core.me ≠ e.sender) ∧ Spec.Treasury.Resolved (U' 1) (w.dao 1) (daoLog reading 1 log) e [302] c ∧
    reading 1 302 = some (0, .multi 4 (.vote 1 1 none)) ∧ (w.dao 0).mods.get 4 = some (.multi s) ∧
    ((w.dao 0).core.core.voting = some (w.dao 0).voteAddr ∧ s.config.dao = (w.dao 0).core.core.me) ∧
    s.proposals.get 1 = some p ∧ 1 < p.choices.length ∧ p.expiration.isExpired e.block = false ∧
    (U' 0).power (w.dao 0).vote (w.dao 1).core.core.me p.startHeight ≠ 0 ∧
    lastMulti 4 1 (w.dao 1).core.core.me (daoLog reading 0 log) = none := by
  obtain ⟨w, b, log, e, c, g1, g2, g3, g4, g5, g6, hp⟩ := ready_of (k := 302)
    (q := fun w e log => decide (lastMulti 4 1 (w.dao 1).core.core.me (daoLog reading 0 log) = none) &&
      match (w.dao 0).mods.get 4 with
      | some (.multi s) => decide ((w.dao 0).core.core.voting = some (w.dao 0).voteAddr ∧ s.config.dao = (w.dao 0).core.core.me) &&
        match s.proposals.get 1 with
        | some p => decide (1 < p.choices.length ∧ p.expiration.isExpired e.block = false ∧
            tokenStaked.power (w.dao 0).vote (w.dao 1).core.core.me p.startHeight ≠ 0)
        | none => false
      | _ => false) (by decide +kernel)
  simp only [Bool.and_eq_true, decide_eq_true_eq] at hp
  obtain ⟨h3, h4⟩ := hp
  split at h4
  · rename_i s hs
    simp only [Bool.and_eq_true, decide_eq_true_eq] at h4
    obtain ⟨h4, h5⟩ := h4
    split at h5
    · rename_i p hp
      obtain ⟨h6, h7, h8⟩ := of_decide_eq_true h5
      exact ⟨w, b, log, e, c, s, p, g1, g2, g3, g4, g5, g6, rfl, hs, h4, hp, h6, h7, h8, h3⟩
    · cases h5
  · cases h4

/-- **C136.** A state in which `C136_members_condorcet` applies. -/
theorem C136_example_members_condorcet : ∃ (w : World T') (b : Block) (log : List (Event T' F' D')) (e : Env)
    (c : FullDao.Call Block TokenStaked.Call) (s : Condorcet.State) (p : Condorcet.Proposal) (t : Condorcet.Tally),
    theSys.Run w0 ⟨1, 1⟩ log w b ∧ Free U' N' reading log 0 ∧ Free U' N' reading log 1 ∧ b.le e.block ∧
    (∀ k, (w.dao k).core.core.me ≠ e.sender) ∧ Spec.Treasury.Resolved (U' 1) (w.dao 1) (daoLog reading 1 log) e [303] c ∧
    reading 1 303 = some (0, .condorcet 5 (.vote 1 [0, 1, 2])) ∧ (w.dao 0).mods.get 5 = some (.condorcet s) ∧
    (w.dao 0).core.core.voting = some (w.dao 0).voteAddr ∧
    s.proposals.get 1 = some p ∧ s.tallies.get 1 = some t ∧ IsRanking p.choices.length [0, 1, 2] ∧
    t.expiration.isExpired e.block = false ∧
    (U' 0).power (w.dao 0).vote (w.dao 1).core.core.me t.startHeight ≠ 0 ∧
    (w.dao 1).core.core.me ∉ (rankings 5 1 (daoLog reading 0 log)).map Prod.fst := by
  obtain ⟨w, b, log, e, c, g1, g2, g3, g4, g5, g6, hp⟩ := ready_of (k := 303)
    (q := fun w e log => decide ((w.dao 1).core.core.me ∉ (rankings 5 1 (daoLog reading 0 log)).map Prod.fst) &&
      (decide ((w.dao 0).core.core.voting = some (w.dao 0).voteAddr) &&
      match (w.dao 0).mods.get 5 with
      | some (.condorcet s) =>
        match s.proposals.get 1, s.tallies.get 1 with
        | some p, some t => decide (p.choices.length = 3 ∧ t.expiration.isExpired e.block = false ∧
            tokenStaked.power (w.dao 0).vote (w.dao 1).core.core.me t.startHeight ≠ 0)
        | _, _ => false
      | _ => false)) (by decide +kernel)
  simp only [Bool.and_eq_true, decide_eq_true_eq] at hp
  obtain ⟨h3, h4, h5⟩ := hp
  split at h5
  · rename_i s hs
    split at h5
    · rename_i p t hp ht
      obtain ⟨h6, h7, h8⟩ := of_decide_eq_true h5
      refine ⟨w, b, log, e, c, s, p, t, g1, g2, g3, g4, g5, g6, rfl, hs, h4, hp, ht, ?_, h7, h8, h3⟩
      rw [h6]
      exact ⟨by decide, fun i => by simp only [List.mem_cons, List.not_mem_nil, or_false]; omega⟩
    · cases h5
  · cases h5

end Verif.Federation.Example
