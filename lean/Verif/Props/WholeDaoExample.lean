import Verif.Props.WholeDaoLive
import Verif.Props.WholeDaoModules
/-!
# C80: a DAO of two members

Member 10 stakes 60, member 11 stakes 40. In the block of the proposal a stranger stakes 1000, which does not count.
10 votes yes, 11 votes no, a majority of all is needed. The proposal tells the DAO to send an admin message to itself,
with a message 9 in it.
-/

namespace Verif.WholeDao.Example
open Verif Verif.Voting Verif.Spec Verif.Spec.WholeDao Verif.WholeDao

/-- Message 7 is an admin message of the DAO to itself. -/
def decode (n : Nat) : DaoCore.CosmosMsg :=
  if n = 7 then .toSelf (.executeAdminMsgs [.other 9]) else .other n

def oldCore : DaoCore.State :=
  { me := 1, admin := 1, nominated := none, config := ⟨0, true, true⟩, paused := none, voting := some 2, modules := []
    active := 0, total := 0, items := [], cw20s := [], cw721s := [], subDaos := [] }

def vote0 : TokenStaked.World :=
  ⟨{ dao := 1, unstakingDuration := none, threshold := none, staked := .empty, stakedTotal := .empty, claims := [], hooks := none }, 2,
    [(10, 60), (11, 40), (12, 1000)]⟩

def prop0 : Single.State :=
  { config := { threshold := .absolutePercentage .majority, maxVotingPeriod := .height 100, minVotingPeriod := none
                onlyMembersExecute := false, allowRevoting := false, dao := 1, closeOnExecutionFailure := true
                veto := none }
    count := 0, proposals := [], ballots := [], proposalHooks := none, voteHooks := none, policy := .anyone }

def w0 : World TokenStaked.World :=
  ⟨⟨(DaoCore.migrate oldCore [3] none).1, []⟩, prop0, vote0, 3, 2⟩

def env (h : Nat) (sender : Addr) : Env := ⟨⟨h, h⟩, sender, fun _ _ _ => 0, fun _ _ => 0, true, fun _ => true, fun _ => true⟩

def calls : List (Env × Call Block TokenStaked.Call) :=
  [(env 2 10, .vote ⟨2, 2⟩ (.stake 10 60)),
   (env 2 11, .vote ⟨2, 2⟩ (.stake 11 40)),
   (env 5 12, .vote ⟨5, 5⟩ (.stake 12 1000)),
   (env 5 10, .prop (.propose none 0 [7] none true)),
   (env 6 11, .prop (.vote 1 .no none)),
   (env 6 10, .prop (.vote 1 .yes none)),
   (env 7 99, .prop (.execute 1 false)),
   (env 7 99, .core (.deliver ⟨0, []⟩)),
   (env 7 99, .core (.deliver ⟨0, []⟩))]

theorem init : Init tokenStaked ⟨1, 1⟩ w0 := by
  refine ⟨by decide, ⟨⟨1, 1⟩, [], ⟨⟨1, 1⟩, _, ?_, .refl⟩, Block.le_refl _⟩,
    ⟨⟨1, 1⟩, [], ⟨⟨1, 1⟩, _, ⟨1, none, none, by decide +kernel, .existing (by decide +kernel), by decide +kernel⟩, .refl⟩,
      Block.le_refl _⟩, ⟨⟨1, 1⟩, 1, fun _ _ _ => 0, fun _ _ => 0, true⟩, prop0.config, .anyoneMayPropose, ⟨[], none⟩,
    rfl, rfl, by decide +kernel⟩
  exact DaoCore.Init.migrated (old := oldCore) (keys := [3]) (params := none) (by decide) (by decide)
    (by decide +kernel) (by decide) AMap.WF_nil AMap.WF_nil AMap.WF_nil rfl

/-- The tests of the example, as a program. -/
def fine (log : List (Event TokenStaked.World Block TokenStaked.Call)) : Bool :=
  log.all (fun e => decide (e.pre.core.core.voting = some e.pre.voteAddr) &&
    decide (e.pre.prop.config.dao = e.pre.core.core.me) && decide (e.pre.core.core.admin = e.pre.core.core.me) &&
    e.pre.core.core.modules.all (fun m => decide (m.1 = e.pre.propAddr)))

def sentNine (log : List (Event TokenStaked.World Block TokenStaked.Call)) : Bool :=
  log.any (fun e => e.out.core.any (fun d => match d with | .send (.other n) => decide (n = 9) | _ => false))

/-- **C80.** Such a DAO: all assumptions are met, and it sends message 9, on the strength of 60 of 100. -/
theorem C80_example : ∃ (w : World TokenStaked.World) (b : Block)
    (log : List (Event TokenStaked.World Block TokenStaked.Call)),
    Init tokenStaked ⟨1, 1⟩ w0 ∧ w0.core.stack = [] ∧ (sys tokenStaked decode).Run w0 ⟨1, 1⟩ log w b ∧ Steady log ∧
    Sole log ∧ (∃ ev ∈ log, DaoCore.Sub.send (.other 9) ∈ ev.out.core) ∧
    tokenStaked.power w.vote 10 5 = 60 ∧ tokenStaked.total w.vote 5 = 100 ∧ tokenStaked.weight w.vote 12 = 1000 := by
  obtain ⟨w, b, log, hr, hp⟩ := Sys.check_run (M := sys tokenStaked decode) (s := w0) (b := ⟨1, 1⟩) (cs := calls)
    (p := fun w b log => fine log && sentNine log && decide (tokenStaked.power w.vote 10 5 = 60 ∧
      tokenStaked.total w.vote 5 = 100 ∧ tokenStaked.weight w.vote 12 = 1000)) (by decide +kernel)
  simp only [Bool.and_eq_true, decide_eq_true_eq, fine, List.all_eq_true] at hp
  obtain ⟨⟨hf, hs⟩, hx⟩ := hp
  refine ⟨w, b, log, init, rfl, hr, fun e he => ⟨(hf e he).1.1.1, (hf e he).1.1.2⟩, fun e he => ⟨(hf e he).1.2, ?_⟩, ?_, hx⟩
  · rintro a ⟨m, hm, _⟩
    exact (hf e he).2 _ (AMap.mem_of_get hm)
  · unfold sentNine at hs
    rw [List.any_eq_true] at hs
    obtain ⟨e, he, hs⟩ := hs
    rw [List.any_eq_true] at hs
    obtain ⟨d, hd, hs⟩ := hs
    refine ⟨e, he, ?_⟩
    split at hs
    · rw [of_decide_eq_true hs] at hd; exact hd
    · cases hs

/-- The proposal is about to be executed. -/
def due (w : World TokenStaked.World) (log : List (Event TokenStaked.World Block TokenStaked.Call)) : Bool :=
  match log with
  | [] => false
  | ev :: _ =>
    (match ev.call with | .prop (.execute id f) => decide (id = 1) && decide (f = false) | _ => false) &&
    decide (ev.env.block = ⟨7, 7⟩) && decide (w.core.core.voting = some w.voteAddr) &&
    (match ev.pre.prop.proposals.get 1 with
      | some p => decide (p.status = .passed) && decide (p.veto = none) && decide (p.msgs = [7]) &&
          decide (p.threshold = .absolutePercentage .majority)
      | none => false) &&
    decide (ev.pre.prop.config.onlyMembersExecute = false) && decide (DaoCore.isPaused ev.pre.core.core ⟨7, 7⟩ = false) &&
    (match ev.pre.core.core.modules.get ev.pre.propAddr with | some m => m.enabled | none => false)

/-- **C80.** The assumptions of `C80_carried_out` are met in the example, with a proposal that has a message. -/
theorem C80_example_due : ∃ (w : World TokenStaked.World) (b : Block)
    (log : List (Event TokenStaked.World Block TokenStaked.Call)) (p : Single.Proposal),
    (sys tokenStaked decode).Reach w b log ∧ Steady log ∧ w.core.core.voting = some w.voteAddr ∧
    w.prop.config.dao = w.core.core.me ∧ w.prop.proposals.get 1 = some p ∧ p.status = .passed ∧ p.veto = none ∧
    p.msgs = [7] ∧ Decided tokenStaked log w.vote ⟨7, 7⟩ 1 p ∧ w.prop.config.onlyMembersExecute = false ∧
    DaoCore.isPaused w.core.core ⟨7, 7⟩ = false ∧ DaoCore.Enabled w.core.core w.propAddr := by
  obtain ⟨w, b, log, hr, hp⟩ := Sys.check_run (M := sys tokenStaked decode) (s := w0) (b := ⟨1, 1⟩)
    (cs := calls.take 7) (p := fun w b log => fine log && due w log) (by decide +kernel)
  simp only [Bool.and_eq_true] at hp
  obtain ⟨hf, hd⟩ := hp
  have hst : Steady log := by
    simp only [Bool.and_eq_true, decide_eq_true_eq, fine, List.all_eq_true] at hf
    exact fun e he => ⟨(hf e he).1.1.1, (hf e he).1.1.2⟩
  cases hr with
  | refl => cases hd
  | @step s1 _ b1 before env call out h1 hb hs =>
    simp only [due, Bool.and_eq_true, decide_eq_true_eq] at hd
    obtain ⟨⟨⟨⟨⟨⟨hcall, hblk⟩, _⟩, hprop⟩, honly⟩, hpause⟩, hen⟩ := hd
    have hc : ∃ f, call = .prop (.execute 1 f) := by
      split at hcall
      · rename_i id f
        simp only [Bool.and_eq_true, decide_eq_true_eq] at hcall
        rw [hcall.1]; exact ⟨f, rfl⟩
      · cases hcall
    obtain ⟨f, hc⟩ := hc
    obtain ⟨p, hg, hdec⟩ := C80_decided C80_token_staked (decode := decode)
      (log := ⟨s1, env, call, out, w⟩ :: before) (later := []) ⟨_, _, init, .step h1 hb hs⟩ hst rfl hc
    simp only at hg hdec
    rw [hg] at hprop
    simp only [Bool.and_eq_true, decide_eq_true_eq] at hprop
    obtain ⟨⟨⟨hstat, hveto⟩, hmsgs⟩, hthr⟩ := hprop
    have hnow := hst _ (List.mem_cons_self)
    refine ⟨s1, b1, before, p, ⟨_, _, init, h1⟩, fun e he => hst e (List.mem_cons_of_mem _ he), hnow.1, hnow.2, hg, hstat,
      hveto, hmsgs, ?_, honly, hpause, ?_⟩
    · rw [← hblk]; exact hdec (by rw [hthr]; trivial)
    · split at hen
      · rename_i m hm; exact ⟨m, hm, hen⟩
      · cases hen

end Verif.WholeDao.Example
