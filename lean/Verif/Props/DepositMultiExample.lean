import Verif.Props.DepositMultiMajority
import Verif.Props.WholeMultiMajorityExample
import Verif.Model.WholeCondorcetModules
/-!
# C116, C117: a DAO of two members with a pre-propose module

The DAO of `Verif.WholeMulti.Example`, with a pre-propose module at 20 that lets members submit, for a deposit of 5 of the
cw20 token 30 that comes back if the proposal passes.
-/

namespace Verif.DepositMulti.Example
open Verif Verif.Voting Verif.DepositMulti
open Verif.Spec Verif.Spec.DepositMulti
open Verif.WholeDao (tokenStaked)
open Verif.WholeCondorcet (tokenStakedNow)
open Verif.WholeMulti.Example (decode env)
open Verif.Spec.WholeMulti (Steady TotalsOfHeight)

def config : PrePropose.Config := ⟨some ⟨.cw20 30, 5, .onlyPassed⟩, .specific true [] []⟩

def w0 : World tokenStaked tokenStakedNow decode :=
  { here := 20, pre := ⟨3, 1, config, [], none⟩, mod := WholeMulti.Example.dao WholeMulti.Example.vote0, bal := [((.cw20 30, 10), 50)], queue := []
    takes := [] }

def at' (e : WholeMulti.Env) : Env := ⟨e, [], fun _ => 0⟩

abbrev Calls := List (Env × Call tokenStaked tokenStakedNow decode)

def start : Calls :=
  [(at' (env 2 10), .module (.vote ⟨2, 2⟩ (.stake 10 60))),
   (at' (env 2 11), .module (.vote ⟨2, 2⟩ (.stake 11 40))),
   (at' (env 3 3), .module (.prop (.replyPreProposeInstantiated 20)))]

def calls : Calls := start ++
  [(at' (env 5 10), .propose ⟨0, [(0, [8]), (1, [9])], none, true⟩),
   (at' (env 5 10), .take 0),
   (at' (env 6 11), .module (.prop (.vote 1 1 none))),
   (at' (env 6 10), .module (.prop (.vote 1 0 none))),
   (at' (env 7 99), .module (.prop (.execute 1 false))),
   (at' (env 7 99), .deliver 0)]

theorem fresh : Fresh w0 := by
  refine ⟨rfl, rfl, by decide, by decide, rfl, rfl, by decide +kernel, config, by decide +kernel⟩

/-- The DAO keeps its voting module, and proposals are made while the pre-propose module is attached. -/
def fine (log : List (Event tokenStaked tokenStakedNow decode)) : Bool :=
  (daoLog log).all (fun e => decide (e.pre.core.core.voting = some e.pre.voteAddr) &&
    decide (e.pre.prop.config.dao = e.pre.core.core.me)) &&
  log.all (fun s => decide (s.out.newId = none) || decide (s.pre.mod.prop.policy = .module s.pre.here))

def sentEight (log : List (Event tokenStaked tokenStakedNow decode)) : Bool :=
  (daoLog log).any (fun e => e.out.core.any (fun d => match d with | .send (.other n) => decide (n = 8) | _ => false))

theorem fine_iff {log : List (Event tokenStaked tokenStakedNow decode)} (h : fine log = true) : Steady (daoLog log ++ []) ∧
    ∀ s ∈ log, s.out.newId ≠ none → s.pre.mod.prop.policy = .module s.pre.here := by
  simp only [fine, Bool.and_eq_true, List.all_eq_true, decide_eq_true_eq, Bool.or_eq_true] at h
  refine ⟨?_, ?_⟩
  · rw [List.append_nil]; exact h.1
  · intro s hs hn
    rcases h.2 s hs with h | h
    · exact absurd h hn
    · exact h

/-- **C116.** Such a DAO: all assumptions are met, it sends message 8, and member 10 has their deposit back. -/
theorem C116_example : ∃ (w : World tokenStaked tokenStakedNow decode) (b : Block) (log : List (Event tokenStaked tokenStakedNow decode)),
    (WholeMulti.sys tokenStaked tokenStakedNow.total decode).Reach w0.mod ⟨1, 1⟩ [] ∧ Fresh w0 ∧
    (sys tokenStaked tokenStakedNow decode).Run w0 ⟨1, 1⟩ log w b ∧ Steady (daoLog log ++ []) ∧
    TotalsOfHeight tokenStaked tokenStakedNow.total (daoLog log ++ []) ∧
    (∀ s ∈ log, s.out.newId ≠ none → s.pre.mod.prop.policy = .module s.pre.here) ∧
    (∃ ev ∈ log, ∃ dev, daoEvent ev = some dev ∧ DaoCore.Sub.send (.other 8) ∈ dev.out.core) ∧
    w.mod.prop.policy = .module 20 ∧ w.queue = [] ∧ w.takes = [] ∧ getD0 w.bal (.cw20 30, 10) = 50 := by
  obtain ⟨w, b, log, hr, hp⟩ := Sys.check_run (M := sys tokenStaked tokenStakedNow decode) (s := w0) (b := ⟨1, 1⟩)
    (cs := calls) (p := fun w b log => fine log && sentEight log && decide (w.mod.prop.policy = .module 20 ∧
      w.queue = [] ∧ w.takes = [] ∧ getD0 w.bal (.cw20 30, 10) = 50)) (by decide +kernel)
  simp only [Bool.and_eq_true, decide_eq_true_eq] at hp
  obtain ⟨⟨hf, hs⟩, hx⟩ := hp
  obtain ⟨h1, h2⟩ := fine_iff hf
  refine ⟨w, b, log, ⟨_, _, WholeMulti.Example.init WholeMulti.Example.vote0_init, .refl⟩, fresh, hr, h1,
    C116_totals WholeMulti.C81_token_staked.2 ⟨_, _, WholeMulti.Example.init WholeMulti.Example.vote0_init, .refl⟩ hr, h2, ?_, hx⟩
  unfold sentEight at hs
  rw [List.any_eq_true] at hs
  obtain ⟨e, he, hs⟩ := hs
  rw [List.any_eq_true] at hs
  obtain ⟨d, hd, hs⟩ := hs
  obtain ⟨ev, hev, hev'⟩ := List.mem_filterMap.1 he
  refine ⟨ev, hev, e, hev', ?_⟩
  split at hs
  · rw [of_decide_eq_true hs] at hd; exact hd
  · cases hs

/-- The assumptions of `C117_members_act` on the DAO, as a program. -/
def readyMod (w : WholeMulti.World TokenStaked.World) : Bool :=
  decide (w.core.core.voting = some w.voteAddr) && decide (w.prop.config.dao = w.core.core.me) &&
  decide (w.prop.policy = .module 20) && decide (w.prop.config.veto = none) && decide (w.prop.count = 0) &&
  decide (tokenStaked.totalWeight w.vote = 100) && decide (tokenStaked.weight w.vote 10 = 60) &&
  decide (w.prop.config.maxVotingPeriod = .height 100) && decide (w.prop.config.quorum = .majority) &&
  decide (w.prop.config.onlyMembersExecute = false) && decide (DaoCore.isPaused w.core.core ⟨200, 200⟩ = false) &&
  decide (w.core.stack = []) && (match w.core.core.modules.get w.propAddr with | some m => m.enabled | none => false)

/-- The assumptions of `C117_members_act`, as a program. -/
def ready (w : World tokenStaked tokenStakedNow decode) : Bool :=
  readyMod w.mod && decide (w.queue = [] ∧ w.takes = []) && decide (w.here = 20) &&
  decide (w.pre.config = config) && decide (w.bal = w0.bal) &&
  decide (tokenStakedNow.power w.mod.vote 10 ⟨5, 5⟩ = 60)

/-- **C117.** Member 10 alone submits in block 5, for the deposit, votes, and has the DAO send message 8 in block 200;
and has the deposit back. -/
theorem C117_example : ∃ (w w' : World tokenStaked tokenStakedNow decode) (b : Block) (log log' : List (Event tokenStaked tokenStakedNow decode)),
    (sys tokenStaked tokenStakedNow decode).Run w0 ⟨1, 1⟩ log w b ∧ Steady (daoLog log ++ []) ∧
    (sys tokenStaked tokenStakedNow decode).Run w b log' w' ⟨200, 200⟩ ∧
    log'.map (fun ev => (ev.env, ev.call)) = [(at' (env 200 99), .deliver 0),
      (at' (env 200 99), .module (.prop (.execute 1 false))), (at' (env 5 10), .module (.prop (.vote 1 0 none))),
      (at' (env 5 10), .take 0), (at' (env 5 10), .propose ⟨0, [(0, [8]), (1, [9])], none, true⟩)] ∧
    w'.mod.core.stack = [.send (.other 8)] ∧ w'.mod.prop.policy = .module 20 ∧ getD0 w'.bal (.cw20 30, 10) = 50 := by
  obtain ⟨w, b, log, hr, hp⟩ := Sys.check_run (M := sys tokenStaked tokenStakedNow decode) (s := w0) (b := ⟨1, 1⟩)
    (cs := start) (p := fun w b log => fine log && ready w && decide (b = ⟨3, 3⟩)) (by decide +kernel)
  simp only [Bool.and_eq_true, decide_eq_true_eq] at hp
  obtain ⟨⟨hf, hd⟩, rfl⟩ := hp
  obtain ⟨hst, _⟩ := fine_iff hf
  simp only [ready, readyMod, Bool.and_eq_true, decide_eq_true_eq] at hd
  obtain ⟨⟨⟨⟨⟨⟨⟨⟨⟨⟨⟨⟨⟨⟨⟨⟨⟨h1, h2⟩, h3⟩, h4⟩, h5⟩, h6⟩, h7⟩, h8⟩, h9⟩, h10⟩, h11⟩, h12⟩, h13⟩, g1⟩, g2⟩, g3⟩, g4⟩, g5⟩ := hd
  have hen : DaoCore.Enabled w.mod.core.core w.mod.propAddr := by
    split at h13
    · rename_i m hm; exact ⟨m, hm, h13⟩
    · cases h13
  have hbal : ∀ q, getD0 w.bal (.cw20 30, q) ≤ 50 := by
    intro q
    rw [g4]
    by_cases hq : q = 10
    · subst hq; decide
    · have : getD0 w0.bal (.cw20 30, q) = 0 := by
        simp only [w0, getD0, AMap.get]
        rw [if_neg (by intro h; injection h with _ h; exact hq h.symm)]
        rfl
      omega
  obtain ⟨w', log', hr', hl, hstk, hpol, _, _, hdep⟩ := C117_members_act (N := tokenStakedNow) WholeMulti.C81_token_staked.1
    (Or.inl WholeMulti.C81_token_staked.2)
    ⟨_, _, WholeMulti.Example.init WholeMulti.Example.vote0_init, .refl⟩ fresh hr hst ⟨h1, h2⟩ (by rw [g2]; exact h3) g1 h4
    (by rw [h5]; decide +kernel) (by rw [h6]; decide +kernel) (e := env 5 10) ⟨by decide, by decide⟩ (by decide) rfl
    (by rw [h8]; decide) (by rw [g2]; decide)
    (by
      rw [g3]
      refine ⟨by simp, .inr ⟨rfl, ?_⟩⟩
      change tokenStakedNow.power w.mod.vote 10 ⟨5, 5⟩ ≠ 0
      rw [g5]; decide)
    (by intro d hd; rw [g3] at hd; injection hd with hd; subst hd; rw [g4]; decide)
    (by
      intro d hd p q _
      rw [g3] at hd; injection hd with hd; subst hd
      have := hbal p; have := hbal q
      have : 100 < U128 := by decide +kernel
      simp only; omega)
    (ys := [10]) (by simp) (by simp [h7]) (by rw [g2]; simp) 
    (by rw [h6, h9]; exact WholeMulti.C104_half_decides (by simp [h7]) (by simp [h7, Meets]))
    (f := env 200 99) ⟨by decide, by decide⟩ (by rw [h8]; decide) (by rw [g2]; decide) (by rw [h10]; simp) h11 hen 0
    (options := [(0, [8]), (1, [9])]) (by decide) (by decide) (i := 0) rfl (fun _ => 0)
  refine ⟨w, w', _, log, log', hr, hst, hr', ?_, ?_, by rw [hpol, g2], ?_⟩
  · rw [hl, h5, g3]; rfl
  · rw [hstk, h12]; rfl
  · have := (hdep ⟨.cw20 30, 5, .onlyPassed⟩ (by rw [g3]; rfl)).2 10 (by rw [g2]; decide)
    have h50 : getD0 w.bal (Token.cw20 30, 10) = 50 := by rw [g4]; decide
    change _ + (if (10 : Addr) = (env 5 10).sender then 5 else 0) = _ + (if (10 : Addr) = (env 5 10).sender then 5 else 0) at this
    exact (Nat.add_right_cancel this).trans h50

end Verif.DepositMulti.Example
