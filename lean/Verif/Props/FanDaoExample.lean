import Verif.Props.FanDaoActive
/-!
# A DAO with a fan token: cases
-/

namespace Verif.FanDao.Example
open Verif Verif.FanDao Verif.Spec.FanDao
open Verif.Spec.TokenDao (Met)

/-- A chain without tokens, with the factory at 7. -/
def chain0 : FanToken.World := ⟨⟨none⟩, 7, [], []⟩

theorem chain0_reach : FanToken.sys.Reach chain0 ⟨0, 0⟩ [] := ⟨⟨0, 0⟩, chain0, ⟨rfl, rfl, rfl⟩, .refl⟩

/-- The DAO is 5, the voting module 6, the token gets the name 3. -/
def made (d : Option Duration) (th : Option Active.ActiveThreshold) (t : FanToken.NewToken) : World :=
  match create chain0 ⟨1, 0⟩ 5 6 d th 3 t with
  | .ok w => w
  | .error _ => ⟨chain0, ⟨0, none, Snap.empty, Snap.empty, [], none, none⟩, 0, 0⟩

theorem made_init {d : Option Duration} {th : Option Active.ActiveThreshold} {t : FanToken.NewToken} (hm : t.max < U128)
    (h : create chain0 ⟨1, 0⟩ 5 6 d th 3 t = .ok (made d th t)) : sys.init ⟨1, 0⟩ (made d th t) :=
  ⟨chain0, ⟨0, 0⟩, [], 5, 6, d, th, 3, t, chain0_reach, by decide, by decide, by decide, hm, h⟩

/-- Account 1 is listed twice, the DAO once, and the DAO gets 40 besides. -/
def token : FanToken.NewToken := ⟨200, [(1, 60), (2, 30), (5, 10), (1, 10)], some 30⟩

def half : Option Active.ActiveThreshold := some (.percentage 500000000000000000)

theorem token_max : token.max < U128 := by decide +kernel

theorem created : create chain0 ⟨1, 0⟩ 5 6 (some (.height 3)) half 3 token = .ok (made (some (.height 3)) half token) := by
  decide +kernel

/-- C115: the creation. -/
theorem C115_example : holds (made (some (.height 3)) half token) 1 = 70 ∧ holds (made (some (.height 3)) half token) 5 = 40 ∧
    inCirculation (made (some (.height 3)) half token) = 140 ∧ minter (made (some (.height 3)) half token) = some 5 := by
  decide +kernel

/-- C115: an amount of zero, more coins than the largest supply, coins for nobody but the DAO, a count above the coins for
others: refused. The last differs by one and is accepted. -/
theorem C115_refused :
    (create chain0 ⟨1, 0⟩ 5 6 none half 3 ⟨200, [(1, 60), (2, 0)], none⟩).isOk = false ∧
    (create chain0 ⟨1, 0⟩ 5 6 none half 3 ⟨200, [(1, 60)], some 141⟩).isOk = false ∧
    (create chain0 ⟨1, 0⟩ 5 6 none half 3 ⟨200, [(5, 60)], some 40⟩).isOk = false ∧
    (create chain0 ⟨1, 0⟩ 5 6 none (some (.absolute 61)) 3 ⟨200, [(1, 60), (5, 9)], none⟩).isOk = false ∧
    (create chain0 ⟨1, 0⟩ 5 6 none (some (.absolute 60)) 3 ⟨200, [(1, 60), (5, 9)], none⟩).isOk = true := by
  decide +kernel

/-- C115: a history. Holders stake, one burns coins, somebody makes a token of their own, the DAO mints and hands minting
over to 9, who mints up to the largest supply; a holder unstakes and is paid. The hypotheses of `C115_backed`,
`C115_supply` and `C115_minter` hold of it. -/
theorem C115_history : ∃ w b log, sys.Reach w b log ∧ w.vm.stakedOf 1 = 40 ∧ holds w 1 = 30 ∧ inCirculation w = 200 ∧
    minter w = some 9 ∧ active w = .ok false ∧ log.length = 9 := by
  obtain ⟨w, b, log, hr, hp⟩ := Sys.check_run (M := sys) (s := made (some (.height 3)) half token) (b := ⟨1, 0⟩)
    (cs := [(⟨⟨2, 0⟩, 1, none, 0⟩, .stake 70), (⟨⟨2, 0⟩, 2, none, 3⟩, .fan (.burn 10)),
      (⟨⟨3, 0⟩, 8, some 8, 4⟩, .fan (.factory ⟨10, [(1, 5)], none⟩)),
      (⟨⟨3, 0⟩, 5, none, 3⟩, .fan (.module (.mint 2 20))), (⟨⟨3, 0⟩, 5, none, 3⟩, .fan (.module (.setMinter 9))),
      (⟨⟨4, 0⟩, 9, none, 3⟩, .fan (.module (.mint 9 50))), (⟨⟨4, 0⟩, 9, none, 3⟩, .fan (.transfer 6 1)),
      (⟨⟨4, 0⟩, 1, none, 0⟩, .vm (.unstake 30)), (⟨⟨7, 0⟩, 1, none, 0⟩, .vm .claim)])
    (p := fun w _ log => decide (w.vm.stakedOf 1 = 40 ∧ holds w 1 = 30 ∧ inCirculation w = 200 ∧ minter w = some 9 ∧
      active w = .ok false ∧ log.length = 9)) (by decide +kernel)
  exact ⟨w, b, log, ⟨⟨1, 0⟩, _, made_init token_max created, hr⟩, of_decide_eq_true hp⟩

/-- C115: 100 of 140 coins are half of them. -/
theorem C115_can_activate : ∃ log w b, sys.Run (made (some (.height 3)) half token) ⟨1, 0⟩ log w b ∧ Idle 5 log ∧
    active w = .ok true :=
  (C115_active_iff token_max ⟨by decide, by decide, by decide⟩ chain0_reach created (by decide)).2
    (by unfold half Met; decide +kernel)

/-- A DAO that gets most of its own token. -/
def treasury : FanToken.NewToken := ⟨200, [(1, 10)], some 90⟩

/-- **C115.** The witness: the creation is accepted, with a threshold of half the supply, but 90 of 100 coins are the
DAO's. Whatever the holders do, their DAO is never active. -/
theorem C115_born_locked : ∃ w0, create chain0 ⟨1, 0⟩ 5 6 none half 3 treasury = .ok w0 ∧
    ∀ log w b, sys.Run w0 ⟨1, 0⟩ log w b → Idle 5 log → active w = .ok false := by
  have h : create chain0 ⟨1, 0⟩ 5 6 none half 3 treasury = .ok (made none half treasury) := by decide +kernel
  have hm : treasury.max < U128 := by decide +kernel
  refine ⟨made none half treasury, h, ?_⟩
  intro log w b hr hi
  obtain ⟨r, h1, h2, _⟩ := active_of (create_forward chain0_reach h) hm (by decide) hr hi
  cases r with
  | false => exact h1
  | true =>
    have := (C115_active_iff hm ⟨by decide, by decide, by decide⟩ chain0_reach h (by decide)).1 ⟨log, w, b, hr, hi, h1⟩
    exact absurd this (by unfold half Met; decide +kernel)

end Verif.FanDao.Example
