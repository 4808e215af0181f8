import Verif.Props.TokenDaoActive
/-!
# A DAO with a token of its own: cases, and what goes wrong
-/

namespace Verif.TokenDao
open Verif Verif.Spec.TokenDao

/-- An empty chain. -/
def chain0 : Issuer.Chain := ⟨[], [], [], true⟩

/-- Denominations are numbered after their creator. -/
def names (creator sub : Nat) : Nat := 1000 * creator + sub

/-- The DAO is 5, the voting module 6, the issuer 7. -/
def made (d : Option Duration) (th : Option Active.ActiveThreshold) (t : NewToken) : World :=
  match create names ⟨1, 0⟩ chain0 5 6 7 d th t with
  | .ok w => w
  | .error _ => ⟨⟨0, Issuer.instantiate 0 0, chain0⟩, fresh 0 none none, 0, 0⟩

theorem made_init {d : Option Duration} {th : Option Active.ActiveThreshold} {t : NewToken}
    (h : create names ⟨1, 0⟩ chain0 5 6 7 d th t = .ok (made d th t)) : sys.init ⟨1, 0⟩ (made d th t) :=
  ⟨names, chain0, 5, 6, 7, d, th, t, by decide, by decide, by decide, Or.inl h⟩

/-- Account 1 is listed twice, the DAO gets 40. -/
def token : NewToken := ⟨3, [(1, 60), (2, 30), (1, 10)], some 40⟩

def half : Option Active.ActiveThreshold := some (.percentage 500000000000000000)

/-- C88: the creation. -/
example : create names ⟨1, 0⟩ chain0 5 6 7 (some (.height 3)) half token = .ok (made (some (.height 3)) half token) ∧
    holds (made (some (.height 3)) half token) 1 = 70 ∧ holds (made (some (.height 3)) half token) 5 = 40 ∧
    inCirculation (made (some (.height 3)) half token) = 140 ∧ owner (made (some (.height 3)) half token) = some 5 := by
  decide +kernel

/-- C88: an amount of zero, no coins for anybody but the DAO, a count above the coins handed out: refused. -/
example :
    (create names ⟨1, 0⟩ chain0 5 6 7 none half ⟨3, [(1, 60), (2, 0)], none⟩).isOk = false ∧
    (create names ⟨1, 0⟩ chain0 5 6 7 none half ⟨3, [], some 40⟩).isOk = false ∧
    (create names ⟨1, 0⟩ chain0 5 6 7 none (some (.absolute 61)) ⟨3, [(1, 60)], some 40⟩).isOk = false ∧
    (create names ⟨1, 0⟩ chain0 5 6 7 none (some (.absolute 60)) ⟨3, [(1, 60)], some 40⟩).isOk = true := by
  decide +kernel

def waiting : World :=
  match replace names ⟨1, 0⟩ chain0 5 6 7 none half token with
  | .ok w => w
  | .error _ => ⟨⟨0, Issuer.instantiate 0 0, chain0⟩, fresh 0 none none, 0, 0⟩

/-- **C88.** The witness for the difference: a DAO that replaced its voting module cannot mint its own new token with the
messages that work for a DAO created with it; they work after it accepted the ownership. -/
theorem C88_replaced_witness :
    replace names ⟨1, 0⟩ chain0 5 6 7 none half token = .ok waiting ∧
    (step waiting ⟨⟨2, 0⟩, 5, true⟩ (.issuer (.setMinter 5 9))).isOk = false ∧
    (step (made none half token) ⟨⟨2, 0⟩, 5, true⟩ (.issuer (.setMinter 5 9))).isOk = true ∧
    ∃ w b log, sys.Run waiting ⟨1, 0⟩ log w b ∧ holds w 1 = 79 := by
  refine ⟨by decide +kernel, by decide +kernel, by decide +kernel, ?_⟩
  obtain ⟨w, b, log, hr, hp⟩ := Sys.check_run (M := sys) (s := waiting) (b := ⟨1, 0⟩)
    (cs := [(⟨⟨2, 0⟩, 5, true⟩, .issuer (.updateOwnership .accept)), (⟨⟨2, 0⟩, 5, true⟩, .issuer (.setMinter 5 9)),
      (⟨⟨2, 0⟩, 5, true⟩, .issuer (.mint 1 9))])
    (p := fun w _ _ => decide (holds w 1 = 79)) (by decide +kernel)
  exact ⟨w, b, log, hr, of_decide_eq_true hp⟩

/-- A history without the DAO: two holders stake, one sends coins to the other, one unstakes and claims. The hypotheses of
`C88_untouched`, `C89_safe` and `C90_ceiling` hold of it. -/
example : ∃ w b log, sys.Run (made (some (.height 3)) half token) ⟨1, 0⟩ log w b ∧ Idle 5 log ∧
    w.vm.stakedOf 1 = 30 ∧ w.vm.stakedOf 2 = 30 ∧ holds w 1 = 30 ∧ active w = .ok false ∧ log.length = 6 := by
  obtain ⟨w, b, log, hr, hp⟩ := Sys.check_run (M := sys) (s := made (some (.height 3)) half token) (b := ⟨1, 0⟩)
    (cs := [(⟨⟨2, 0⟩, 1, true⟩, .stake 50), (⟨⟨2, 0⟩, 2, true⟩, .stake 20), (⟨⟨2, 0⟩, 1, true⟩, .chain (.send 7003 2 10)),
      (⟨⟨3, 0⟩, 2, true⟩, .stake 10), (⟨⟨3, 0⟩, 1, true⟩, .vm (.unstake 20)), (⟨⟨7, 0⟩, 1, true⟩, .vm .claim)])
    (p := fun w _ log => decide ((∀ e ∈ log, e.env.sender ≠ 5) ∧ w.vm.stakedOf 1 = 30 ∧ w.vm.stakedOf 2 = 30 ∧
      holds w 1 = 30 ∧ active w = .ok false ∧ log.length = 6)) (by decide +kernel)
  have hp := of_decide_eq_true hp
  exact ⟨w, b, log, hr, hp⟩

/-- **C89.** The witness against safety without condition: the DAO moves staked coins to itself. The staker keeps their
voting power, and can neither unstake nor, had they unstaked before, claim. -/
theorem C89_seizure_witness : ∃ w b log, sys.Reach w b log ∧ seized log = 70 ∧ holds w w.self = 0 ∧ w.vm.stakedOf 1 = 70 ∧
    TokenStaked.powerAt w.vm 1 9 = 70 ∧ (step w ⟨⟨9, 0⟩, 1, true⟩ (.vm (.unstake 70))).isOk = false := by
  obtain ⟨w, b, log, hr, hp⟩ := Sys.check_run (M := sys) (s := made none half token) (b := ⟨1, 0⟩)
    (cs := [(⟨⟨2, 0⟩, 1, true⟩, .stake 70), (⟨⟨3, 0⟩, 5, true⟩, .issuer (.force 70 6 5))])
    (p := fun w _ log => decide (seized log = 70 ∧ holds w w.self = 0 ∧ w.vm.stakedOf 1 = 70 ∧
      TokenStaked.powerAt w.vm 1 9 = 70 ∧ (step w ⟨⟨9, 0⟩, 1, true⟩ (.vm (.unstake 70))).isOk = false)) (by decide +kernel)
  exact ⟨w, b, log, ⟨⟨1, 0⟩, made none half token, made_init (by decide +kernel), hr⟩, of_decide_eq_true hp⟩

/-- **C89.** And the DAO can keep everybody from unstaking with all coins in place: by freezing its token, or by denying
transfers of the voting module. -/
theorem C89_freeze_witness : ∃ w b log, sys.Reach w b log ∧ seized log = 0 ∧ holds w w.self = 70 ∧ w.vm.stakedOf 1 = 70 ∧
    (step w ⟨⟨9, 0⟩, 1, true⟩ (.vm (.unstake 70))).isOk = false := by
  obtain ⟨w, b, log, hr, hp⟩ := Sys.check_run (M := sys) (s := made none half token) (b := ⟨1, 0⟩)
    (cs := [(⟨⟨2, 0⟩, 1, true⟩, .stake 70), (⟨⟨3, 0⟩, 5, true⟩, .issuer (.setHook (some 7))),
      (⟨⟨3, 0⟩, 5, true⟩, .issuer (.freeze true))])
    (p := fun w _ log => decide (seized log = 0 ∧ holds w w.self = 70 ∧ w.vm.stakedOf 1 = 70 ∧
      (step w ⟨⟨9, 0⟩, 1, true⟩ (.vm (.unstake 70))).isOk = false)) (by decide +kernel)
  exact ⟨w, b, log, ⟨⟨1, 0⟩, made none half token, made_init (by decide +kernel), hr⟩, of_decide_eq_true hp⟩

/-- C90: 100 of 140 coins are half of them. -/
example : ∃ log w b, sys.Run (made none half token) ⟨1, 0⟩ log w b ∧ Idle 5 log ∧ active w = .ok true :=
  (C90_active_iff (name := names) (c := chain0) (self := 6) (issuer := 7) ⟨by decide, by decide, by decide⟩
    (by decide +kernel : create names ⟨1, 0⟩ chain0 5 6 7 none half token = .ok (made none half token)) (by decide)).2
    (by unfold half Met; decide +kernel)

/-- A DAO that gets most of its own token. -/
def treasury : NewToken := ⟨3, [(1, 10)], some 90⟩

/-- **C90.** The witness: the creation is accepted, with a threshold of half the supply, but 90 of 100 coins are the DAO's.
Whatever the holders do, their DAO is never active. -/
theorem C90_born_locked : ∃ w0, create names ⟨1, 0⟩ chain0 5 6 7 none half treasury = .ok w0 ∧
    ∀ log w b, sys.Run w0 ⟨1, 0⟩ log w b → Idle 5 log → active w = .ok false := by
  have h : create names ⟨1, 0⟩ chain0 5 6 7 none half treasury = .ok (made none half treasury) := by decide +kernel
  refine ⟨made none half treasury, h, ?_⟩
  intro log w b hr hi
  have hd : (made none half treasury).vm.dao = 5 := by decide +kernel
  refine C90_locked (made_init h) hr (by rw [hd]; exact hi) ?_
  have e1 : inCirculation (made none half treasury) = 100 := by decide +kernel
  have e2 : holds (made none half treasury) (made none half treasury).vm.dao = 90 := by decide +kernel
  have e3 : (made none half treasury).vm.threshold = half := by decide +kernel
  rw [e1, e2, e3]
  unfold half Met
  decide +kernel

/-- **C90.** And a count is checked against coins that are listed for the DAO itself, which cannot be staked either. -/
theorem C90_listed_locked : ∃ w0,
    create names ⟨1, 0⟩ chain0 5 6 7 none (some (.absolute 50)) ⟨3, [(1, 10), (5, 90)], none⟩ = .ok w0 ∧
    ∀ log w b, sys.Run w0 ⟨1, 0⟩ log w b → Idle 5 log → active w = .ok false := by
  have h : create names ⟨1, 0⟩ chain0 5 6 7 none (some (.absolute 50)) ⟨3, [(1, 10), (5, 90)], none⟩ =
    .ok (made none (some (.absolute 50)) ⟨3, [(1, 10), (5, 90)], none⟩) := by decide +kernel
  refine ⟨_, h, ?_⟩
  intro log w b hr hi
  have hd : (made none (some (.absolute 50)) ⟨3, [(1, 10), (5, 90)], none⟩).vm.dao = 5 := by decide +kernel
  refine C90_locked (made_init h) hr (by rw [hd]; exact hi) ?_
  have e1 : inCirculation (made none (some (.absolute 50)) ⟨3, [(1, 10), (5, 90)], none⟩) = 100 := by decide +kernel
  have e2 : holds (made none (some (.absolute 50)) ⟨3, [(1, 10), (5, 90)], none⟩)
    (made none (some (.absolute 50)) ⟨3, [(1, 10), (5, 90)], none⟩).vm.dao = 90 := by decide +kernel
  have e3 : (made none (some (.absolute 50)) ⟨3, [(1, 10), (5, 90)], none⟩).vm.threshold = some (.absolute 50) := by
    decide +kernel
  rw [e1, e2, e3]
  unfold Met
  decide

end Verif.TokenDao
