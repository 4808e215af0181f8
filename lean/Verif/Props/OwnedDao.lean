import Verif.Proofs.OwnedDao
import Verif.Proofs.OwnersAll
/-! C122: what belongs to a DAO is used as its members decide. -/

namespace Verif.OwnedDao
open Verif Verif.Spec Verif.Spec.OwnedDao
open Verif.WholeDao (VotingModule Env)
open Verif.Spec.WholeDao (Lawful Steady Sole Authorised)
open Verif.Spec.Owners (Said)

variable {T A F D P G K R : Type} {U : VotingModule T F D P} {decode : Nat → DaoCore.CosmosMsg} {X : Contract A G K R}
  {toCall : Nat → Option K}

/-- **C122.** Seen from the DAO, a history of the two is a history of a DAO as in C80. -/
theorem C122_dao {w0 w : World T A} {b0 b : Block} {log : List (Event T A F D G K R)}
    (h : (sys U decode X toCall).Run w0 b0 log w b) :
    ∃ b1, (WholeDao.sys U decode).Run w0.dao b0 (daoLog log) w.dao b1 ∧ b1.le b := by
  induction h with
  | refl => exact ⟨_, .refl, Block.le_refl _⟩
  | @step s1 s2 b3 log env call out hr hb3 hs ih =>
    obtain ⟨b1, h1, h2⟩ := ih
    have h3 : b1.le env.block := Block.le_trans h2 hb3
    cases call with
    | dao c =>
      obtain ⟨_, h4, _⟩ := dao_effect (U := U) (decode := decode) (X := X) (toCall := toCall) hs
      exact ⟨_, .step h1 h3 h4, Block.le_refl _⟩
    | it g k =>
      obtain ⟨_, _, _, _, h4, _⟩ := it_effect (U := U) (decode := decode) (X := X) (toCall := toCall) hs
      exact ⟨b1, by rw [h4]; exact h1, h3⟩
    | pass g =>
      obtain ⟨_, _, _, _, _, h4, _⟩ := pass_effect (U := U) (decode := decode) (X := X) (toCall := toCall) hs
      exact ⟨_, .step h1 h3 h4, Block.le_refl _⟩

/-- **C122.** Seen from the contract, it is a history of the contract, so that everything proved of the contract holds. -/
theorem C122_contract {w0 w : World T A} {b0 b : Block} {log : List (Event T A F D G K R)}
    (h : (sys U decode X toCall).Run w0 b0 log w b) :
    ∃ b1, X.sys.Run w0.it b0 (itLog toCall log) w.it b1 ∧ b1.le b := by
  induction h with
  | refl => exact ⟨_, .refl, Block.le_refl _⟩
  | @step s1 s2 b3 log env call out hr hb3 hs ih =>
    obtain ⟨b1, h1, h2⟩ := ih
    have h3 : b1.le env.block := Block.le_trans h2 hb3
    cases call with
    | dao c =>
      obtain ⟨_, _, h4, _⟩ := dao_effect (U := U) (decode := decode) (X := X) (toCall := toCall) hs
      exact ⟨b1, by rw [h4]; exact h1, h3⟩
    | it g k =>
      obtain ⟨hbl, _, r, h4, _, _, h5⟩ := it_effect (U := U) (decode := decode) (X := X) (toCall := toCall) hs
      have : itLog toCall ((⟨s1, env, .it g k, out, s2⟩ : Event T A F D G K R) :: log) =
          ⟨s1.it, g, k, r, s2.it⟩ :: itLog toCall log := by
        simp only [itLog]
        rw [List.filterMap_cons_some]
        simp only [itEvent, called, h5]
      rw [this]
      rw [← hbl] at h3
      exact ⟨_, .step h1 h3 h4, by rw [hbl]; exact Block.le_refl _⟩
    | pass g =>
      obtain ⟨k, r, hk, hbl, _, _, h4, h5⟩ := pass_effect (U := U) (decode := decode) (X := X) (toCall := toCall) hs
      have : itLog toCall ((⟨s1, env, .pass g, out, s2⟩ : Event T A F D G K R) :: log) =
          ⟨s1.it, g, k, r, s2.it⟩ :: itLog toCall log := by
        simp only [itLog]
        rw [List.filterMap_cons_some]
        simp only [itEvent, called, hk, Option.map_some, h5]
      rw [this]
      rw [← hbl] at h3
      exact ⟨_, .step h1 h3 h4, by rw [hbl]; exact Block.le_refl _⟩

theorem whole_it {w0 w : World T A} {b0 b : Block} {log : List (Event T A F D G K R)} {l : List (Ev A G K R)}
    {d : List (WholeDao.Event T F D)} (hp : Past U decode X w0 b0 l d) (h : (sys U decode X toCall).Run w0 b0 log w b) :
    ∃ b1, X.sys.Reach w.it b1 (itLog toCall log ++ l) ∧ b1.le b := by
  obtain ⟨⟨b1, h1, hb1⟩, _⟩ := hp
  obtain ⟨b2, h2, hb2⟩ := C122_contract h
  obtain ⟨b3, h3, hb3⟩ := h2.earlier hb1
  exact ⟨b3, h1.run h3, Block.le_trans hb3 hb2⟩

theorem whole_dao {w0 w : World T A} {b0 b : Block} {log : List (Event T A F D G K R)} {l : List (Ev A G K R)}
    {d : List (WholeDao.Event T F D)} (hp : Past U decode X w0 b0 l d) (h : (sys U decode X toCall).Run w0 b0 log w b) :
    ∃ u bu b1, WholeDao.Init U bu u ∧ u.core.stack = [] ∧
      (WholeDao.sys U decode).Run u bu (daoLog log ++ d) w.dao b1 ∧ b1.le b := by
  obtain ⟨_, u, bu, b1, hi, hs, h1, hb1⟩ := hp
  obtain ⟨b2, h2, hb2⟩ := C122_dao h
  obtain ⟨b3, h3, hb3⟩ := h2.earlier hb1
  exact ⟨u, bu, b3, hi, hs, h1.append h3, Block.le_trans hb3 hb2⟩

/-- The address of the DAO never changes. -/
theorem dao_me {w0 w : World T A} {b0 b : Block} {log : List (Event T A F D G K R)}
    (h : (sys U decode X toCall).Run w0 b0 log w b) : ∀ e ∈ log, e.pre.dao.core.core.me = w.dao.core.core.me := by
  intro e he
  obtain ⟨l1, l2, b1, _, h1, _, _, _⟩ := h.event e he
  obtain ⟨_, h2, _⟩ := C122_dao h1
  obtain ⟨_, h3, _⟩ := C122_dao h
  rw [WholeDao.me_run h2, WholeDao.me_run h3]

/-- **C122.** Whatever is said to the contract with the address of the DAO goes back to a decision of the members of the DAO. -/
theorem C122_decided (hU : Lawful U) {w0 w : World T A} {b0 b : Block} {log : List (Event T A F D G K R)}
    {l : List (Ev A G K R)} {d : List (WholeDao.Event T F D)} (hp : Past U decode X w0 b0 l d)
    (h : (sys U decode X toCall).Run w0 b0 log w b) (hst : Steady (daoLog log ++ d)) (hso : Sole (daoLog log ++ d))
    {ev : Ev A G K R} (hev : ev ∈ itLog toCall log) (hc : X.caller ev.env ev.call = some w.dao.core.core.me) :
    Ordered U decode toCall (daoLog log ++ d) ev.call := by
  obtain ⟨e, he, hx⟩ := List.mem_filterMap.1 hev
  have hme := dao_me h e he
  obtain ⟨before, later, b1, hl, h1, _, hstep, _⟩ := h.event e he
  obtain ⟨pre, env, call, out, post⟩ := e
  cases call with
  | dao c => simp [itEvent, called] at hx
  | it g k =>
    exfalso
    obtain ⟨_, hne, r, _, _, _, ho⟩ := it_effect (U := U) (decode := decode) (X := X) (toCall := toCall) hstep
    replace ho : out.it = some r := ho
    simp only [itEvent, called, ho, Option.some.injEq] at hx
    subst hx
    exact hne (by rw [hc, ← hme])
  | pass g =>
    obtain ⟨k, r, hk, _, _, _, _, ho⟩ := pass_effect (U := U) (decode := decode) (X := X) (toCall := toCall) hstep
    replace ho : out.it = some r := ho
    simp only [itEvent, called, hk, Option.map_some, ho, Option.some.injEq] at hx
    subst hx
    obtain ⟨n, rest, h3, h4⟩ := next_mem hk
    refine ⟨n, h4, ?_⟩
    obtain ⟨u, bu, b2, hi, hs, h5, _⟩ := whole_dao hp h1
    obtain ⟨u', bu', b2', hi', hs', h5', _⟩ := whole_dao hp h
    rcases WholeDao.waiting h5 (.send (.other n)) (by rw [h3]; exact List.mem_cons_self) with h6 | ⟨e', he', h6⟩
    · rw [hs] at h6; cases h6
    · refine WholeDao.C80_sole hU hi' hs' h5' hst hso e' ?_ _ h6
      subst hl
      simp only [daoLog, List.filterMap_append, List.mem_append, List.filterMap_cons] at he' ⊢
      rcases he' with he' | he'
      · left; right
        split
        · exact he'
        · exact List.mem_cons_of_mem _ he'
      · exact Or.inr he'

theorem kept {M : Sys A G K R} {own : A → Ownership} {tells : G → K → Option Said} (hM : Owners.Owned M own tells) {s0 s : A}
    {b0 b : Block} {l : List (Ev A G K R)} (h : M.Run s0 b0 l s b) {a : Addr} (h0 : own s0 = { owner := some a }) :
    own s = { owner := some a } ∨
    ∃ ev ∈ l, ∃ x, tells ev.env ev.call = some x ∧ x.by_ = a ∧ x.action ≠ .accept := by
  induction h with
  | refl => exact Or.inl h0
  | @step s1 s2 b3 log env call out hr hb3 hs ih =>
    rcases ih with ih | ⟨ev, hev, hx⟩
    · cases ht : tells env call with
      | none => left; rw [hM.keeps _ _ _ _ _ hs ht]; exact ih
      | some x =>
        right
        have hup := hM.does _ _ _ _ _ _ hs ht
        rw [ih] at hup
        refine ⟨_, List.mem_cons_self, x, ht, ?_⟩
        cases hx : x.action with
        | transfer n u =>
          rw [hx] at hup
          simp only [Ownership.update, bind_ok, Ownership.assertOwner_ok, Option.some.injEq] at hup
          obtain ⟨_, h1, _⟩ := hup
          exact ⟨h1.symm, by simp⟩
        | accept =>
          rw [hx] at hup
          simp only [Ownership.update, bind_ok, require_ok, decide_eq_true_eq] at hup
          obtain ⟨_, h1, _⟩ := hup
          cases h1
        | renounce =>
          rw [hx] at hup
          simp only [Ownership.update, bind_ok, Ownership.assertOwner_ok, Option.some.injEq] at hup
          obtain ⟨_, h1, _⟩ := hup
          exact ⟨h1.symm, by simp⟩
    · exact Or.inr ⟨ev, List.mem_cons_of_mem _ hev, hx⟩

/-- **C122.** A DAO keeps what belongs to it: a contract that belongs to a DAO, with nobody nominated as its next owner, stays
so, or the members of the DAO decided to nominate another owner or to renounce the ownership. -/
theorem C122_kept (hU : Lawful U) {own : A → Ownership} {tells : G → K → Option Said}
    (hM : Owners.Owned X.sys own tells) (hby : ∀ g k x, tells g k = some x → X.caller g k = some x.by_)
    {w0 w : World T A} {b0 b : Block} {log : List (Event T A F D G K R)} {l : List (Ev A G K R)}
    {d : List (WholeDao.Event T F D)} (h : History U decode X toCall w0 w b0 b log l d)
    (h0 : own w0.it = { owner := some w.dao.core.core.me }) :
    own w.it = { owner := some w.dao.core.core.me } ∨
      GivenAway U decode toCall tells (daoLog log ++ d) (itLog toCall log) := by
  obtain ⟨_, h1, _⟩ := C122_contract h.run
  rcases kept hM h1 h0 with hk | ⟨ev, hev, x, hx, hxa, hxx⟩
  · exact Or.inl hk
  · exact Or.inr ⟨ev, hev, x, hx, hxx, C122_decided hU h.past h.run h.steady h.sole hev (by rw [hby _ _ _ hx, hxa])⟩

/-- **C122.** What only the owner of such a contract may do goes back to a decision of the members of the DAO, unless they decided to
give the contract away. -/
theorem C122_owner_acts (hU : Lawful U) {own : A → Ownership} {tells : G → K → Option Said}
    (hM : Owners.Owned X.sys own tells) (hby : ∀ g k x, tells g k = some x → X.caller g k = some x.by_)
    {w0 w : World T A} {b0 b : Block} {log : List (Event T A F D G K R)} {l : List (Ev A G K R)}
    {d : List (WholeDao.Event T F D)} (h : History U decode X toCall w0 w b0 b log l d)
    (h0 : own w0.it = { owner := some w.dao.core.core.me }) {ev : Ev A G K R} (hev : ev ∈ itLog toCall log)
    (hc : ∀ a, (own ev.pre).owner = some a → X.caller ev.env ev.call = some a) :
    Ordered U decode toCall (daoLog log ++ d) ev.call ∨
      GivenAway U decode toCall tells (daoLog log ++ d) (itLog toCall log) := by
  obtain ⟨_, h1, _⟩ := C122_contract h.run
  obtain ⟨before, later, b1, hl, h2, _, _, _⟩ := h1.event ev hev
  rcases kept hM h2 h0 with hk | ⟨ev', hev', x, hx, hxa, hxx⟩
  · left
    refine C122_decided hU h.past h.run h.steady h.sole hev ?_
    exact hc _ (by rw [hk])
  · right
    have hm : ev' ∈ itLog toCall log := by rw [hl]; simp [hev']
    exact ⟨ev', hm, x, hx, hxx, C122_decided hU h.past h.run h.steady h.sole hm (by rw [hby _ _ _ hx, hxa])⟩

end Verif.OwnedDao
