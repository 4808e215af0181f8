import Verif.Proofs.Holdings
import Verif.Props.FullDaoLive
/-! C127: everything that belongs to a DAO with any number of modules is used as its members decide. -/

namespace Verif.Holdings
open Verif Verif.Spec Verif.Spec.Holdings
open Verif.WholeDao (VotingModule)
open Verif.WholeCondorcet (Now)
open Verif.FullDao (Env)
open Verif.Spec.FullDao (Steady Governed TotalsOfHeight Authorised)
open Verif.Spec.WholeDao (Lawful)

variable {T F D P I : Type} [DecidableEq I] {kind : I → Kind} {U : VotingModule T F D P} {N : Now T}
  {decode : Nat → DaoCore.CosmosMsg} {m : Mail kind}

/-- **C127.** Seen from the DAO, a history of all of them is a history of a DAO as in C95. -/
theorem C127_dao {w0 w : World T kind} {b0 b : Block} {log : List (Event T F D kind)}
    (h : (sys U N decode m).Run w0 b0 log w b) :
    ∃ b1, (FullDao.sys U N decode).Run w0.dao b0 (daoLog log) w.dao b1 ∧ b1.le b := by
  induction h with
  | refl => exact ⟨_, .refl, Block.le_refl _⟩
  | @step s1 s2 b3 log env call out hr hb3 hs ih =>
    obtain ⟨b1, h1, h2⟩ := ih
    have h3 : b1.le env.block := Block.le_trans h2 hb3
    cases call with
    | dao c =>
      obtain ⟨_, h4, _⟩ := dao_effect (U := U) (N := N) (decode := decode) (m := m) hs
      exact ⟨_, .step (M := FullDao.sys U N decode) h1 h3 h4, Block.le_refl _⟩
    | it i g k =>
      obtain ⟨_, _, _, _, h4, _⟩ := it_effect (U := U) (N := N) (decode := decode) (m := m) hs
      exact ⟨b1, by rw [h4]; exact h1, h3⟩
    | pass i g =>
      obtain ⟨_, _, _, _, _, h4, _⟩ := pass_effect (U := U) (N := N) (decode := decode) (m := m) hs
      exact ⟨_, .step (M := FullDao.sys U N decode) h1 h3 h4, Block.le_refl _⟩

/-- **C127.** Seen from each contract, it is a history of that contract, so that everything proved of the contract holds. -/
theorem C127_contract {w0 w : World T kind} {b0 b : Block} {log : List (Event T F D kind)}
    (h : (sys U N decode m).Run w0 b0 log w b) (i : I) :
    ∃ b1, (kind i).contract.sys.Run (w0.its i) b0 (itLog m i log) (w.its i) b1 ∧ b1.le b := by
  induction h with
  | refl => exact ⟨_, .refl, Block.le_refl _⟩
  | @step s1 s2 b3 log env call out hr hb3 hs ih =>
    obtain ⟨b1, h1, h2⟩ := ih
    have h3 : b1.le env.block := Block.le_trans h2 hb3
    cases call with
    | dao c =>
      obtain ⟨_, _, h4, _⟩ := dao_effect (U := U) (N := N) (decode := decode) (m := m) hs
      exact ⟨b1, by rw [h4]; exact h1, h3⟩
    | it j g k =>
      obtain ⟨hbl, _, r, h4, _, _, h5, h6⟩ := it_effect (U := U) (N := N) (decode := decode) (m := m) hs
      by_cases hj : j = i
      · subst hj
        have : itLog m j ((⟨s1, env, .it j g k, out, s2⟩ : Event T F D kind) :: log) =
            ⟨s1.its j, g, k, r, s2.its j⟩ :: itLog m j log := by
          simp only [itLog]
          rw [List.filterMap_cons_some]
          simp only [itEvent, called, h5, dite_true]
        rw [this]
        rw [← hbl] at h3
        exact ⟨_, .step h1 h3 h4, by rw [hbl]; exact Block.le_refl _⟩
      · have : itLog m i ((⟨s1, env, .it j g k, out, s2⟩ : Event T F D kind) :: log) = itLog m i log := by
          simp only [itLog]
          rw [List.filterMap_cons_none]
          simp only [itEvent, called, dif_neg hj]
        rw [this, (h6 i (fun h => hj h.symm)).1]
        exact ⟨b1, h1, h3⟩
    | pass j g =>
      obtain ⟨k, r, hk, hbl, _, _, h4, h5, h6⟩ := pass_effect (U := U) (N := N) (decode := decode) (m := m) hs
      by_cases hj : j = i
      · subst hj
        have : itLog m j ((⟨s1, env, .pass j g, out, s2⟩ : Event T F D kind) :: log) =
            ⟨s1.its j, g, k, r, s2.its j⟩ :: itLog m j log := by
          simp only [itLog]
          rw [List.filterMap_cons_some]
          simp only [itEvent, called, hk, Option.map_some, h5, dite_true]
        rw [this]
        rw [← hbl] at h3
        exact ⟨_, .step h1 h3 h4, by rw [hbl]; exact Block.le_refl _⟩
      · have : itLog m i ((⟨s1, env, .pass j g, out, s2⟩ : Event T F D kind) :: log) = itLog m i log := by
          simp only [itLog]
          rw [List.filterMap_cons_none]
          simp only [itEvent, called, dif_neg hj]
        rw [this, (h6 i (fun h => hj h.symm)).1]
        exact ⟨b1, h1, h3⟩

theorem all_dao {u : FullDao.World T} {w0 w : World T kind} {b0 b : Block} {d : List (FullDao.Event T F D)}
    {log : List (Event T F D kind)} (hp : ∃ bu b1, FullDao.Init U bu u ∧ (FullDao.sys U N decode).Run u bu d w0.dao b1 ∧ b1.le b0)
    (h : (sys U N decode m).Run w0 b0 log w b) :
    ∃ bu b1, FullDao.Init U bu u ∧ (FullDao.sys U N decode).Run u bu (daoLog log ++ d) w.dao b1 ∧ b1.le b := by
  obtain ⟨bu, b1, hi, h1, hb1⟩ := hp
  obtain ⟨b2, h2, hb2⟩ := C127_dao h
  obtain ⟨b3, h3, hb3⟩ := h2.earlier hb1
  exact ⟨bu, b3, hi, h1.append h3, Block.le_trans hb3 hb2⟩

/-- **C127.** Whatever is said to one of the contracts with the address of the DAO goes back to a decision of the members of the
DAO, in any of its proposal modules, or to its founding. -/
theorem C127_decided (hU : Lawful U) {u : FullDao.World T} {w0 w : World T kind} {b0 b : Block}
    {d : List (FullDao.Event T F D)} {log : List (Event T F D kind)} (h : History U N decode m u w0 w b0 b d log) {i : I}
    {ev : Ev (kind i).State (kind i).View (kind i).Call (kind i).Result} (hev : ev ∈ itLog m i log)
    (hc : (kind i).contract.caller ev.env ev.call = some w.dao.core.core.me) :
    Ordered U decode m u.core.stack (daoLog log ++ d) i ev.call := by
  obtain ⟨e, he, hx⟩ := List.mem_filterMap.1 hev
  obtain ⟨before, later, b1, hl, h1, _, hstep, _⟩ := h.run.event e he
  obtain ⟨bu, b2, hi, h5, _⟩ := all_dao h.dao h1
  obtain ⟨bu', b2', hi', h5', _⟩ := all_dao h.dao h.run
  have hme : e.pre.dao.core.core.me = w.dao.core.core.me := by
    rw [FullDao.full_me_run h5, FullDao.full_me_run h5']
  obtain ⟨pre, env, call, out, post⟩ := e
  cases call with
  | dao c => simp [itEvent, called] at hx
  | it j g k =>
    exfalso
    obtain ⟨_, hne, r, _, _, _, ho, _⟩ := it_effect (U := U) (N := N) (decode := decode) (m := m) hstep
    by_cases hj : j = i
    · subst hj
      replace ho : out.its j = some r := ho
      simp only [itEvent, called, ho, dite_true, Option.some.injEq] at hx
      subst hx
      exact hne (by rw [hc, ← hme])
    · simp only [itEvent, called, dif_neg hj] at hx
      cases hx
  | pass j g =>
    obtain ⟨k, r, hk, _, _, _, _, ho, _⟩ := pass_effect (U := U) (N := N) (decode := decode) (m := m) hstep
    by_cases hj : j = i
    · subst hj
      replace ho : out.its j = some r := ho
      simp only [itEvent, called, hk, Option.map_some, ho, dite_true, Option.some.injEq] at hx
      subst hx
      obtain ⟨n, rest, h3, hd, hk'⟩ := nextFor_mem hk
      refine ⟨n, hd, hk', ?_⟩
      rcases FullDao.full_waiting h5 (.send (.other n)) (by rw [h3]; exact List.mem_cons_self) with h6 | ⟨e', he', h6⟩
      · exact .founding h6
      · refine FullDao.C95_governed hU hi' h5' h.steady h.totals h.governed e' ?_ _ h6
        subst hl
        simp only [daoLog, List.filterMap_append, List.mem_append, List.filterMap_cons] at he' ⊢
        rcases he' with he' | he'
        · left; right
          split
          · exact he'
          · exact List.mem_cons_of_mem _ he'
        · exact Or.inr he'
    · simp only [itEvent, called, dif_neg hj] at hx
      cases hx

/-- **C127.** A DAO keeps what belongs to it: a contract that belongs to the DAO, with nobody nominated as its next owner, stays
so, or the members of the DAO decided to nominate another owner or to renounce the ownership. -/
theorem C127_kept (hU : Lawful U) {u : FullDao.World T} {w0 w : World T kind} {b0 b : Block}
    {d : List (FullDao.Event T F D)} {log : List (Event T F D kind)} (h : History U N decode m u w0 w b0 b d log) {i : I}
    (h0 : own (kind i) (w0.its i) = { owner := some w.dao.core.core.me }) :
    own (kind i) (w.its i) = { owner := some w.dao.core.core.me } ∨
      GivenAway U decode m u.core.stack (daoLog log ++ d) i (itLog m i log) := by
  obtain ⟨_, h1, _⟩ := C127_contract h.run i
  rcases OwnedDao.kept (kind_owned (kind i)) h1 h0 with hk | ⟨ev, hev, x, hx, hxa, hxx⟩
  · exact Or.inl hk
  · exact Or.inr ⟨ev, hev, (kind_by _ hx).2 hxx, C127_decided hU h hev (by rw [(kind_by _ hx).1, hxa])⟩

/-- **C127.** What only the owner of such a contract may do goes back to a decision of the members of the DAO, unless they
decided to give that contract away. -/
theorem C127_owner_acts (hU : Lawful U) {u : FullDao.World T} {w0 w : World T kind} {b0 b : Block}
    {d : List (FullDao.Event T F D)} {log : List (Event T F D kind)} (h : History U N decode m u w0 w b0 b d log) {i : I}
    (h0 : own (kind i) (w0.its i) = { owner := some w.dao.core.core.me })
    {ev : Ev (kind i).State (kind i).View (kind i).Call (kind i).Result} (hev : ev ∈ itLog m i log)
    (ho : ownersOnly (kind i) ev.call = true) :
    Ordered U decode m u.core.stack (daoLog log ++ d) i ev.call ∨
      GivenAway U decode m u.core.stack (daoLog log ++ d) i (itLog m i log) := by
  obtain ⟨_, h1, _⟩ := C127_contract h.run i
  obtain ⟨before, later, b1, hl, h2, _, hs, _⟩ := h1.event ev hev
  rcases OwnedDao.kept (kind_owned (kind i)) h2 h0 with hk | ⟨ev', hev', x, hx, hxa, hxx⟩
  · left
    exact C127_decided hU h hev (kind_owner (kind i) hs ho _ (by rw [hk]))
  · right
    have hm : ev' ∈ itLog m i log := by rw [hl]; simp [hev']
    exact ⟨ev', hm, (kind_by _ hx).2 hxx, C127_decided hU h hm (by rw [(kind_by _ hx).1, hxa])⟩

/-- **C127.** The contracts do not disturb each other: as long as nobody calls a contract, it stays as it is, whatever happens in
the DAO and to the others. -/
theorem C127_isolated {w0 w : World T kind} {b0 b : Block} {log : List (Event T F D kind)}
    (h : (sys U N decode m).Run w0 b0 log w b) {i : I} (hq : itLog m i log = []) : w.its i = w0.its i := by
  obtain ⟨_, h1, _⟩ := C127_contract h i
  rw [hq] at h1
  generalize w.its i = x, w0.its i = y at h1
  cases h1
  rfl

/-- **C127.** What the DAO says to a contract is not lost: whenever the next message of the DAO is a call of a contract, sending
it calls the contract. -/
theorem C127_not_dropped {w0 w : World T kind} {b0 b : Block} {log : List (Event T F D kind)}
    (h : (sys U N decode m).Run w0 b0 log w b) {e : Event T F D kind} (he : e ∈ log) {i : I} {n : Nat}
    {rest : List DaoCore.Sub} {k : (kind i).Call} (hst : e.pre.dao.core.stack = .send (.other n) :: rest)
    (hd : m.dest n = some i) (hk : m.read i n = some k) {ev : FullDao.Event T F D} (hev : daoEvent e = some ev)
    {x : DaoCore.Created} (hx : ev.call = .core (.deliver x)) :
    ∃ v, itEvent m i e = some v ∧ v.call = k ∧ (kind i).contract.caller v.env k = some e.pre.dao.core.core.me := by
  obtain ⟨_, _, _, _, _, _, hs, _⟩ := h.event e he
  obtain ⟨pre, env, call, out, post⟩ := e
  simp only at hst
  have hnext : nextFor m i pre.dao.core.stack = some k := by
    rw [hst]; simp only [nextFor, hd, if_true, hk]
  cases call with
  | it j g q => simp [daoEvent] at hev
  | dao c =>
    simp only [daoEvent, Option.some.injEq] at hev
    subst hev
    simp only at hx
    subst hx
    replace hs : step U N decode m pre env (.dao (.core (.deliver x))) = .ok (post, out) := hs
    simp only [step, daoAlone, nextDest, hst, hd, Option.isNone_some, require, Bool.false_eq_true, if_false, error_bind] at hs
    cases hs
  | pass j g =>
    replace hs : step U N decode m pre env (.pass j g) = .ok (post, out) := hs
    by_cases hj : j = i
    · subst hj
      simp only [step, bind_ok, require_ok, orErr_ok, Prod.exists, Except.ok.injEq, Prod.mk.injEq, hnext, Option.some.injEq,
        Bool.and_eq_true, decide_eq_true_eq] at hs
      obtain ⟨_, rfl, _, ⟨_, hc⟩, q, o, _, y, v, _, rfl, rfl⟩ := hs
      refine ⟨⟨pre.its j, g, k, v, y⟩, ?_, rfl, hc⟩
      simp only [itEvent, called, hnext, Option.map_some, dite_true, Function.update_self]
    · exfalso
      simp only [step, bind_ok, orErr_ok] at hs
      obtain ⟨q, hq, _⟩ := hs
      rw [hst] at hq
      simp only [nextFor, hd, Option.some.injEq, Ne.symm hj, if_false] at hq
      cases hq

/-- **C127.** When the next thing the DAO sends is a call that the contract accepts from the DAO in this block, the call is
carried out as if the DAO had called the contract by itself. -/
theorem C127_carried_out {w : World T kind} {e : Env} {j : Nat} {i : I} {k : (kind i).Call} {g : (kind i).View}
    {rest : List DaoCore.Sub} {x : (kind i).State} {r : (kind i).Result}
    (hst : w.dao.core.stack = .send (.other j) :: rest) (hd : m.dest j = some i) (hj : m.read i j = some k)
    (hg : (kind i).contract.sys.block g = e.block) (hc : (kind i).contract.caller g k = some w.dao.core.core.me)
    (hx : (kind i).contract.sys.step (w.its i) g k = .ok (x, r)) :
    ∃ w' out, (sys U N decode m).step w e (.pass i g) = .ok (w', out) ∧ w'.its i = x ∧ out.its i = some r ∧
      (∀ j, j ≠ i → w'.its j = w.its j) ∧ w'.dao.core.stack = rest := by
  have h3 : FullDao.step U N decode w.dao e (.core (.deliver ⟨0, []⟩)) =
      .ok ({ w.dao with core := ⟨w.dao.core.core, rest⟩ }, ⟨.none, []⟩) := by
    simp only [FullDao.step, FullDao.notByModule, require, if_true, ok_bind, DaoCore.step, hst]
  have h4 : nextFor m i w.dao.core.stack = some k := by rw [hst]; simp only [nextFor, hd, if_true, hj]
  refine ⟨⟨{ w.dao with core := ⟨w.dao.core.core, rest⟩ }, Function.update w.its i x⟩,
    ⟨⟨.none, []⟩, Function.update (fun _ => none) i (some r)⟩, ?_, by simp, by simp,
    fun j hj => by simp [Function.update_of_ne hj], rfl⟩
  simp only [sys, step, h4, orErr, ok_bind, hg, hc, decide_true, Bool.and_self, require, if_true, h3, hx]

/-- A call of the DAO that leaves a call of a contract as the next thing to send, and what comes of it. -/
theorem act_and_pass {w : World T kind} {e : Env} {c : FullDao.Call F D} {y : FullDao.World T} {out : FullDao.Out}
    (hs : FullDao.step U N decode w.dao e c = .ok (y, out)) (hal : daoAlone m w.dao.core.stack c = true)
    {n j : Nat} {i : I} {k : (kind i).Call} (hn : decode n = .other j) (hd : m.dest j = some i) (hj : m.read i j = some k)
    (hstk : y.core.stack = [n].map (fun n => DaoCore.Sub.send (decode n)) ++ w.dao.core.stack) :
    ∃ w1 out1, (sys U N decode m).step w e (.dao c) = .ok (w1, out1) ∧ w1.its = w.its ∧
      ∀ (g : (kind i).View) (x : (kind i).State) (r : (kind i).Result), (kind i).contract.sys.block g = e.block →
        (kind i).contract.caller g k = some w.dao.core.core.me → (kind i).contract.sys.step (w.its i) g k = .ok (x, r) →
        ∃ w2 out2, (sys U N decode m).step w1 e (.pass i g) = .ok (w2, out2) ∧ w2.its i = x ∧ out2.its i = some r := by
  refine ⟨{ w with dao := y }, ⟨out, fun _ => none⟩, ?_, rfl, fun g x r hg hc hx => ?_⟩
  · simp only [sys, step, hal, require, if_true, ok_bind, hs]
  · obtain ⟨w2, out2, h3, h4, h5, _⟩ := C127_carried_out (U := U) (N := N) (decode := decode) (m := m)
      (w := { w with dao := y }) (e := e) (rest := w.dao.core.stack)
      (by simp only [hstk, List.map_cons, List.map_nil, hn, List.cons_append, List.nil_append]) hd hj hg
      (by rw [hc]; exact congrArg some (FullDao.me_same (N := N) hs).symm) hx
    exact ⟨w2, out2, h3, h4, h5⟩

/-- **C127.** What the members have decided about a contract in a module of dao-proposal-single is carried out: whoever may
execute does so successfully, and then the contract is called by the DAO, if it accepts the call. -/
theorem C127_members_use_single (hU : Lawful U) {u : FullDao.World T} {w0 w : World T kind} {b0 b : Block}
    {d : List (FullDao.Event T F D)} {log : List (Event T F D kind)} (h : History U N decode m u w0 w b0 b d log)
    -- the decision
    {a : Addr} {s : Single.State} (hs : w.dao.mods.get a = some (.single s))
    (hnow : w.dao.core.core.voting = some w.dao.voteAddr ∧ s.config.dao = w.dao.core.core.me)
    {id : Nat} {p : Single.Proposal} (hp : s.proposals.get id = some p)
    (hopen : p.status = .opened ∨ p.status = .passed) (hveto : p.veto = none) {e : Env}
    (hdec : FullDao.DecidedSingle U (fun x => FullDao.lastSingle a id x (daoLog log ++ d)) w.dao.vote e.block p)
    (hmem : s.config.onlyMembersExecute = true → U.power w.dao.vote e.sender p.startHeight ≠ 0)
    (hpause : DaoCore.isPaused w.dao.core.core e.block = false) (hen : DaoCore.Enabled w.dao.core.core a)
    -- the call
    {n j : Nat} {i : I} {k : (kind i).Call} (hmsgs : p.msgs = [n]) (hn : decode n = .other j) (hd : m.dest j = some i)
    (hj : m.read i j = some k) :
    ∃ w1 out1, (sys U N decode m).step w e (.dao (.single a (.execute id false))) = .ok (w1, out1) ∧ w1.its = w.its ∧
      ∀ (g : (kind i).View) (x : (kind i).State) (r : (kind i).Result), (kind i).contract.sys.block g = e.block →
        (kind i).contract.caller g k = some w.dao.core.core.me → (kind i).contract.sys.step (w.its i) g k = .ok (x, r) →
        ∃ w2 out2, (sys U N decode m).step w1 e (.pass i g) = .ok (w2, out2) ∧ w2.its i = x ∧ out2.its i = some r := by
  obtain ⟨bu, b1, hi, hr, _⟩ := all_dao h.dao h.run
  obtain ⟨y, out, h1, h2, h3⟩ := FullDao.C95_carried_out_single (decode := decode) hU ⟨bu, u, hi, hr⟩ h.steady hs hnow hp
    hopen hveto hdec hmem hpause hen
  replace h1 : FullDao.step U N decode w.dao e (.single a (.execute id false)) = .ok (y, out) := h1
  exact act_and_pass h1 rfl hn hd hj (by rw [h3, h2, hmsgs])

/-- **C127.** Likewise in a module of dao-proposal-multiple: the call is the message of the winning option. -/
theorem C127_members_use_multi (hU : Lawful U) {u : FullDao.World T} {w0 w : World T kind} {b0 b : Block}
    {d : List (FullDao.Event T F D)} {log : List (Event T F D kind)} (h : History U N decode m u w0 w b0 b d log)
    -- the decision
    {a : Addr} {s : Multiple.State} (hs : w.dao.mods.get a = some (.multi s))
    (hnow : w.dao.core.core.voting = some w.dao.voteAddr ∧ s.config.dao = w.dao.core.core.me)
    {id o : Nat} {p : Multiple.Proposal} (hp : s.proposals.get id = some p)
    (hopen : p.status = .opened ∨ p.status = .passed) (hveto : p.veto = none) {e : Env}
    (hdec : FullDao.DecidedMulti U (fun x => FullDao.lastMulti a id x (daoLog log ++ d)) w.dao.vote e.block p o)
    (hmem : s.config.onlyMembersExecute = true → U.power w.dao.vote e.sender p.startHeight ≠ 0)
    (hpause : DaoCore.isPaused w.dao.core.core e.block = false) (hen : DaoCore.Enabled w.dao.core.core a)
    -- the call
    {n j : Nat} {i : I} {k : (kind i).Call} (hmsgs : p.choices[o]?.map (fun c => c.msgs) = some [n])
    (hn : decode n = .other j) (hd : m.dest j = some i) (hj : m.read i j = some k) :
    ∃ w1 out1, (sys U N decode m).step w e (.dao (.multi a (.execute id false))) = .ok (w1, out1) ∧ w1.its = w.its ∧
      ∀ (g : (kind i).View) (x : (kind i).State) (r : (kind i).Result), (kind i).contract.sys.block g = e.block →
        (kind i).contract.caller g k = some w.dao.core.core.me → (kind i).contract.sys.step (w.its i) g k = .ok (x, r) →
        ∃ w2 out2, (sys U N decode m).step w1 e (.pass i g) = .ok (w2, out2) ∧ w2.its i = x ∧ out2.its i = some r := by
  obtain ⟨bu, b1, hi, hr, _⟩ := all_dao h.dao h.run
  obtain ⟨c, y, out, hc, h1, h2, h3⟩ := FullDao.C95_carried_out_multi (decode := decode) hU ⟨bu, u, hi, hr⟩ h.steady h.totals
    hs hnow hp hopen hveto hdec hmem hpause hen
  rw [hc, Option.map_some, Option.some.injEq] at hmsgs
  replace h1 : FullDao.step U N decode w.dao e (.multi a (.execute id false)) = .ok (y, out) := h1
  exact act_and_pass h1 rfl hn hd hj (by rw [h3, h2, hmsgs])

/-- **C127.** Likewise in a module of dao-proposal-condorcet: the call is the message of the winning choice. -/
theorem C127_members_use_condorcet (hU : Lawful U) {u : FullDao.World T} {w0 w : World T kind} {b0 b : Block}
    {d : List (FullDao.Event T F D)} {log : List (Event T F D kind)} (h : History U N decode m u w0 w b0 b d log)
    -- the decision
    {a : Addr} {s : Condorcet.State} (hs : w.dao.mods.get a = some (.condorcet s))
    (hnow : w.dao.core.core.voting = some w.dao.voteAddr)
    {id o : Nat} {p : Condorcet.Proposal} {t : Condorcet.Tally} (hp : s.proposals.get id = some p)
    (ht : s.tallies.get id = some t) (hopen : p.lastStatus = .opened) {e : Env}
    (hdec : FullDao.DecidedCondorcet U (FullDao.rankings a id (daoLog log ++ d)) w.dao.vote e.block p t o)
    (hmem : U.power w.dao.vote e.sender t.startHeight ≠ 0)
    (hpause : DaoCore.isPaused w.dao.core.core e.block = false) (hen : DaoCore.Enabled w.dao.core.core a)
    -- the call
    {n j : Nat} {i : I} {k : (kind i).Call} (hmsgs : p.choices[o]? = some [n])
    (hn : decode n = .other j) (hd : m.dest j = some i) (hj : m.read i j = some k) :
    ∃ w1 out1, (sys U N decode m).step w e (.dao (.condorcet a (.execute id false))) = .ok (w1, out1) ∧ w1.its = w.its ∧
      ∀ (g : (kind i).View) (x : (kind i).State) (r : (kind i).Result), (kind i).contract.sys.block g = e.block →
        (kind i).contract.caller g k = some w.dao.core.core.me → (kind i).contract.sys.step (w.its i) g k = .ok (x, r) →
        ∃ w2 out2, (sys U N decode m).step w1 e (.pass i g) = .ok (w2, out2) ∧ w2.its i = x ∧ out2.its i = some r := by
  obtain ⟨bu, b1, hi, hr, _⟩ := all_dao h.dao h.run
  obtain ⟨ms, y, out, hc, h1, h2, h3⟩ := FullDao.C95_carried_out_condorcet (decode := decode) hU ⟨bu, u, hi, hr⟩ h.steady
    h.totals hs hnow hp ht hopen hdec hmem hpause hen
  rw [hc, Option.some.injEq] at hmsgs
  replace h1 : FullDao.step U N decode w.dao e (.condorcet a (.execute id false)) = .ok (y, out) := h1
  exact act_and_pass h1 rfl hn hd hj (by rw [h3, h2, hmsgs])

end Verif.Holdings
