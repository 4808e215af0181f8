import Verif.Props.TreasuryLive
import Verif.Props.FullDaoExample
/-!
# C130, C131: a DAO with three proposal modules and a treasury

DAO 1 is founded with 100 coins and 50 tokens of the cw20 contract 8. The first proposal module is given 7 coins when it is
created. The members pay accounts 20 and 21 in coins by a proposal in the first module, which also allows account 23 to take 10
tokens, pay 20 in tokens by one in the second module, and 22 by one in the third. Account 23 takes 6 of its tokens.
-/

namespace Verif.Treasury.Example
open Verif Verif.Spec Verif.Spec.Treasury Verif.Treasury
open Verif.WholeDao (tokenStaked C80_token_staked)
open Verif.WholeCondorcet (tokenStakedNow C94_token_staked)
open Verif.FullDao (Env)
open Verif.FullDao.Example (decode fine fine_steady fine_governed single multi condorcet env)

def chain0 : Chain := ⟨[((.native 0, 1), 100), ((.cw20 8, 1), 50), ((.native 0, 99), 5), ((.native 1, 1), 40)], []⟩

def w0 : World TokenStaked.World := ⟨FullDao.Example.w0, chain0⟩

def reading : Reading where
  ops n :=
    if n = 200 then payments (.native 0) [(20, 30), (21, 5)] else
    if n = 220 then payments (.cw20 8) [(20, 6)] else
    if n = 210 then payments (.cw20 8) [(22, 4), (20, 1)] else
    if n = 230 then [.increase 8 23 10 none] else []
  funds i := if i = 30 then [(0, 7)] else []

/-- What happens until the members have decided; `ms` is what the proposal in the first module says. -/
def before (ms : List Nat) : List (Env × Call Block TokenStaked.Call) :=
  [(env 1 99, .dao (.core (.deliver ⟨2, []⟩))),
   (env 1 99, .dao (.spawn 3 single)),
   (env 1 99, .dao (.core (.deliver ⟨3, []⟩))),
   (env 1 99, .dao (.spawn 4 multi)),
   (env 1 99, .dao (.core (.deliver ⟨4, []⟩))),
   (env 1 99, .dao (.spawn 5 condorcet)),
   (env 1 99, .dao (.core (.deliver ⟨5, []⟩))),
   (env 2 10, .dao (.vote ⟨2, 2⟩ (.stake 10 60))),
   (env 2 11, .dao (.vote ⟨2, 2⟩ (.stake 11 40))),
   (env 3 99, .other 99 (.send (.native 0) 1 2)),
   (env 4 99, .issue (.cw20 8) 1 3),
   (env 5 10, .dao (.single 3 (.propose none 0 ms none true))),
   (env 5 10, .dao (.multi 4 (.propose none 0 [(0, [8]), (1, [220])] none true))),
   (env 5 10, .dao (.condorcet 5 (.propose [[210], [8]]))),
   (env 6 11, .dao (.single 3 (.vote 1 .no none))),
   (env 6 11, .dao (.multi 4 (.vote 1 0 none))),
   (env 6 11, .dao (.condorcet 5 (.vote 1 [1, 2, 0]))),
   (env 6 10, .dao (.condorcet 5 (.vote 1 [0, 1, 2]))),
   (env 6 10, .dao (.multi 4 (.vote 1 1 none))),
   (env 6 10, .dao (.single 3 (.vote 1 .yes none)))]

def calls : List (Env × Call Block TokenStaked.Call) :=
  before [200, 230] ++
  [(env 7 99, .dao (.single 3 (.execute 1 false))),
   (env 7 99, .dao (.core (.deliver ⟨0, []⟩))),
   (env 7 99, .dao (.core (.deliver ⟨0, []⟩))),
   (env 7 99, .dao (.multi 4 (.execute 1 false))),
   (env 7 99, .dao (.core (.deliver ⟨0, []⟩))),
   (env 7 11, .dao (.condorcet 5 (.execute 1 false))),
   (env 7 99, .dao (.core (.deliver ⟨0, []⟩))),
   (env 8 23, .other 23 (.sendFrom 8 1 23 6))]

theorem fine_history {w : World TokenStaked.World} {b : Block} {log : List (Event TokenStaked.World Block TokenStaked.Call)}
    (hr : (sys tokenStaked tokenStakedNow decode reading).Run w0 ⟨1, 1⟩ log w b) (hf : fine (daoLog log) = true) :
    History tokenStaked tokenStakedNow decode reading w0 w ⟨1, 1⟩ b log := by
  obtain ⟨b1, h1, _⟩ := treasury_run hr
  exact ⟨FullDao.Example.init, hr, fine_steady hf, fine_governed hf,
    FullDao.C95_totals C94_token_staked.2 ⟨_, _, FullDao.Example.init, h1⟩⟩

/-- **C130.** Such a DAO. All assumptions are met. The founding, the proposals and the account with the allowance all use the
treasury: of 102 coins 42 are paid, of 53 tokens 11 are paid and 6 taken, and 4 more may be taken. -/
theorem C130_example : ∃ (w : World TokenStaked.World) (b : Block) (log : List (Event TokenStaked.World Block TokenStaked.Call)),
    History tokenStaked tokenStakedNow decode reading w0 w ⟨1, 1⟩ b log ∧
    has w0 1 (.native 0) = 100 ∧ over (received reading (.native 0)) log = 2 ∧ over (paid reading (.native 0)) log = 42 ∧
    has w 1 (.native 0) = 60 ∧
    has w0 1 (.cw20 8) = 50 ∧ over (received reading (.cw20 8)) log = 3 ∧ over (paid reading (.cw20 8)) log = 11 ∧
    over (taken (.cw20 8)) log = 6 ∧ has w 1 (.cw20 8) = 36 ∧
    over (allowed reading 8 23) log = 10 ∧ over (takenBy 23 (.cw20 8)) log = 6 ∧ mayTake w 8 23 = 4 ∧
    has w 3 (.native 0) = 7 ∧ has w 20 (.native 0) = 30 ∧ has w 23 (.cw20 8) = 6 ∧
    has w0 1 (.native 1) = 40 ∧ over (received reading (.native 1)) log = 0 ∧ has w 1 (.native 1) = 40 := by
  obtain ⟨w, b, log, hr, hp⟩ := Sys.check_run (M := sys tokenStaked tokenStakedNow decode reading) (s := w0) (b := ⟨1, 1⟩)
    (cs := calls) (p := fun w _ log => fine (daoLog log) &&
      decide (has w0 1 (.native 0) = 100 ∧ over (received reading (.native 0)) log = 2 ∧ over (paid reading (.native 0)) log = 42 ∧
        has w 1 (.native 0) = 60 ∧
        has w0 1 (.cw20 8) = 50 ∧ over (received reading (.cw20 8)) log = 3 ∧ over (paid reading (.cw20 8)) log = 11 ∧
        over (taken (.cw20 8)) log = 6 ∧ has w 1 (.cw20 8) = 36 ∧
        over (allowed reading 8 23) log = 10 ∧ over (takenBy 23 (.cw20 8)) log = 6 ∧ mayTake w 8 23 = 4 ∧
        has w 3 (.native 0) = 7 ∧ has w 20 (.native 0) = 30 ∧ has w 23 (.cw20 8) = 6 ∧
        has w0 1 (.native 1) = 40 ∧ over (received reading (.native 1)) log = 0 ∧ has w 1 (.native 1) = 40)) (by decide +kernel)
  rw [Bool.and_eq_true] at hp
  exact ⟨w, b, log, fine_history hr hp.1, of_decide_eq_true hp.2⟩

/-- **C130.** In the example the assumption of `C130_kept` holds for coin 1, of which the DAO has 40: no message that the
members could decide on, of those that do something, spends it. -/
theorem C130_example_kept {first : List DaoCore.Sub} {log : List (FullDao.Event TokenStaked.World Block TokenStaked.Call)}
    {x : Op} (h : Decided tokenStaked decode reading first log x) :
    leaves 1 (.native 1) 1 x = 0 ∧ ∀ c s, Token.native 1 = .cw20 c → grants c s x = 0 := by
  refine ⟨?_, by simp⟩
  rcases h with ⟨n, h, _⟩ | ⟨_, i, d, n, dest, h, rfl, _⟩
  · simp only [reading, payments] at h
    split_ifs at h <;> simp only [List.map_cons, List.map_nil, List.mem_cons, List.not_mem_nil, or_false] at h
    · rcases h with rfl | rfl <;> simp [leaves]
    · subst h; simp [leaves]
    · rcases h with rfl | rfl <;> simp [leaves]
    · subst h; simp [leaves]
  · simp only [reading] at h
    split_ifs at h <;> simp only [List.mem_cons, List.not_mem_nil, or_false, Prod.mk.injEq] at h
    obtain ⟨rfl, _⟩ := h
    simp [leaves]

/-- Only this message is to be sent. -/
def only (j : Nat) : List DaoCore.Sub → Bool
  | [.send (.other n)] => decide (n = j)
  | _ => false

theorem only_eq {j : Nat} {l : List DaoCore.Sub} (h : only j l = true) : l = [.send (.other j)] := by
  unfold only at h
  split at h
  · rw [of_decide_eq_true h]
  · cases h

/-- The last event executes proposal 1 of the module at an address, which is enabled; and `q` was so before. -/
def ready (a : Addr) (j : Nat) (q : World TokenStaked.World → Bool)
    (log : List (Event TokenStaked.World Block TokenStaked.Call)) : Bool :=
  match log with
  | [] => false
  | ev :: _ => decide (DaoCore.isPaused ev.pre.dao.core.core ev.env.block = false) && FullDao.Example.enabled ev.pre.dao a &&
    ev.pre.dao.core.stack.isEmpty && only j ev.post.dao.core.stack && q ev.pre &&
    (match ev.call with
      | .dao (.single x (.execute 1 false)) => decide (x = a)
      | .dao (.multi x (.execute 1 false)) => decide (x = a)
      | .dao (.condorcet x (.execute 1 false)) => decide (x = a)
      | _ => false) &&
    (match ev.pre.dao.mods.get a with
      | some (.single s) => decide (s.config.onlyMembersExecute = false) &&
          (match s.proposals.get 1 with
            | some p => decide (p.status = .passed) && decide (p.veto = none) &&
                decide (p.threshold = .absolutePercentage .majority)
            | none => false)
      | some (.multi s) => decide (s.config.onlyMembersExecute = false) &&
          (match s.proposals.get 1 with
            | some p => decide (p.status = .passed) && decide (p.veto = none) && decide (p.quorum = .majority)
            | none => false)
      | some (.condorcet s) =>
          (match s.proposals.get 1, s.tallies.get 1 with
            | some p, some t => decide (p.lastStatus = .opened) && decide (p.quorum = .majority) &&
                decide (tokenStaked.power ev.pre.dao.vote ev.env.sender t.startHeight ≠ 0)
            | _, _ => false)
      | none => false)

theorem one_msg {l : List Nat} {j : Nat} (h : [DaoCore.Sub.send (.other j)] = l.map (fun n => DaoCore.Sub.send (decode n)) ++ []) :
    l.map decode = [j].map (fun j => .other j) := by
  cases l with
  | nil => cases h
  | cons n t =>
    simp only [List.map_cons, List.append_nil, List.cons.injEq, DaoCore.Sub.send.injEq] at h
    obtain ⟨h1, h2⟩ := h
    cases t with
    | nil => simp [← h1]
    | cons => cases h2

theorem ready_of {a : Addr} {j : Nat} {q : World TokenStaked.World → Bool} {w : World TokenStaked.World} {b : Block}
    {log : List (Event TokenStaked.World Block TokenStaked.Call)}
    (hr : (sys tokenStaked tokenStakedNow decode reading).Run w0 ⟨1, 1⟩ log w b)
    (hp : (fine (daoLog log) && ready a j q log) = true) :
    ∃ (w : World TokenStaked.World) (b : Block) (log : List (Event TokenStaked.World Block TokenStaked.Call)) (e : Env)
      (msgs : List Nat) (k : FullDao.Call Block TokenStaked.Call),
      History tokenStaked tokenStakedNow decode reading w0 w ⟨1, 1⟩ b log ∧ b.le e.block ∧
      Resolved tokenStaked w.dao (daoLog log) e msgs k ∧ msgs.map decode = [j].map (fun j => .other j) ∧ q w = true := by
  rw [Bool.and_eq_true] at hp
  obtain ⟨hf, hu⟩ := hp
  have hh := fine_history hr hf
  obtain ⟨b2, hrd, _⟩ := treasury_run hr
  cases hr with
  | refl => cases hu
  | @step s1 _ b1 before env call out h1 hb hs =>
    simp only [ready, Bool.and_eq_true, decide_eq_true_eq] at hu
    obtain ⟨⟨⟨⟨⟨⟨hpause, hen⟩, hst0⟩, hst1⟩, hq⟩, hcall⟩, hprop⟩ := hu
    have hst0 := List.isEmpty_iff.1 hst0
    have hst1 := only_eq hst1
    have hen := FullDao.Example.enabled_iff.1 hen
    have key : ∃ c, call = .dao c ∧ (c = .single a (.execute 1 false) ∨ c = .multi a (.execute 1 false) ∨
        c = .condorcet a (.execute 1 false)) := by
      split at hcall
      · exact ⟨_, rfl, Or.inl (by rw [of_decide_eq_true hcall])⟩
      · exact ⟨_, rfl, Or.inr (Or.inl (by rw [of_decide_eq_true hcall]))⟩
      · exact ⟨_, rfl, Or.inr (Or.inr (by rw [of_decide_eq_true hcall]))⟩
      · cases hcall
    obtain ⟨c, rfl, hc⟩ := key
    clear hcall
    have hs' := (treasury_dao (U := tokenStaked) (N := tokenStakedNow) (decode := decode) (r := reading) hs).1
    have hfb : fine (daoLog before) = true := by
      simp only [fine, List.all_eq_true, daoLog, List.filterMap_cons] at hf ⊢
      exact fun e he => hf e (List.mem_cons_of_mem _ he)
    have hhb := fine_history h1 hfb
    obtain ⟨b3, hrb, _⟩ := treasury_run h1
    have hnow := hh.steady ⟨s1.dao, env, c, out, w.dao⟩ List.mem_cons_self
    simp only at hnow
    obtain ⟨msgs, hch⟩ := FullDao.C95_decided C94_token_staked.1 (decode := decode) (later := [])
      (ev := ⟨s1.dao, env, c, out, w.dao⟩) (before := daoLog before) (a := a) (id := 1)
      ⟨_, _, hh.init, hrd⟩ hh.steady hh.totals rfl (by rcases hc with rfl | rfl | rfl <;> simp [FullDao.executes])
    cases hch with
    | @single f s p hc' hg hp hdd _ =>
      simp only at hg hdd hc'
      rw [hg] at hprop
      simp only [hp, Bool.and_eq_true, decide_eq_true_eq] at hprop
      obtain ⟨h2, ⟨h3, h4⟩, h6⟩ := hprop
      have hdec := hdd (by rw [h6]; trivial)
      obtain ⟨y, o, g1, g2, g3⟩ := FullDao.C95_carried_out_single (decode := decode) (N := tokenStakedNow) C80_token_staked
        ⟨_, _, hhb.init, hrb⟩ hhb.steady hg (hnow a _ hg) hp (Or.inr h3) h4 hdec (by simp [h2]) hpause hen
      have hcc : c = .single a (.execute 1 false) := by
        rcases hc with rfl | rfl | rfl
        · rfl
        · cases hc'
        · cases hc'
      subst hcc
      replace g1 : FullDao.step tokenStaked tokenStakedNow decode s1.dao env (.single a (.execute 1 false)) = .ok (y, o) := g1
      rw [hs'] at g1
      simp only [Except.ok.injEq, Prod.mk.injEq] at g1
      obtain ⟨rfl, rfl⟩ := g1
      rw [hst1, g2, hst0] at g3
      exact ⟨s1, b1, before, env, _, _, hhb, hb, .single hg (hnow a _ hg) hp (Or.inr h3) h4 hdec (by simp [h2]) hpause hen rfl,
        one_msg g3, hq⟩
    | @multi o f s p cc hc' hg hp hi hdd _ =>
      simp only at hg hdd hc'
      rw [hg] at hprop
      simp only [hp, Bool.and_eq_true, decide_eq_true_eq] at hprop
      obtain ⟨h2, ⟨h3, h4⟩, h6⟩ := hprop
      have hdec := hdd (by rw [h6]; trivial)
      obtain ⟨c2, y, o', g0, g1, g2, g3⟩ := FullDao.C95_carried_out_multi (decode := decode) (N := tokenStakedNow)
        C80_token_staked ⟨_, _, hhb.init, hrb⟩ hhb.steady hhb.totals hg (hnow a _ hg) hp (Or.inr h3) h4 hdec (by simp [h2]) hpause
        hen
      have hcc : c = .multi a (.execute 1 false) := by
        rcases hc with rfl | rfl | rfl
        · cases hc'
        · rfl
        · cases hc'
      subst hcc
      replace g1 : FullDao.step tokenStaked tokenStakedNow decode s1.dao env (.multi a (.execute 1 false)) = .ok (y, o') := g1
      rw [hs'] at g1
      simp only [Except.ok.injEq, Prod.mk.injEq] at g1
      obtain ⟨rfl, rfl⟩ := g1
      rw [hst1, g2, hst0] at g3
      exact ⟨s1, b1, before, env, _, _, hhb, hb, .multi hg (hnow a _ hg) hp (Or.inr h3) h4 hdec (by simp [h2]) hpause hen
        (by rw [g0, Option.map_some]), one_msg g3, hq⟩
    | @condorcet o f s p t _ hc' hg hp ht hi hdd _ =>
      simp only at hg hdd hc'
      rw [hg] at hprop
      simp only [hp, ht, Bool.and_eq_true, decide_eq_true_eq] at hprop
      obtain ⟨⟨h2, h3⟩, h6⟩ := hprop
      have hdec := hdd (by rw [h3]; trivial)
      obtain ⟨ms, y, o', g0, g1, g2, g3⟩ := FullDao.C95_carried_out_condorcet (decode := decode) (N := tokenStakedNow)
        C80_token_staked ⟨_, _, hhb.init, hrb⟩ hhb.steady hhb.totals hg (hnow a _ hg).1 hp ht h2 hdec h6 hpause hen
      have hcc : c = .condorcet a (.execute 1 false) := by
        rcases hc with rfl | rfl | rfl
        · cases hc'
        · cases hc'
        · rfl
      subst hcc
      replace g1 : FullDao.step tokenStaked tokenStakedNow decode s1.dao env (.condorcet a (.execute 1 false)) = .ok (y, o') := g1
      rw [hs'] at g1
      simp only [Except.ok.injEq, Prod.mk.injEq] at g1
      obtain ⟨rfl, rfl⟩ := g1
      rw [hst1, g2, hst0] at g3
      exact ⟨s1, b1, before, env, _, _, hhb, hb, .condorcet hg (hnow a _ hg).1 hp ht h2 hdec h6 hpause hen g0,
        one_msg g3, hq⟩

theorem getD0_le_sum {K : Type} [DecidableEq K] (m : AMap K Nat) (k : K) : getD0 m k ≤ (m.map Prod.snd).sum := by
  induction m with
  | nil => simp [getD0, AMap.get]
  | cons x m ih =>
    obtain ⟨a, v⟩ := x
    simp only [getD0, AMap.get, List.map_cons, List.sum_cons] at ih ⊢
    split
    · simp
    · omega

theorem gets_le (q : Addr) (l : List (Addr × Nat)) : gets q l ≤ sumOf l := by
  induction l with
  | nil => simp [gets]
  | cons x l ih =>
    rw [gets_cons, sumOf_cons]
    split <;> omega

/-- **C131.** The assumptions of `C131_pays`, and so of `C131_spends`, are met in the example for each of the three modules. -/
theorem C131_example : ∀ x ∈ [((3 : Addr), (200 : Nat), (Token.native 0), [((20 : Addr), 30), (21, 5)]),
      (4, 220, .cw20 8, [(20, 6)]), (5, 210, .cw20 8, [(22, 4), (20, 1)])],
    ∃ (w : World TokenStaked.World) (b : Block) (log : List (Event TokenStaked.World Block TokenStaked.Call)) (e : Env)
      (msgs : List Nat) (k : FullDao.Call Block TokenStaked.Call),
      History tokenStaked tokenStakedNow decode reading w0 w ⟨1, 1⟩ b log ∧ b.le e.block ∧
      Resolved tokenStaked w.dao (daoLog log) e msgs k ∧ msgs.map decode = [x.2.1].map (fun j => .other j) ∧
      [x.2.1].flatMap reading.ops = payments x.2.2.1 x.2.2.2 ∧ (∀ y ∈ x.2.2.2, y.1 ≠ w.dao.core.core.me) ∧
      sumOf x.2.2.2 ≤ has w w.dao.core.core.me x.2.2.1 ∧
      (∀ q, q ≠ w.dao.core.core.me → has w q x.2.2.1 + gets q x.2.2.2 < U128) := by
  have key : ∀ (cs : List (Env × Call Block TokenStaked.Call)) (a : Addr) (j : Nat) (t : Token) (l : List (Addr × Nat)),
      Sys.check (sys tokenStaked tokenStakedNow decode reading) w0 ⟨1, 1⟩ cs
        (fun _ _ log => fine (daoLog log) && ready a j (fun w => decide ((∀ y ∈ l, y.1 ≠ w.dao.core.core.me) ∧
          sumOf l ≤ has w w.dao.core.core.me t ∧ (w.chain.bal.map Prod.snd).sum + sumOf l < U128)) log) = true →
      [j].flatMap reading.ops = payments t l →
      ∃ (w : World TokenStaked.World) (b : Block) (log : List (Event TokenStaked.World Block TokenStaked.Call)) (e : Env)
        (msgs : List Nat) (k : FullDao.Call Block TokenStaked.Call),
        History tokenStaked tokenStakedNow decode reading w0 w ⟨1, 1⟩ b log ∧ b.le e.block ∧
        Resolved tokenStaked w.dao (daoLog log) e msgs k ∧ msgs.map decode = [j].map (fun j => .other j) ∧
        [j].flatMap reading.ops = payments t l ∧ (∀ y ∈ l, y.1 ≠ w.dao.core.core.me) ∧
        sumOf l ≤ has w w.dao.core.core.me t ∧ (∀ q, q ≠ w.dao.core.core.me → has w q t + gets q l < U128) := by
    intro cs a j t l h hl
    obtain ⟨w, b, log, hr, hp⟩ := Sys.check_run h
    obtain ⟨w, b, log, e, msgs, k, h1, h2, h3, h4, h5⟩ := ready_of hr hp
    obtain ⟨h5, h6, h7⟩ := of_decide_eq_true h5
    refine ⟨w, b, log, e, msgs, k, h1, h2, h3, h4, hl, h5, h6, fun q _ => ?_⟩
    have := getD0_le_sum w.chain.bal (t, q)
    have := gets_le q l
    rw [has]
    omega
  intro x hx
  simp only [List.mem_cons, List.not_mem_nil, or_false] at hx
  rcases hx with rfl | rfl | rfl
  · exact key (before [200] ++ [(env 7 99, .dao (.single 3 (.execute 1 false)))]) 3 200 _ _ (by decide +kernel) rfl
  · exact key (before [200] ++ [(env 7 99, .dao (.multi 4 (.execute 1 false)))]) 4 220 _ _ (by decide +kernel) rfl
  · exact key (before [200] ++ [(env 7 11, .dao (.condorcet 5 (.execute 1 false)))]) 5 210 _ _ (by decide +kernel) rfl

end Verif.Treasury.Example
