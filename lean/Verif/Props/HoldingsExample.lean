import Verif.Props.Holdings
import Verif.Props.FullDaoExample
import Verif.Props.OwnedDaoExample
/-!
# C127: a DAO with three proposal modules and three contracts

DAO 1 is created with a voting module and a proposal module of each kind. A payroll, a token issuer and a roles contract belong
to it. The members cancel the payroll by a proposal in the first module, give a role by one in the second, and give the issuer
to account 7 by one in the third.
-/

namespace Verif.Holdings.Example
open Verif Verif.Spec Verif.Spec.Holdings Verif.Holdings
open Verif.WholeDao (tokenStaked C80_token_staked)
open Verif.WholeCondorcet (tokenStakedNow C94_token_staked)
open Verif.FullDao (Env)
open Verif.FullDao.Example (decode fine fine_steady fine_governed single multi condorcet)
open Verif.OwnedDao.Example (terms started issuer0 roles0)
open Verif.Vesting (sec)

inductive Name where
  | pay
  | token
  | role
  deriving DecidableEq

def kind : Name → Kind
  | .pay => .vesting
  | .token => .issuer
  | .role => .roles

def its : (i : Name) → (kind i).State
  | .pay => Vesting.world terms
  | .token => issuer0
  | .role => roles0

def w0 : World TokenStaked.World kind := ⟨FullDao.Example.w0, its⟩

def mail : Mail kind where
  dest n := if n = 200 then some .pay else if n = 210 then some .token else if n = 220 then some .role else none
  read := fun
    | .pay, n => if n = 200 then some (.msg .cancel : Vesting.Call) else none
    | .token, n => if n = 210 then some (.exec (.updateOwnership (.transfer 7 none)) : Issuer.Call) else none
    | .role, n => if n = 220 then some (.mint 1 5 none none 3 : Roles.Msg) else none

def env (n : Nat) (a : Addr) : Env := { FullDao.Example.env n a with block := sec n }

def payAt (n : Nat) (a : Addr) : Vesting.Env := { block := sec n, sender := a }
def tokenAt (n : Nat) (a : Addr) : Issuer.Env := { block := sec n, sender := a }
def roleAt (n : Nat) (a : Addr) : Roles.Env := { block := sec n, sender := a }

def before : List (Env × Call Block TokenStaked.Call kind) :=
  [(env 1 99, .dao (.core (.deliver ⟨2, []⟩))),
   (env 1 99, .dao (.spawn 3 single)),
   (env 1 99, .dao (.core (.deliver ⟨3, []⟩))),
   (env 1 99, .dao (.spawn 4 multi)),
   (env 1 99, .dao (.core (.deliver ⟨4, []⟩))),
   (env 1 99, .dao (.spawn 5 condorcet)),
   (env 1 99, .dao (.core (.deliver ⟨5, []⟩))),
   (env 2 10, .dao (.vote (sec 2) (.stake 10 60))),
   (env 2 11, .dao (.vote (sec 2) (.stake 11 40))),
   (env 3 2, .it .pay (payAt 3 2) (.msg (.distribute none) : Vesting.Call)),
   (env 5 10, .dao (.single 3 (.propose none 0 [200] none true))),
   (env 5 10, .dao (.multi 4 (.propose none 0 [(0, [8]), (1, [220])] none true))),
   (env 5 10, .dao (.condorcet 5 (.propose [[210], [8]]))),
   (env 6 11, .dao (.single 3 (.vote 1 .no none))),
   (env 6 11, .dao (.multi 4 (.vote 1 0 none))),
   (env 6 11, .dao (.condorcet 5 (.vote 1 [1, 2, 0]))),
   (env 6 10, .dao (.condorcet 5 (.vote 1 [0, 1, 2]))),
   (env 6 10, .dao (.multi 4 (.vote 1 1 none))),
   (env 6 10, .dao (.single 3 (.vote 1 .yes none)))]

def calls : List (Env × Call Block TokenStaked.Call kind) :=
  before ++
  [(env 7 99, .dao (.single 3 (.execute 1 false))),
   (env 7 99, .pass .pay (payAt 7 1)),
   (env 7 99, .dao (.multi 4 (.execute 1 false))),
   (env 7 99, .pass .role (roleAt 7 1)),
   (env 7 11, .dao (.condorcet 5 (.execute 1 false))),
   (env 7 99, .pass .token (tokenAt 7 1)),
   (env 8 7, .it .token (tokenAt 8 7) (.exec (.updateOwnership .accept) : Issuer.Call)),
   (env 9 7, .it .token (tokenAt 9 7) (.exec (.setMinter 7 100) : Issuer.Call))]

theorem past : ∃ bu b1, FullDao.Init tokenStaked bu FullDao.Example.w0 ∧
    (FullDao.sys tokenStaked tokenStakedNow decode).Run FullDao.Example.w0 bu [] w0.dao b1 ∧ b1.le ⟨1, 1⟩ :=
  ⟨⟨1, 1⟩, ⟨1, 1⟩, FullDao.Example.init, .refl, Block.le_refl _⟩

theorem contracts : ∀ i, ∃ b1 l, (kind i).contract.sys.Reach (w0.its i) b1 l ∧ b1.le ⟨1, 1⟩
  | .pay => ⟨sec 0, [], ⟨sec 0, _, ⟨terms, started⟩, .refl⟩, ⟨by decide, by decide⟩⟩
  | .token => ⟨⟨1, 1⟩, [], ⟨⟨1, 1⟩, _, ⟨1, 1, rfl⟩, .refl⟩, Block.le_refl _⟩
  | .role => ⟨⟨1, 1⟩, [], ⟨⟨1, 1⟩, _, ⟨1, rfl⟩, .refl⟩, Block.le_refl _⟩

theorem fine_history {w : World TokenStaked.World kind} {b : Block} {log : List (Event TokenStaked.World Block TokenStaked.Call kind)}
    (hr : (sys tokenStaked tokenStakedNow decode mail).Run w0 ⟨1, 1⟩ log w b) (hf : fine (daoLog log) = true) :
    History tokenStaked tokenStakedNow decode mail FullDao.Example.w0 w0 w ⟨1, 1⟩ b [] log := by
  obtain ⟨bu, b1, hi, h1, _⟩ := all_dao past hr
  refine ⟨past, contracts, hr, by rw [List.append_nil]; exact fine_steady hf, by rw [List.append_nil]; exact fine_governed hf, ?_⟩
  exact FullDao.C95_totals C94_token_staked.2 ⟨_, _, hi, h1⟩

def isPay (c k : Vesting.Call) : Bool := decide (c = k)
theorem isPay_eq {c k : Vesting.Call} (h : isPay c k = true) : c = k := of_decide_eq_true h
def isToken (c k : Issuer.Call) : Bool := decide (c = k)
theorem isToken_eq {c k : Issuer.Call} (h : isToken c k = true) : c = k := of_decide_eq_true h
def isRole (c k : Roles.Msg) : Bool := decide (c = k)
theorem isRole_eq {c k : Roles.Msg} (h : isRole c k = true) : c = k := of_decide_eq_true h

/-- **C127.** Such a DAO: all assumptions are met, and each of the three contracts is used by the DAO, through another of its
proposal modules; the issuer is given away, and the other two stay with the DAO. -/
theorem C127_example : ∃ (w : World TokenStaked.World kind) (b : Block)
    (log : List (Event TokenStaked.World Block TokenStaked.Call kind)),
    History tokenStaked tokenStakedNow decode mail FullDao.Example.w0 w0 w ⟨1, 1⟩ b [] log ∧
    (∀ i, own (kind i) (w0.its i) = { owner := some w.dao.core.core.me }) ∧
    (∃ ev ∈ itLog mail .pay log, ev.call = (.msg .cancel : Vesting.Call) ∧ ownersOnly .vesting ev.call = true) ∧
    (∃ ev ∈ itLog mail .role log, ev.call = (.mint 1 5 none none 3 : Roles.Msg)) ∧
    (∃ ev ∈ itLog mail .token log, ev.call = (.exec (.updateOwnership (.transfer 7 none)) : Issuer.Call) ∧
      givesAway .issuer ev.call = true) ∧
    (∃ ev ∈ itLog mail .token log, ev.call = (.exec (.setMinter 7 100) : Issuer.Call) ∧ ownersOnly .issuer ev.call = true) ∧
    own .vesting (w.its .pay) = { owner := some w.dao.core.core.me } ∧ own .issuer (w.its .token) = { owner := some 7 } ∧
    own .roles (w.its .role) = { owner := some w.dao.core.core.me } := by
  obtain ⟨w, b, log, hr, hp⟩ := Sys.check_run (M := sys tokenStaked tokenStakedNow decode mail) (s := w0) (b := ⟨1, 1⟩)
    (cs := calls) (p := fun w b log => fine (daoLog log) && decide (w.dao.core.core.me = 1) &&
      (itLog mail .pay log).any (fun ev => isPay ev.call (.msg .cancel)) &&
      (itLog mail .role log).any (fun ev => isRole ev.call (.mint 1 5 none none 3)) &&
      (itLog mail .token log).any (fun ev => isToken ev.call (.exec (.updateOwnership (.transfer 7 none)))) &&
      (itLog mail .token log).any (fun ev => isToken ev.call (.exec (.setMinter 7 100))) &&
      decide (own .vesting (w.its .pay) = { owner := some 1 } ∧ own .issuer (w.its .token) = { owner := some 7 } ∧
        own .roles (w.its .role) = { owner := some 1 })) (by decide +kernel)
  simp only [Bool.and_eq_true, decide_eq_true_eq, List.any_eq_true] at hp
  obtain ⟨⟨⟨⟨⟨⟨h1, h2⟩, e1, he1, h3⟩, e2, he2, h4⟩, e3, he3, h5⟩, e4, he4, h6⟩, h7⟩ := hp
  replace h3 : e1.call = (.msg .cancel : Vesting.Call) := isPay_eq h3
  replace h4 : e2.call = (.mint 1 5 none none 3 : Roles.Msg) := isRole_eq h4
  replace h5 : e3.call = (.exec (.updateOwnership (.transfer 7 none)) : Issuer.Call) := isToken_eq h5
  replace h6 : e4.call = (.exec (.setMinter 7 100) : Issuer.Call) := isToken_eq h6
  refine ⟨w, b, log, fine_history hr h1, fun i => ?_, ⟨e1, he1, h3, ?_⟩, ⟨e2, he2, h4⟩, ⟨e3, he3, h5, ?_⟩, ⟨e4, he4, h6, ?_⟩, ?_⟩
  · rw [h2]; cases i <;> rfl
  · rw [h3]; rfl
  · rw [h5]; rfl
  · rw [h6]; rfl
  · rw [h2]; exact h7

/-- The assumptions of `C127_members_use_single`, `C127_members_use_multi` or `C127_members_use_condorcet`, for a call of
contract `i` by the message `j`. -/
inductive Due (w : World TokenStaked.World kind) (log : List (FullDao.Event TokenStaked.World Block TokenStaked.Call)) (e : Env)
    (a : Addr) (i : Name) (j : Nat) : Prop where
  | single {s : Single.State} {p : Single.Proposal} {n : Nat} (hs : w.dao.mods.get a = some (.single s))
      (hnow : w.dao.core.core.voting = some w.dao.voteAddr ∧ s.config.dao = w.dao.core.core.me)
      (hp : s.proposals.get 1 = some p) (hopen : p.status = .opened ∨ p.status = .passed) (hveto : p.veto = none)
      (hdec : FullDao.DecidedSingle tokenStaked (fun x => FullDao.lastSingle a 1 x log) w.dao.vote e.block p)
      (hmem : s.config.onlyMembersExecute = false) (hpause : DaoCore.isPaused w.dao.core.core e.block = false)
      (hen : DaoCore.Enabled w.dao.core.core a) (hmsgs : p.msgs = [n]) (hn : decode n = .other j)
      (hd : mail.dest j = some i) : Due w log e a i j
  | multi {s : Multiple.State} {p : Multiple.Proposal} {n o : Nat} (hs : w.dao.mods.get a = some (.multi s))
      (hnow : w.dao.core.core.voting = some w.dao.voteAddr ∧ s.config.dao = w.dao.core.core.me)
      (hp : s.proposals.get 1 = some p) (hopen : p.status = .opened ∨ p.status = .passed) (hveto : p.veto = none)
      (hdec : FullDao.DecidedMulti tokenStaked (fun x => FullDao.lastMulti a 1 x log) w.dao.vote e.block p o)
      (hmem : s.config.onlyMembersExecute = false) (hpause : DaoCore.isPaused w.dao.core.core e.block = false)
      (hen : DaoCore.Enabled w.dao.core.core a) (hmsgs : p.choices[o]?.map (fun c => c.msgs) = some [n])
      (hn : decode n = .other j) (hd : mail.dest j = some i) : Due w log e a i j
  | condorcet {s : Condorcet.State} {p : Condorcet.Proposal} {t : Condorcet.Tally} {n o : Nat}
      (hs : w.dao.mods.get a = some (.condorcet s)) (hnow : w.dao.core.core.voting = some w.dao.voteAddr)
      (hp : s.proposals.get 1 = some p) (ht : s.tallies.get 1 = some t) (hopen : p.lastStatus = .opened)
      (hdec : FullDao.DecidedCondorcet tokenStaked (FullDao.rankings a 1 log) w.dao.vote e.block p t o)
      (hmem : tokenStaked.power w.dao.vote e.sender t.startHeight ≠ 0)
      (hpause : DaoCore.isPaused w.dao.core.core e.block = false) (hen : DaoCore.Enabled w.dao.core.core a)
      (hmsgs : p.choices[o]? = some [n]) (hn : decode n = .other j) (hd : mail.dest j = some i) : Due w log e a i j

/-- Only this message is to be sent. -/
def only (j : Nat) : List DaoCore.Sub → Bool
  | [.send (.other n)] => decide (n = j)
  | _ => false

theorem only_eq {j : Nat} {l : List DaoCore.Sub} (h : only j l = true) : l = [.send (.other j)] := by
  unfold only at h
  split at h
  · rw [of_decide_eq_true h]
  · cases h

/-- The last event executes proposal 1 of the module at an address, which is enabled. -/
def due (a : Addr) (j : Nat) (log : List (Event TokenStaked.World Block TokenStaked.Call kind)) : Bool :=
  match log with
  | [] => false
  | ev :: _ => decide (DaoCore.isPaused ev.pre.dao.core.core ev.env.block = false) && FullDao.Example.enabled ev.pre.dao a &&
    ev.pre.dao.core.stack.isEmpty && only j ev.post.dao.core.stack &&
    (match ev.call with
      | .dao (.single x (.execute 1 false)) => decide (x = a)
      | .dao (.multi x (.execute 1 false)) => decide (x = a)
      | .dao (.condorcet x (.execute 1 false)) => decide (x = a)
      | _ => false) &&
    (match ev.pre.dao.mods.get a with
      | some (.single s) => decide (s.config.onlyMembersExecute = false) &&
          (match s.proposals.get 1 with
            | some p => decide (p.status = .passed) && decide (p.veto = none) &&
                decide (p.threshold = .absolutePercentage .majority)
            | none => false)
      | some (.multi s) => decide (s.config.onlyMembersExecute = false) &&
          (match s.proposals.get 1 with
            | some p => decide (p.status = .passed) && decide (p.veto = none) && decide (p.quorum = .majority)
            | none => false)
      | some (.condorcet s) =>
          (match s.proposals.get 1, s.tallies.get 1 with
            | some p, some t => decide (p.lastStatus = .opened) && decide (p.quorum = .majority) &&
                decide (tokenStaked.power ev.pre.dao.vote ev.env.sender t.startHeight ≠ 0)
            | _, _ => false)
      | none => false)

theorem one_msg {l : List Nat} {j : Nat} (h : [DaoCore.Sub.send (.other j)] = l.map (fun n => DaoCore.Sub.send (decode n)) ++ []) :
    ∃ n, l = [n] ∧ decode n = .other j := by
  cases l with
  | nil => cases h
  | cons n t =>
    simp only [List.map_cons, List.append_nil, List.cons.injEq, DaoCore.Sub.send.injEq] at h
    obtain ⟨h1, h2⟩ := h
    cases t with
    | nil => exact ⟨n, rfl, h1.symm⟩
    | cons => cases h2

theorem due_of {a : Addr} {i : Name} {j : Nat} {w : World TokenStaked.World kind} {b : Block}
    {log : List (Event TokenStaked.World Block TokenStaked.Call kind)} (hd : mail.dest j = some i)
    (hr : (sys tokenStaked tokenStakedNow decode mail).Run w0 ⟨1, 1⟩ log w b) (hp : (fine (daoLog log) && due a j log) = true) :
    ∃ (w : World TokenStaked.World kind) (b : Block) (log : List (Event TokenStaked.World Block TokenStaked.Call kind)) (e : Env),
      History tokenStaked tokenStakedNow decode mail FullDao.Example.w0 w0 w ⟨1, 1⟩ b [] log ∧
      Due w (daoLog log ++ []) e a i j := by
  rw [Bool.and_eq_true] at hp
  obtain ⟨hf, hu⟩ := hp
  have hh := fine_history hr hf
  obtain ⟨bu, b2, hi, hrd, _⟩ := all_dao past hr
  cases hr with
  | refl => cases hu
  | @step s1 _ b1 before env call out h1 hb hs =>
    simp only [due, Bool.and_eq_true, decide_eq_true_eq] at hu
    obtain ⟨⟨⟨⟨⟨hpause, hen⟩, hst0⟩, hst1⟩, hcall⟩, hprop⟩ := hu
    have hst0 := List.isEmpty_iff.1 hst0
    have hst1 := only_eq hst1
    have hen := FullDao.Example.enabled_iff.1 hen
    have key : ∃ c, call = .dao c ∧ (c = .single a (.execute 1 false) ∨ c = .multi a (.execute 1 false) ∨
        c = .condorcet a (.execute 1 false)) := by
      split at hcall
      · exact ⟨_, rfl, Or.inl (by rw [of_decide_eq_true hcall])⟩
      · exact ⟨_, rfl, Or.inr (Or.inl (by rw [of_decide_eq_true hcall]))⟩
      · exact ⟨_, rfl, Or.inr (Or.inr (by rw [of_decide_eq_true hcall]))⟩
      · cases hcall
    obtain ⟨c, rfl, hc⟩ := key
    clear hcall
    obtain ⟨_, hs', _⟩ := dao_effect (U := tokenStaked) (N := tokenStakedNow) (decode := decode) (m := mail) hs
    have hfb : fine (daoLog before) = true := by
      simp only [fine, List.all_eq_true, daoLog, List.filterMap_cons] at hf ⊢
      exact fun e he => hf e (List.mem_cons_of_mem _ he)
    have hhb := fine_history h1 hfb
    obtain ⟨bu', b3, hi', hrb, _⟩ := all_dao past h1
    have hnow := hh.steady ⟨s1.dao, env, c, out.dao, w.dao⟩ (List.mem_append_left _ List.mem_cons_self)
    simp only at hnow
    obtain ⟨msgs, hch⟩ := FullDao.C95_decided C94_token_staked.1 (decode := decode) (later := [])
      (ev := ⟨s1.dao, env, c, out.dao, w.dao⟩) (before := daoLog before ++ []) (a := a) (id := 1)
      ⟨_, _, hi, hrd⟩ hh.steady hh.totals rfl (by rcases hc with rfl | rfl | rfl <;> simp [FullDao.executes])
    refine ⟨s1, b1, before, env, hhb, ?_⟩
    cases hch with
    | @single f s p hc' hg hp hdd _ =>
      simp only at hg hdd hc'
      rw [hg] at hprop
      simp only [hp, Bool.and_eq_true, decide_eq_true_eq] at hprop
      obtain ⟨h2, ⟨h3, h4⟩, h6⟩ := hprop
      have hdec := hdd (by rw [h6]; trivial)
      obtain ⟨y, o, g1, g2, g3⟩ := FullDao.C95_carried_out_single (decode := decode) (N := tokenStakedNow) C80_token_staked
        ⟨_, _, hi', hrb⟩ hhb.steady hg (hnow a _ hg) hp (Or.inr h3) h4 hdec (by simp [h2]) hpause hen
      have hcc : c = .single a (.execute 1 false) := by
        rcases hc with rfl | rfl | rfl
        · rfl
        · cases hc'
        · cases hc'
      subst hcc
      replace g1 : FullDao.step tokenStaked tokenStakedNow decode s1.dao env (.single a (.execute 1 false)) = .ok (y, o) := g1
      rw [hs'] at g1
      simp only [Except.ok.injEq, Prod.mk.injEq] at g1
      obtain ⟨rfl, rfl⟩ := g1
      rw [hst1, g2, hst0] at g3
      obtain ⟨n, hn1, hn2⟩ := one_msg g3
      exact .single hg (hnow a _ hg) hp (Or.inr h3) h4 hdec h2 hpause hen hn1 hn2 hd
    | @multi o f s p cc hc' hg hp hi hdd _ =>
      simp only at hg hdd hc'
      rw [hg] at hprop
      simp only [hp, Bool.and_eq_true, decide_eq_true_eq] at hprop
      obtain ⟨h2, ⟨h3, h4⟩, h6⟩ := hprop
      have hdec := hdd (by rw [h6]; trivial)
      obtain ⟨c2, y, o', g0, g1, g2, g3⟩ := FullDao.C95_carried_out_multi (decode := decode) (N := tokenStakedNow)
        C80_token_staked ⟨_, _, hi', hrb⟩ hhb.steady hhb.totals hg (hnow a _ hg) hp (Or.inr h3) h4 hdec (by simp [h2]) hpause hen
      have hcc : c = .multi a (.execute 1 false) := by
        rcases hc with rfl | rfl | rfl
        · cases hc'
        · rfl
        · cases hc'
      subst hcc
      replace g1 : FullDao.step tokenStaked tokenStakedNow decode s1.dao env (.multi a (.execute 1 false)) = .ok (y, o') := g1
      rw [hs'] at g1
      simp only [Except.ok.injEq, Prod.mk.injEq] at g1
      obtain ⟨rfl, rfl⟩ := g1
      rw [hst1, g2, hst0] at g3
      obtain ⟨n, hn1, hn2⟩ := one_msg g3
      exact .multi hg (hnow a _ hg) hp (Or.inr h3) h4 hdec h2 hpause hen (by rw [g0, Option.map_some, hn1]) hn2 hd
    | @condorcet o f s p t _ hc' hg hp ht hi hdd _ =>
      simp only at hg hdd hc'
      rw [hg] at hprop
      simp only [hp, ht, Bool.and_eq_true, decide_eq_true_eq] at hprop
      obtain ⟨⟨h2, h3⟩, h6⟩ := hprop
      have hdec := hdd (by rw [h3]; trivial)
      obtain ⟨ms, y, o', g0, g1, g2, g3⟩ := FullDao.C95_carried_out_condorcet (decode := decode) (N := tokenStakedNow)
        C80_token_staked ⟨_, _, hi', hrb⟩ hhb.steady hhb.totals hg (hnow a _ hg).1 hp ht h2 hdec h6 hpause hen
      have hcc : c = .condorcet a (.execute 1 false) := by
        rcases hc with rfl | rfl | rfl
        · cases hc'
        · cases hc'
        · rfl
      subst hcc
      replace g1 : FullDao.step tokenStaked tokenStakedNow decode s1.dao env (.condorcet a (.execute 1 false)) = .ok (y, o') := g1
      rw [hs'] at g1
      simp only [Except.ok.injEq, Prod.mk.injEq] at g1
      obtain ⟨rfl, rfl⟩ := g1
      rw [hst1, g2, hst0] at g3
      obtain ⟨n, hn1, hn2⟩ := one_msg g3
      exact .condorcet hg (hnow a _ hg).1 hp ht h2 hdec h6 hpause hen (by rw [g0, hn1]) hn2 hd

/-- **C127.** The assumptions of the three theorems on what members decide are met in the example: the payroll, the roles
contract and the issuer each in turn. -/
theorem C127_example_due : ∀ x ∈ [(3, Name.pay, 200), (4, Name.role, 220), (5, Name.token, 210)],
    ∃ (w : World TokenStaked.World kind) (b : Block) (log : List (Event TokenStaked.World Block TokenStaked.Call kind)) (e : Env),
      History tokenStaked tokenStakedNow decode mail FullDao.Example.w0 w0 w ⟨1, 1⟩ b [] log ∧
      Due w (daoLog log ++ []) e x.1 x.2.1 x.2.2 := by
  have key : ∀ (n : Nat) (a : Addr) (i : Name) (j : Nat), mail.dest j = some i →
      Sys.check (sys tokenStaked tokenStakedNow decode mail) w0 ⟨1, 1⟩ (calls.take n)
        (fun _ _ log => fine (daoLog log) && due a j log) = true →
      ∃ (w : World TokenStaked.World kind) (b : Block) (log : List (Event TokenStaked.World Block TokenStaked.Call kind)) (e : Env),
        History tokenStaked tokenStakedNow decode mail FullDao.Example.w0 w0 w ⟨1, 1⟩ b [] log ∧
        Due w (daoLog log ++ []) e a i j := by
    intro n a i j hd h
    obtain ⟨w, b, log, hr, hp⟩ := Sys.check_run h
    exact due_of hd hr hp
  intro x hx
  simp only [List.mem_cons, List.not_mem_nil, or_false] at hx
  rcases hx with rfl | rfl | rfl
  · exact key 20 3 .pay 200 rfl (by decide +kernel)
  · exact key 22 4 .role 220 rfl (by decide +kernel)
  · exact key 24 5 .token 210 rfl (by decide +kernel)

end Verif.Holdings.Example
