import Verif.Props.SwapDaos
import Verif.Props.FullDaoExample
/-!
# C133: two DAOs that swap tokens

DAO 1 has 150 coins and promises 100 of them; DAO 51 has 50 tokens of the cw20 contract 30 and promises 40. The members of DAO 1
decide to provide, then to withdraw, then to provide again. The members of DAO 51 decide to pay 3 tokens to account 77, and then
to provide, which completes the swap. Account 77 gives DAO 1 one of its tokens.
-/

namespace Verif.SwapDaos.Example
open Verif Verif.Spec Verif.Spec.SwapDaos Verif.SwapDaos
open Verif.WholeDao (tokenStaked C80_token_staked)
open Verif.WholeCondorcet (tokenStakedNow C94_token_staked)
open Verif.FullDao (Env)
open Verif.FullDao.Example (decode fine fine_steady fine_governed single env)

def core1 : DaoCore.World :=
  match DaoCore.instantiate 51 ⟨0, true, true⟩ none 20 [30] [] with
  | .ok (s, out) => ⟨s, out⟩
  | .error _ => FullDao.Example.core0

theorem core1_init : DaoCore.Init ⟨1, 1⟩ core1 :=
  DaoCore.Init.new (me := 51) (config := ⟨0, true, true⟩) (admin := none) (voting := 20) (proposals := [30])
    (items := []) rfl

def vote1 : TokenStaked.World :=
  ⟨{ dao := 51, unstakingDuration := none, threshold := none, staked := .empty, stakedTotal := .empty, claims := [], hooks := none },
    52, [(60, 7)]⟩

/-- The other DAO when it has just been created. -/
def dao1 : FullDao.World TokenStaked.World := ⟨core1, [], vote1, 52⟩

theorem init1 : FullDao.Init tokenStaked ⟨1, 1⟩ dao1 :=
  ⟨rfl, ⟨⟨1, 1⟩, [], ⟨⟨1, 1⟩, _, core1_init, .refl⟩, Block.le_refl _⟩, ⟨⟨1, 1⟩, [], ⟨⟨1, 1⟩, _,
    ⟨51, none, none, by decide +kernel, .existing (by decide +kernel), by decide +kernel⟩, .refl⟩, Block.le_refl _⟩⟩

abbrev T' : Bool → Type := fun _ => TokenStaked.World
abbrev F' : Bool → Type := fun _ => Block
abbrev D' : Bool → Type := fun _ => TokenStaked.Call

def swap0 : TokenSwap.World :=
  { c := { one := ⟨1, .native 7, 100, false⟩, two := ⟨51, .cw20 30, 40, false⟩ }
    self := 99, ledger := [((.native 7, 1), 150), ((.cw20 30, 51), 50)] }

theorem swap0_init : TokenSwap.sys.init ⟨1, 1⟩ swap0 :=
  ⟨⟨1, .native 7, 100, 51, .cw20 30, 40, by decide +kernel⟩, by decide, by decide⟩

/-- DAO 1 is `true`, DAO 51 is `false`. -/
def w0 : World T' := ⟨fun i => if i then FullDao.Example.w0 else dao1, swap0⟩

def reading (i : Bool) (n : Nat) : Option TokenSwap.Call :=
  if i then
    if n = 200 then some (.fund 1 [(7, 100)]) else if n = 201 then some (.withdraw 1) else none
  else
    if n = 200 then some (.send 30 51 40) else if n = 201 then some (.transfer (.cw20 30) 51 77 3) else none

def U' : ∀ i, WholeDao.VotingModule (T' i) (F' i) (D' i) ((fun _ => TokenStaked.Out : Bool → Type) i) := fun _ => tokenStaked
def N' : ∀ i, WholeCondorcet.Now (T' i) := fun _ => tokenStakedNow

abbrev theSys : Sys (World T') Env (Call F' D') Out := sys U' N' (fun _ => decode) reading

abbrev Step := Env × Call F' D'

/-- DAO 1 and DAO 51 are set up, with one module each, and their members stake. -/
def start : List Step :=
  [(env 1 9, .dao true (.core (.deliver ⟨2, []⟩))),
   (env 1 9, .dao true (.spawn 3 single)),
   (env 1 9, .dao true (.core (.deliver ⟨3, []⟩))),
   (env 1 9, .dao true (.spawn 4 FullDao.Example.multi)),
   (env 1 9, .dao true (.core (.deliver ⟨4, []⟩))),
   (env 1 9, .dao true (.spawn 5 FullDao.Example.condorcet)),
   (env 1 9, .dao true (.core (.deliver ⟨5, []⟩))),
   (env 1 9, .dao false (.core (.deliver ⟨52, []⟩))),
   (env 1 9, .dao false (.spawn 53 single)),
   (env 1 9, .dao false (.core (.deliver ⟨53, []⟩))),
   (env 2 10, .dao true (.vote ⟨2, 2⟩ (.stake 10 60))),
   (env 2 11, .dao true (.vote ⟨2, 2⟩ (.stake 11 40))),
   (env 2 60, .dao false (.vote ⟨2, 2⟩ (.stake 60 7)))]

/-- The members of DAO 1 decide on a message. -/
def one (h id msg : Nat) : List Step :=
  [(env h 10, .dao true (.single 3 (.propose none 0 [msg] none true))),
   (env (h + 1) 10, .dao true (.single 3 (.vote id .yes none))),
   (env (h + 2) 9, .dao true (.single 3 (.execute id false)))]

/-- The member of DAO 51 decides on a message. -/
def two (h id msg : Nat) : List Step :=
  [(env h 60, .dao false (.single 53 (.propose none 0 [msg] none true))),
   (env (h + 1) 60, .dao false (.single 53 (.vote id .yes none))),
   (env (h + 2) 9, .dao false (.single 53 (.execute id false)))]

def calls : List Step :=
  start ++ one 5 1 200 ++ [(env 7 9, .pass true)] ++ one 8 2 201 ++ [(env 10 9, .pass true)] ++ one 11 3 200 ++
  [(env 13 9, .pass true)] ++ two 14 1 201 ++ [(env 16 9, .pass false), (env 16 77, .it (.transfer (.cw20 30) 77 1 1))] ++
  two 17 2 200 ++ [(env 19 9, .pass false)]

theorem fine_history {w : World T'} {b : Block} {log : List (Event T' F' D')} (hr : theSys.Run w0 ⟨1, 1⟩ log w b)
    (hf : (fine (daoLog true log) && fine (daoLog false log)) = true) :
    History U' N' (fun _ => decode) reading w0.dao w0 w ⟨1, 1⟩ b (fun _ => []) log := by
  rw [Bool.and_eq_true] at hf
  have hf' : ∀ i, fine (daoLog i log) = true := fun i => by cases i; exact hf.2; exact hf.1
  have hin : ∀ i, FullDao.Init (U' i) ⟨1, 1⟩ (w0.dao i) := fun i => by
    cases i
    · exact init1
    · exact FullDao.Example.init
  refine ⟨swap0_init, by decide +kernel, fun i => ⟨_, _, hin i, .refl, Block.le_refl _⟩, hr, fun i => ?_, fun i => ?_, fun i => ?_⟩
  · rw [List.append_nil]; exact fine_steady (hf' i)
  · rw [List.append_nil]; exact fine_governed (hf' i)
  · obtain ⟨b1, h1, _⟩ := C133_dao hr i
    rw [List.append_nil]
    exact FullDao.C95_totals C94_token_staked.2 ⟨_, _, hin i, h1⟩

/-- **C133.** The history: all assumptions are met, and both DAOs have what they agreed on. -/
theorem C133_example : ∃ (w : World T') (b : Block) (log : List (Event T' F' D')),
    History U' N' (fun _ => decode) reading w0.dao w0 w ⟨1, 1⟩ b (fun _ => []) log ∧
    (w.dao true).core.core.me = 1 ∧ (w.dao false).core.core.me = 51 ∧
    (w.swap.c.party true).provided = true ∧ (w.swap.c.party false).provided = true ∧
    has w 1 (.native 7) = 50 ∧ has w 1 (.cw20 30) = 41 ∧ has w 51 (.native 7) = 100 ∧ has w 51 (.cw20 30) = 7 ∧
    spent 51 (.cw20 30) (swapLog reading log) = 3 ∧ earned 1 (.cw20 30) (swapLog reading log) = 1 := by
  obtain ⟨w, b, log, hr, hp⟩ := Sys.check_run (M := theSys) (s := w0) (b := ⟨1, 1⟩) (cs := calls)
    (p := fun w _ log => (fine (daoLog true log) && fine (daoLog false log)) &&
      decide ((w.dao true).core.core.me = 1 ∧ (w.dao false).core.core.me = 51 ∧
        (w.swap.c.party true).provided = true ∧ (w.swap.c.party false).provided = true ∧
        has w 1 (.native 7) = 50 ∧ has w 1 (.cw20 30) = 41 ∧ has w 51 (.native 7) = 100 ∧ has w 51 (.cw20 30) = 7 ∧
        spent 51 (.cw20 30) (swapLog reading log) = 3 ∧ earned 1 (.cw20 30) (swapLog reading log) = 1)) (by decide +kernel)
  rw [Bool.and_eq_true] at hp
  exact ⟨w, b, log, fine_history hr hp.1, of_decide_eq_true hp.2⟩

/-- Only this message is to be sent. -/
def only (j : Nat) : List DaoCore.Sub → Bool
  | [.send (.other n)] => decide (n = j)
  | _ => false

theorem only_eq {j : Nat} {l : List DaoCore.Sub} (h : only j l = true) : l = [.send (.other j)] := by
  unfold only at h
  split at h
  · rw [of_decide_eq_true h]
  · cases h

/-- The last event executes a proposal of DAO 1, whose module is enabled; and `q` was so before. -/
def ready (id j : Nat) (q : World T' → Bool) (log : List (Event T' F' D')) : Bool :=
  match log with
  | [] => false
  | ev :: _ => decide (DaoCore.isPaused (ev.pre.dao true).core.core ev.env.block = false) &&
    FullDao.Example.enabled (ev.pre.dao true) 3 && (ev.pre.dao true).core.stack.isEmpty &&
    only j (ev.post.dao true).core.stack && q ev.pre &&
    (match ev.call with
      | .dao true (.single x (.execute n false)) => decide (x = 3 ∧ n = id)
      | _ => false) &&
    (match (ev.pre.dao true).mods.get 3 with
      | some (.single s) => decide (s.config.onlyMembersExecute = false) &&
          (match s.proposals.get id with
            | some p => decide (p.status = .passed) && decide (p.veto = none) &&
                decide (p.threshold = .absolutePercentage .majority)
            | none => false)
      | _ => false)

theorem one_msg {l : List Nat} {j : Nat} (h : [DaoCore.Sub.send (.other j)] = l.map (fun n => DaoCore.Sub.send (decode n)) ++ []) :
    ∃ n, l = [n] ∧ decode n = .other j := by
  cases l with
  | nil => cases h
  | cons n t =>
    simp only [List.map_cons, List.append_nil, List.cons.injEq, DaoCore.Sub.send.injEq] at h
    obtain ⟨h1, h2⟩ := h
    cases t with
    | nil => exact ⟨n, rfl, h1.symm⟩
    | cons => cases h2

theorem ready_of {id j : Nat} {q : World T' → Bool} {w : World T'} {b : Block} {log : List (Event T' F' D')}
    (hr : theSys.Run w0 ⟨1, 1⟩ log w b)
    (hp : ((fine (daoLog true log) && fine (daoLog false log)) && ready id j q log) = true) :
    ∃ (w : World T') (b : Block) (log : List (Event T' F' D')) (e : Env) (n : Nat) (k : FullDao.Call Block TokenStaked.Call),
      History U' N' (fun _ => decode) reading w0.dao w0 w ⟨1, 1⟩ b (fun _ => []) log ∧ b.le e.block ∧
      Spec.Treasury.Resolved (U' true) (w.dao true) (daoLog true log ++ []) e [n] k ∧ decode n = .other j ∧ q w = true := by
  rw [Bool.and_eq_true] at hp
  obtain ⟨hf, hu⟩ := hp
  have hh := fine_history hr hf
  obtain ⟨b2, hrd, _⟩ := C133_dao hr true
  cases hr with
  | refl => cases hu
  | @step s1 _ b1 before env call out h1 hb hs =>
    simp only [ready, Bool.and_eq_true, decide_eq_true_eq] at hu
    obtain ⟨⟨⟨⟨⟨⟨hpause, hen⟩, hst0⟩, hst1⟩, hq⟩, hcall⟩, hprop⟩ := hu
    have hst0 := List.isEmpty_iff.1 hst0
    have hst1 := only_eq hst1
    have hen := FullDao.Example.enabled_iff.1 hen
    have key : call = .dao true (.single 3 (.execute id false)) := by
      split at hcall
      · obtain ⟨rfl, rfl⟩ := of_decide_eq_true hcall; rfl
      · cases hcall
    subst key
    clear hcall
    have hs' := (sd_dao (U := U') (N := N') (decode := fun _ => decode) (r := reading) hs).1
    have hlog : daoLog true ((⟨s1, env, .dao true (.single 3 (.execute id false)), out, w⟩ : Event T' F' D') :: before) =
        ⟨s1.dao true, env, .single 3 (.execute id false), out.dao, w.dao true⟩ :: daoLog true before := by
      simp only [daoLog]
      rw [List.filterMap_cons_some]
      simp only [daoEvent, dite_true]
    have hfb : (fine (daoLog true before) && fine (daoLog false before)) = true := by
      rw [Bool.and_eq_true] at hf ⊢
      rw [hlog] at hf
      refine ⟨?_, ?_⟩
      · have := hf.1
        simp only [fine, List.all_eq_true] at this ⊢
        exact fun e he => this e (List.mem_cons_of_mem _ he)
      · have := hf.2
        simp only [fine, List.all_eq_true] at this ⊢
        exact fun e he => this e (by
          simp only [daoLog, List.mem_filterMap] at he ⊢
          obtain ⟨x, h1, h2⟩ := he
          exact ⟨x, List.mem_cons_of_mem _ h1, h2⟩)
    have hhb := fine_history h1 hfb
    obtain ⟨b3, hrb, _⟩ := C133_dao h1 true
    have hst := hh.steady true
    have htot := hh.totals true
    rw [List.append_nil, hlog] at hst htot
    rw [hlog] at hrd
    have hstb := hhb.steady true
    rw [List.append_nil] at hstb
    have hnow := hst ⟨s1.dao true, env, .single 3 (.execute id false), out.dao, w.dao true⟩ List.mem_cons_self
    simp only at hnow
    obtain ⟨msgs, hch⟩ := FullDao.C95_decided C94_token_staked.1 (decode := decode) (later := [])
      (ev := ⟨s1.dao true, env, .single 3 (.execute id false), out.dao, w.dao true⟩) (before := daoLog true before) (a := 3)
      (id := id) ⟨_, _, FullDao.Example.init, hrd⟩ hst htot rfl (by simp [FullDao.executes])
    cases hch with
    | @single f s p hc' hg hp hdd _ =>
      simp only at hg hdd hc'
      rw [hg] at hprop
      simp only [hp, Bool.and_eq_true, decide_eq_true_eq] at hprop
      obtain ⟨h2, ⟨h3, h4⟩, h6⟩ := hprop
      have hdec := hdd (by rw [h6]; trivial)
      obtain ⟨y, o, g1, g2, g3⟩ := FullDao.C95_carried_out_single (decode := decode) (N := tokenStakedNow) C80_token_staked
        ⟨_, _, FullDao.Example.init, hrb⟩ hstb hg (hnow 3 _ hg) hp (Or.inr h3) h4 hdec (by simp [h2]) hpause hen
      replace g1 : FullDao.step tokenStaked tokenStakedNow decode (s1.dao true) env (.single 3 (.execute id false)) = .ok (y, o) :=
        g1
      have hs'' : FullDao.step tokenStaked tokenStakedNow decode (s1.dao true) env (.single 3 (.execute id false)) =
        .ok (w.dao true, out.dao) := hs'
      rw [hs''] at g1
      simp only [Except.ok.injEq, Prod.mk.injEq] at g1
      obtain ⟨hy, rfl⟩ := g1
      rw [← hy, hst1, g2, hst0] at g3
      obtain ⟨n, hn1, hn2⟩ := one_msg g3
      exact ⟨s1, b1, before, env, n, _, hhb, hb, by
        rw [List.append_nil]
        exact .single hg (hnow 3 _ hg) hp (Or.inr h3) h4 hdec (by simp [h2]) hpause hen hn1, hn2, hq⟩
    | multi hc' => cases hc'
    | condorcet hc' => cases hc'

/-- Nobody has more than 1000 of anything. -/
def small (w : World T') : Bool := w.swap.ledger.all (fun x => decide (x.2 ≤ 1000))

theorem small_has {w : World T'} (h : small w = true) (a : Addr) (t : TokenSwap.Token) : has w a t ≤ 1000 := by
  unfold has getD0
  cases hg : AMap.get w.swap.ledger (t, a) with
  | none => simp
  | some v =>
    have := List.all_eq_true.1 h _ (AMap.mem_of_get hg)
    simpa using this

theorem small_fits {w : World T'} (h : small w = true) (t : TokenSwap.Token) (a q : Addr) (_ : a ≠ q) :
    has w a t + has w q t < U128 := by
  have h1 := small_has h a t
  have h2 := small_has h q t
  have : 2000 < U128 := by decide +kernel
  omega

/-- **C133.** Histories which meet everything `C133_provides` asks for, before and after the other party has provided. -/
theorem C133_example_provides (other : Bool) : ∃ (w : World T') (b : Block) (log : List (Event T' F' D')) (e : Env) (n : Nat)
    (k : FullDao.Call Block TokenStaked.Call),
    History U' N' (fun _ => decode) reading w0.dao w0 w ⟨1, 1⟩ b (fun _ => []) log ∧ b.le e.block ∧
    (w.swap.c.party true).address = (w.dao true).core.core.me ∧ (w.swap.c.party true).provided = false ∧
    (w.swap.c.party !true).provided = other ∧
    Spec.Treasury.Resolved (U' true) (w.dao true) (daoLog true log ++ []) e [n] k ∧ decode n = .other 200 ∧
    reading true 200 = some (provides (w.swap.c.party true)) ∧
    (w.swap.c.party true).amount ≤ has w (w.dao true).core.core.me (w.swap.c.party true).token ∧
    (∀ t a q, a ≠ q → has w a t + has w q t < U128) := by
  let q : World T' → Bool := fun w => small w && decide ((w.swap.c.party true).address = (w.dao true).core.core.me ∧
    (w.swap.c.party true).provided = false ∧ (w.swap.c.party !true).provided = other ∧
    reading true 200 = some (provides (w.swap.c.party true)) ∧
    (w.swap.c.party true).amount ≤ has w (w.dao true).core.core.me (w.swap.c.party true).token)
  have fin : ∀ {w : World T'} {b : Block} {log : List (Event T' F' D')}, theSys.Run w0 ⟨1, 1⟩ log w b →
      ((fine (daoLog true log) && fine (daoLog false log)) && ready 1 200 q log) = true → _ := fun hr hp => ready_of hr hp
  have run : ∃ (w : World T') (b : Block) (log : List (Event T' F' D')), theSys.Run w0 ⟨1, 1⟩ log w b ∧
      ((fine (daoLog true log) && fine (daoLog false log)) && ready 1 200 q log) = true := by
    cases other
    · exact Sys.check_run (M := theSys) (s := w0) (b := ⟨1, 1⟩) (cs := start ++ one 5 1 200)
        (p := fun w _ log => (fine (daoLog true log) && fine (daoLog false log)) && ready 1 200 q log) (by decide +kernel)
    · exact Sys.check_run (M := theSys) (s := w0) (b := ⟨1, 1⟩)
        (cs := start ++ two 3 1 200 ++ [(env 5 9, .pass false)] ++ one 6 1 200)
        (p := fun w _ log => (fine (daoLog true log) && fine (daoLog false log)) && ready 1 200 q log) (by decide +kernel)
  obtain ⟨w, b, log, hr, hp⟩ := run
  obtain ⟨w, b, log, e, n, k, h1, h2, h3, h4, h5⟩ := fin hr hp
  rw [Bool.and_eq_true] at h5
  obtain ⟨h6, h7, h8, h9, h10⟩ := of_decide_eq_true h5.2
  exact ⟨w, b, log, e, n, k, h1, h2, h6, h7, h8, h3, h4, h9, h10, small_fits h5.1⟩

/-- **C133.** A history which meets everything `C133_withdraws` asks for. -/
theorem C133_example_withdraws : ∃ (w : World T') (b : Block) (log : List (Event T' F' D')) (e : Env) (n : Nat)
    (k : FullDao.Call Block TokenStaked.Call),
    History U' N' (fun _ => decode) reading w0.dao w0 w ⟨1, 1⟩ b (fun _ => []) log ∧ b.le e.block ∧
    (w.swap.c.party true).address = (w.dao true).core.core.me ∧ (w.swap.c.party true).provided = true ∧
    (w.swap.c.party !true).provided = false ∧
    Spec.Treasury.Resolved (U' true) (w.dao true) (daoLog true log ++ []) e [n] k ∧ decode n = .other 201 ∧
    reading true 201 = some (.withdraw (w.dao true).core.core.me) ∧
    has w (w.dao true).core.core.me (w.swap.c.party true).token + (w.swap.c.party true).amount < U128 := by
  obtain ⟨w, b, log, hr, hp⟩ := Sys.check_run (M := theSys) (s := w0) (b := ⟨1, 1⟩)
    (cs := start ++ one 5 1 200 ++ [(env 7 9, .pass true)] ++ one 8 2 201)
    (p := fun w _ log => (fine (daoLog true log) && fine (daoLog false log)) && ready 2 201 (fun w =>
      decide ((w.swap.c.party true).address = (w.dao true).core.core.me ∧ (w.swap.c.party true).provided = true ∧
        (w.swap.c.party !true).provided = false ∧ reading true 201 = some (.withdraw (w.dao true).core.core.me) ∧
        has w (w.dao true).core.core.me (w.swap.c.party true).token + (w.swap.c.party true).amount < U128)) log)
    (by decide +kernel)
  obtain ⟨w, b, log, e, n, k, h1, h2, h3, h4, h5⟩ := ready_of hr hp
  obtain ⟨h6, h7, h8, h9, h10⟩ := of_decide_eq_true h5
  exact ⟨w, b, log, e, n, k, h1, h2, h6, h7, h8, h3, h4, h9, h10⟩

end Verif.SwapDaos.Example
