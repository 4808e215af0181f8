import Verif.Props.NftDaoActive
/-!
# A DAO with an NFT collection of its own: cases, and what goes wrong
-/

namespace Verif.NftDao
open Verif Verif.Spec.NftDao

/-- The DAO is 5, the voting module 6, the collection 7. -/
def made (d : Option Duration) (th : Option Active.ActiveThreshold) (l : List CollMsg) : World :=
  match create ⟨1, 0⟩ 5 6 7 d th l with
  | .ok w => w
  | .error _ => ⟨newColl 0 0, freshVm ⟨0, 0⟩ 0 0 none none, 0⟩

theorem made_minted {d : Option Duration} {th : Option Active.ActiveThreshold} {l : List (Tok × Addr)}
    (h : create ⟨1, 0⟩ 5 6 7 d th (mintAll l) = .ok (made d th (mintAll l))) : Minted l ⟨1, 0⟩ (made d th (mintAll l)) :=
  ⟨5, 6, 7, d, th, by decide, by decide, by decide, Or.inl h⟩

/-- NFTs for accounts 1 and 2 and one for the DAO. -/
def nfts : List (Tok × Addr) := [(100, 1), (101, 2), (102, 5)]

def seventy : Option Active.ActiveThreshold := some (.percentage 700000000000000000)

def two : Option Active.ActiveThreshold := some (.absolute 2)

/-- C91: the creation. -/
example : create ⟨1, 0⟩ 5 6 7 none two (mintAll nfts) = .ok (made none two (mintAll nfts)) ∧
    owner (made none two (mintAll nfts)) 101 = some 2 ∧ owner (made none two (mintAll nfts)) 103 = none ∧
    supply (made none two (mintAll nfts)) = 3 ∧ minter (made none two (mintAll nfts)) = some 5 := by
  decide +kernel

/-- C91: no messages, messages that leave no NFT, two NFTs of one name, a count above the number of NFTs, a module that gives
its own right to mint away: refused. -/
example :
    (create ⟨1, 0⟩ 5 6 7 none none []).isOk = false ∧
    (create ⟨1, 0⟩ 5 6 7 none none [.mint 100 6, .burn 100]).isOk = false ∧
    (create ⟨1, 0⟩ 5 6 7 none none [.mint 100 1, .mint 100 2]).isOk = false ∧
    (create ⟨1, 0⟩ 5 6 7 none (some (.absolute 4)) (mintAll nfts)).isOk = false ∧
    (create ⟨1, 0⟩ 5 6 7 none (some (.absolute 3)) (mintAll nfts)).isOk = true ∧
    (create ⟨1, 0⟩ 5 6 7 none none [.mint 100 1, .updateOwnership .renounce]).isOk = false := by
  decide +kernel

def later : World :=
  match replace ⟨1, 0⟩ 5 6 7 none two (mintAll nfts) with
  | .ok w => w
  | .error _ => ⟨newColl 0 0, freshVm ⟨0, 0⟩ 0 0 none none, 0⟩

/-- **C91.** The witness for the difference: a DAO that replaced its voting module cannot mint with the message that works for a
DAO created with it; it works after it accepted the ownership. -/
theorem C91_replaced_witness :
    replace ⟨1, 0⟩ 5 6 7 none two (mintAll nfts) = .ok later ∧
    (step later ⟨⟨2, 0⟩, 5⟩ (.coll (.mint 200 1))).isOk = false ∧
    (step (made none two (mintAll nfts)) ⟨⟨2, 0⟩, 5⟩ (.coll (.mint 200 1))).isOk = true ∧
    ∃ w b log, sys.Run later ⟨1, 0⟩ log w b ∧ owner w 200 = some 1 := by
  refine ⟨by decide +kernel, by decide +kernel, by decide +kernel, ?_⟩
  obtain ⟨w, b, log, hr, hp⟩ := Sys.check_run (M := sys) (s := later) (b := ⟨1, 0⟩)
    (cs := [(⟨⟨2, 0⟩, 5⟩, .coll (.updateOwnership .accept)), (⟨⟨2, 0⟩, 5⟩, .coll (.mint 200 1))])
    (p := fun w _ _ => decide (owner w 200 = some 1)) (by decide +kernel)
  exact ⟨w, b, log, hr, of_decide_eq_true hp⟩

/-- C92: account 1 approves 3 for its NFT and 2 makes 4 an operator; 3 and 4 stake the two NFTs, the votes are theirs; 3 unstakes
and claims the NFT for themselves. -/
example : ∃ w b log, plain.Run (made (some (.height 3)) two (mintAll nfts)) ⟨1, 0⟩ log w b ∧ staker 100 log = none ∧
    staker 101 log = some 4 ∧ owner w 100 = some 3 ∧ owner w 101 = some 6 ∧ w.vm.stakedNfts 4 = [101] ∧
      NftStaked.powerAt w.vm 4 7 = 1 ∧ NftStaked.powerAt w.vm 3 3 = 1 ∧ Idle 5 log ∧ log.length = 6 := by
  obtain ⟨w, b, log, hr, hp⟩ := Sys.check_run (M := plain) (s := made (some (.height 3)) two (mintAll nfts)) (b := ⟨1, 0⟩)
    (cs := [(⟨⟨2, 0⟩, 1⟩, .coll (.approve 3 100 .never)), (⟨⟨2, 0⟩, 2⟩, .coll (.approveAll 4 (.atHeight 9))),
      (⟨⟨2, 0⟩, 3⟩, .coll (.send 6 100)), (⟨⟨2, 0⟩, 4⟩, .coll (.send 6 101)), (⟨⟨3, 0⟩, 3⟩, .vm (.unstake [100])),
      (⟨⟨6, 0⟩, 3⟩, .vm .claimNfts)])
    (p := fun w _ log => decide (staker 100 log = none ∧ staker 101 log = some 4 ∧ owner w 100 = some 3 ∧ owner w 101 = some 6 ∧
      w.vm.stakedNfts 4 = [101] ∧ NftStaked.powerAt w.vm 4 7 = 1 ∧ NftStaked.powerAt w.vm 3 3 = 1 ∧
      (∀ e ∈ log, e.env.sender ≠ 5) ∧ log.length = 6)) (by decide +kernel)
  have hp := of_decide_eq_true hp
  exact ⟨w, b, log, hr, hp⟩

/-- A list of messages that makes account 9 an operator of the module. -/
def trapped : List CollMsg := mintAll nfts ++ [.approveAll 9 .never]

/-- **C92.** The witness against custody without condition: the creation is accepted, account 1 stakes, account 9 takes the NFT.
Account 1 keeps the vote and cannot unstake. -/
theorem C92_taken_witness : ∃ w b log, sys.Reach w b log ∧ owner w 100 = some 9 ∧ NftStaked.powerAt w.vm 1 9 = 1 ∧
    (step w ⟨⟨9, 0⟩, 1⟩ (.vm (.unstake [100]))).isOk = false := by
  have h : create ⟨1, 0⟩ 5 6 7 none two trapped = .ok (made none two trapped) := by decide +kernel
  obtain ⟨w, b, log, hr, hp⟩ := Sys.check_run (M := sys) (s := made none two trapped) (b := ⟨1, 0⟩)
    (cs := [(⟨⟨2, 0⟩, 1⟩, .coll (.send 6 100)), (⟨⟨2, 0⟩, 9⟩, .coll (.transfer 9 100))])
    (p := fun w _ _ => decide (owner w 100 = some 9 ∧ NftStaked.powerAt w.vm 1 9 = 1 ∧
      (step w ⟨⟨9, 0⟩, 1⟩ (.vm (.unstake [100]))).isOk = false)) (by decide +kernel)
  exact ⟨w, b, log, ⟨⟨1, 0⟩, made none two trapped, ⟨5, 6, 7, none, two, trapped, by decide, by decide, by decide, trivial,
    Or.inl h⟩, hr⟩, of_decide_eq_true hp⟩

/-- **C92.** Or account 9 holds a thousand votes of a thousand and one with a single NFT that account 1 staked. -/
theorem C92_votes_witness : ∃ w b log, sys.Reach w b log ∧ w.vm.balanceOf 9 = 1000 ∧ w.vm.total = 1001 ∧ supply w = 3 := by
  have h : create ⟨1, 0⟩ 5 6 7 none two trapped = .ok (made none two trapped) := by decide +kernel
  have h0 : sys.init ⟨1, 0⟩ (made none two trapped) :=
    ⟨5, 6, 7, none, two, trapped, by decide, by decide, by decide, trivial, Or.inl h⟩
  obtain ⟨w, b, log, hr, hp⟩ := Sys.check_run (M := sys) (s := made none two trapped) (b := ⟨1, 0⟩)
    (cs := [(⟨⟨2, 0⟩, 1⟩, .coll (.send 6 100))])
    (p := fun w b _ => decide (w.self = 6 ∧ w.coll.addr = 7 ∧ w.coll.operators.get (6, 9) = some .never ∧ owner w 100 = some 6 ∧
      w.vm.balanceOf 9 = 0 ∧ w.vm.total = 1 ∧ supply w = 3 ∧ b = ⟨2, 0⟩)) (by decide +kernel)
  obtain ⟨p1, p2, p3, p4, p5, p6, p7, rfl⟩ := of_decide_eq_true hp
  have hreach : sys.Reach w ⟨2, 0⟩ log := ⟨⟨1, 0⟩, made none two trapped, h0, hr⟩
  obtain ⟨w', b', l, h1, _, _, h4, h5, h6⟩ := C92_operator_votes (x := 9) (t := 100) (e := .never) hreach (Block.le_refl _)
    (by rw [p1]; decide) (by rw [p2]; decide) (by rw [p1]; exact p3) rfl (by rw [p1]; exact p4) 1000
    (by rw [p6]; decide +kernel)
  exact ⟨w', b', _, hreach.run h1, by rw [h4, p5], by rw [h5, p6], by rw [h6, p7]⟩

/-- C93: two NFTs for others are enough for a count of two. -/
example : ∃ w b log b'', plain.Run (made none two (mintAll nfts)) ⟨1, 0⟩ log w b ∧ Idle 5 log ∧ b.le b'' ∧ active w b'' = .ok true := by
  have h : create ⟨1, 0⟩ 5 6 7 none two (mintAll nfts) = .ok (made none two (mintAll nfts)) := by decide +kernel
  have hd : (made none two (mintAll nfts)).vm.dao = 5 := by decide +kernel
  have := (C93_count (n := 2) (made_minted h) (by decide +kernel)).2 (by decide +kernel)
  rw [hd] at this
  exact this

/-- **C93.** The witness: a count of three is accepted, but one of the three NFTs is the DAO's. Whatever the holders do, their DAO
is never active. -/
theorem C93_born_locked : ∃ w0, create ⟨1, 0⟩ 5 6 7 none (some (.absolute 3)) (mintAll nfts) = .ok w0 ∧
    ∀ log w b b'', plain.Run w0 ⟨1, 0⟩ log w b → Idle 5 log → b.le b'' → active w b'' ≠ .ok true := by
  have h : create ⟨1, 0⟩ 5 6 7 none (some (.absolute 3)) (mintAll nfts) = .ok (made none (some (.absolute 3)) (mintAll nfts)) := by
    decide +kernel
  refine ⟨_, h, fun log w b b'' hr hi hb ha => ?_⟩
  have hd : (made none (some (.absolute 3)) (mintAll nfts)).vm.dao = 5 := by decide +kernel
  have := (C93_count (n := 3) (made_minted h) (by decide +kernel)).1 ⟨w, b, log, b'', hr, by rw [hd]; exact hi, hb, ha⟩
  revert this
  decide +kernel

/-- **C93.** And one holder can put an end to a DAO that is active: account 1 unstakes and burns their NFT. -/
theorem C93_burnt_locked : ∃ w b log, plain.Run (made none two (mintAll nfts)) ⟨1, 0⟩ log w b ∧ Idle 5 log ∧
    (∃ e ∈ log, ∃ w1 b1, w1 = e.pre ∧ b1 = e.env.block ∧ active w1 b1 = .ok true) ∧
    ∀ log' w' b' b'', plain.Run w b log' w' b' → Idle 5 log' → b.height < b''.height → active w' b'' = .ok false := by
  have h : create ⟨1, 0⟩ 5 6 7 none two (mintAll nfts) = .ok (made none two (mintAll nfts)) := by decide +kernel
  have hd : (made none two (mintAll nfts)).vm.dao = 5 := by decide +kernel
  obtain ⟨w, b, log, hr, hp⟩ := Sys.check_run (M := plain) (s := made none two (mintAll nfts)) (b := ⟨1, 0⟩)
    (cs := [(⟨⟨2, 0⟩, 1⟩, .coll (.send 6 100)), (⟨⟨2, 0⟩, 2⟩, .coll (.send 6 101)), (⟨⟨3, 0⟩, 1⟩, .vm (.unstake [100])),
      (⟨⟨3, 0⟩, 1⟩, .coll (.burn 100))])
    (p := fun w _ log => decide ((∀ e ∈ log, e.env.sender ≠ 5) ∧ supply w = 2 ∧ ∃ e ∈ log, active e.pre e.env.block = .ok true))
    (by decide +kernel)
  obtain ⟨p1, p2, e, he, p3⟩ := of_decide_eq_true hp
  refine ⟨w, b, log, hr, p1, ⟨e, he, _, _, rfl, rfl, p3⟩, fun log' w' b' b'' hr' hi' hb => ?_⟩
  refine C93_locked (n := 2) (made_minted h) (by decide +kernel) hr (by rw [hd]; exact p1) ?_ hr' (by rw [hd]; exact hi') hb
  rw [p2]
  decide +kernel

/-- **C93.** Two of three NFTs are not 70 percent: without burns the DAO is never active. -/
theorem C93_percentage_locked : ∀ log w b b'', plain.Run (made none seventy (mintAll nfts)) ⟨1, 0⟩ log w b → Idle 5 log →
    NoBurns log → 1 < b''.height → active w b'' = .ok false := by
  intro log w b b'' hr hi hn hb
  have h : create ⟨1, 0⟩ 5 6 7 none seventy (mintAll nfts) = .ok (made none seventy (mintAll nfts)) := by decide +kernel
  have hd : (made none seventy (mintAll nfts)).vm.dao = 5 := by decide +kernel
  refine C93_locked_percentage (made_minted h) .refl (fun e he => by cases he) ?_ hr (by rw [hd]; exact hi) hn hb
  have e1 : supply (made none seventy (mintAll nfts)) = 3 := by decide +kernel
  have e2 : forThem (idlers (made none seventy (mintAll nfts))) nfts = 1 := by decide +kernel
  have e3 : (made none seventy (mintAll nfts)).vm.threshold = seventy := by decide +kernel
  rw [e1, e2, e3]
  unfold seventy Met
  decide +kernel

/-- **C93.** That needs the condition on burns: the votes are counted as of the start of the block, the NFTs as of now. If a
holder unstakes and burns their NFT, the DAO is active for the rest of that block, with two votes for two NFTs of which one is
staked, and not in the next block. -/
theorem C93_burn_wakes : ∃ w b log, plain.Run (made none seventy (mintAll nfts)) ⟨1, 0⟩ log w b ∧ Idle 5 log ∧
    active w b = .ok true ∧ w.vm.total = 1 ∧ supply w = 2 ∧ active w ⟨b.height + 1, b.time⟩ = .ok false := by
  obtain ⟨w, b, log, hr, hp⟩ := Sys.check_run (M := plain) (s := made none seventy (mintAll nfts)) (b := ⟨1, 0⟩)
    (cs := [(⟨⟨2, 0⟩, 1⟩, .coll (.send 6 100)), (⟨⟨2, 0⟩, 2⟩, .coll (.send 6 101)), (⟨⟨3, 0⟩, 1⟩, .vm (.unstake [100])),
      (⟨⟨3, 0⟩, 1⟩, .coll (.burn 100))])
    (p := fun w b log => decide ((∀ e ∈ log, e.env.sender ≠ 5) ∧ active w b = .ok true ∧ w.vm.total = 1 ∧ supply w = 2 ∧
      active w ⟨b.height + 1, b.time⟩ = .ok false)) (by decide +kernel)
  have hp := of_decide_eq_true hp
  exact ⟨w, b, log, hr, hp⟩

end Verif.NftDao
