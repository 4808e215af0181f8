import Verif.Proofs.NftDaoCreate
/-!
# C91: a DAO created with a new NFT collection gets it, and nobody else mints
-/

namespace Verif.NftDao
open Verif Verif.Spec.NftDao
open Verif.Spec.TokenDao (Lasting Sensible)

variable {b : Block} {dao self addr : Addr} {d : Option Duration} {th : Option Active.ActiveThreshold} {w : World}

/-! ## The creation -/

theorem start_mint {l : List (Tok × Addr)} {w1 : World} :
    runList b (mintAll l) (start b dao self addr d th) = .ok w1 ↔
      (l.map (·.1)).Nodup ∧ l.length < U64 ∧
        w1 = { start b dao self addr d th with coll := { newColl addr self with tokens := l } } := by
  rw [mint_run (w := start b dao self addr d th) rfl rfl]
  constructor
  · rintro ⟨h1, _, h3, rfl⟩
    refine ⟨h1, ?_, rfl⟩
    by_cases hl : l = []
    · subst hl; exact U64_pos
    · simpa [start, newColl] using h3 hl
  · rintro ⟨h1, h2, rfl⟩
    exact ⟨h1, fun _ _ => rfl, fun _ => by simpa [start, newColl] using h2, rfl⟩

theorem newModule_mint {l : List (Tok × Addr)} :
    newModule b dao self addr d th (mintAll l) = .ok w ↔
      (Lasting d ∧ Sensible th l.length ∧ l ≠ [] ∧ (l.map (·.1)).Nodup ∧ l.length < U64) ∧
        w = { coll := { addr := addr, owner := { owner := some self, pendingOwner := some dao }, tokens := l, approvals := [],
                        operators := [] }, vm := freshVm b dao addr d th, self := self } := by
  rw [newModule_ok]
  constructor
  · rintro ⟨h1, h2, w1, h3, _, h4, h5, rfl⟩
    obtain ⟨h6, h7, rfl⟩ := start_mint.1 h3
    exact ⟨⟨h1, h5, by simpa using h4, h6, h7⟩, rfl⟩
  · rintro ⟨⟨h1, h2, h3, h4, h5⟩, rfl⟩
    refine ⟨h1, ?_, _, start_mint.2 ⟨h4, h5, rfl⟩, rfl, ?_, h2, rfl⟩
    · simp [mintAll, h3]
    · simpa using h3

/-- **C91.** A new DAO with a collection of its own is created from a list of NFTs exactly if the unstaking duration is none
or positive, the active threshold is a percentage above 0 and up to 100 or a count between one and the number of NFTs, there
are NFTs, no two with the same identifier, and their number fits. -/
theorem C91_creates_iff {l : List (Tok × Addr)} :
    (∃ w, create b dao self addr d th (mintAll l) = .ok w) ↔
      Lasting d ∧ Sensible th l.length ∧ l ≠ [] ∧ (l.map (·.1)).Nodup ∧ l.length < U64 := by
  simp only [create_ok, newModule_mint]
  constructor
  · rintro ⟨w, w1, ⟨h, _⟩, _⟩; exact h
  · intro h; exact ⟨_, _, ⟨h, rfl⟩, rfl⟩

theorem get_mem {l : AMap Tok Addr} (h : l.WF) (t : Tok) (a : Addr) : AMap.get l t = some a ↔ (t, a) ∈ l :=
  ⟨AMap.mem_of_get, AMap.get_of_mem h⟩

/-- **C91.** Then every NFT belongs to the account listed with it and there are no others; the DAO is the one who may mint and
has offered that to nobody; nobody is approved for an NFT or an operator; nothing is staked. -/
theorem C91_created {l : List (Tok × Addr)} (h : create b dao self addr d th (mintAll l) = .ok w) :
    (∀ t a, owner w t = some a ↔ (t, a) ∈ l) ∧ supply w = l.length ∧ w.coll.owner = { owner := some dao } ∧
      w.coll.approvals = [] ∧ w.coll.operators = [] ∧ w.vm = freshVm b dao addr d th ∧ w.self = self ∧ w.coll.addr = addr := by
  obtain ⟨w1, h1, rfl⟩ := create_ok.1 h
  obtain ⟨⟨_, _, _, hn, _⟩, rfl⟩ := newModule_mint.1 h1
  exact ⟨fun t a => get_mem hn t a, rfl, rfl, rfl, rfl, rfl, rfl, rfl⟩

/-- What a new module looks like, whatever messages were listed. -/
theorem newModule_shape {initial : List CollMsg} (h : newModule b dao self addr d th initial = .ok w) :
    Lasting d ∧ initial ≠ [] ∧ Sensible th (supply w) ∧ supply w ≠ 0 ∧
      w.coll.owner = { owner := some self, pendingOwner := some dao } ∧ w.vm.dao = dao ∧ w.vm.nft = addr ∧
        w.vm.threshold = th ∧ w.vm.unstakingDuration = d ∧ w.vm.hooks = none ∧ w.self = self ∧ w.coll.addr = addr ∧
          w.coll.tokens.WF ∧ supply w < U64 := by
  obtain ⟨h1, h2, w1, h3, h4, h5, h6, rfl⟩ := newModule_ok.1 h
  have hk := kept_run (kept_start b dao self addr d th) h3
  refine ⟨h1, h2, h6, h5, ?_, hk.dao, hk.nft, hk.threshold, hk.duration, hk.hooks, hk.self, hk.addr, hk.wf, hk.small⟩
  simp only [offered, h4]

/-- **C91.** Whatever messages are listed, and they need not be mints: if the creation goes through there are NFTs, the
threshold makes sense for their number, and the DAO is the one who may mint and has offered that to nobody. -/
theorem C91_any {initial : List CollMsg} (h : create b dao self addr d th initial = .ok w) :
    initial ≠ [] ∧ supply w ≠ 0 ∧ Sensible th (supply w) ∧ Lasting d ∧ w.coll.owner = { owner := some dao } ∧
      w.vm.dao = dao ∧ w.vm.nft = w.coll.addr ∧ w.vm.threshold = th ∧ w.vm.unstakingDuration = d ∧ w.vm.hooks = none := by
  obtain ⟨w1, h1, rfl⟩ := create_ok.1 h
  obtain ⟨h1, h2, h3, h4, _, h6, h7, h8, h9, h10, _, h12, _⟩ := newModule_shape h1
  exact ⟨h2, h4, h3, h1, rfl, h6, h7.trans h12.symm, h8, h9, h10⟩

/-- **C91.** A DAO that replaces its voting module by such a one: the module still is the one who may mint, and the DAO has an
offer that does not expire. -/
theorem C91_replaced {initial : List CollMsg} (h : replace b dao self addr d th initial = .ok w) :
    initial ≠ [] ∧ supply w ≠ 0 ∧ Sensible th (supply w) ∧ Lasting d ∧
      w.coll.owner = { owner := some w.self, pendingOwner := some dao, pendingExpiry := none } ∧ w.vm.dao = dao := by
  obtain ⟨h1, h2, h3, h4, h5, h6, _, _, _, _, h11, _⟩ := newModule_shape h
  exact ⟨h2, h4, h3, h1, by rw [h11]; exact h5, h6⟩

/-! ## Afterwards -/

theorem init_shape {ok : Addr → List CollMsg → Prop} (h : Init ok b w) :
    (w.coll.owner = { owner := some w.vm.dao } ∨ w.coll.owner = { owner := some w.self, pendingOwner := some w.vm.dao }) ∧
      w.vm.dao ≠ w.self ∧ w.vm.dao ≠ w.coll.addr ∧ w.self ≠ w.coll.addr ∧ w.vm.nft = w.coll.addr ∧ w.coll.tokens.WF ∧
        supply w < U64 := by
  obtain ⟨dao, self, addr, d, t, initial, n1, n2, n3, _, h | h⟩ := h
  · obtain ⟨w1, h1, rfl⟩ := create_ok.1 h
    obtain ⟨_, _, _, _, _, h6, h7, _, _, _, h11, h12, h13, h14⟩ := newModule_shape h1
    refine ⟨Or.inl (by rw [h6]), ?_, ?_, ?_, ?_, h13, h14⟩
    · simp only [h6, h11]; exact n1
    · simp only [h6, h12]; exact n2
    · simp only [h11, h12]; exact n3
    · simp only [h7, h12]
  · obtain ⟨_, _, _, _, h5, h6, h7, _, _, _, h11, h12, h13, h14⟩ := newModule_shape h
    refine ⟨Or.inr (by rw [h6, h11]; exact h5), ?_, ?_, ?_, ?_, h13, h14⟩
    · rw [h6, h11]; exact n1
    · rw [h6, h12]; exact n2
    · rw [h11, h12]; exact n3
    · rw [h7, h12]

/-- What a transaction keeps, whoever sends it. -/
theorem step_keeps {w w' : World} {e : Env} {call : Call} {out : NftStaked.Out} (hs : step w e call = .ok (w', out)) :
    w'.self = w.self ∧ w'.coll.addr = w.coll.addr ∧ w'.vm.nft = w.vm.nft ∧ w'.vm.dao = w.vm.dao ∧
      (w.coll.tokens.WF → w'.coll.tokens.WF) ∧ (w.coll.tokens.WF → supply w < U64 → supply w' < U64) := by
  cases call with
  | coll m =>
    simp only [step, bind_ok, require_ok, decide_eq_true_eq] at hs
    obtain ⟨_, ⟨hself, _⟩, hs⟩ := hs
    obtain ⟨c, hc, h1⟩ := collStep_ok hs
    obtain ⟨k1, k2, k3⟩ := exec_keeps hc
    rcases h1 with ⟨_, rfl, _⟩ | ⟨t, rfl, _, rfl, _⟩
    · exact ⟨rfl, k1, rfl, rfl, k2, k3⟩
    · exact ⟨rfl, k1, rfl, rfl, k2, k3⟩
  | vm m =>
    simp only [step, bind_ok, require_ok, decide_eq_true_eq] at hs
    obtain ⟨_, ⟨hself, _⟩, ⟨c, o⟩, he, cl, hg, hs⟩ := hs
    simp only [Except.ok.injEq, Prod.mk.injEq] at hs hg
    obtain ⟨rfl, rfl⟩ := hs
    obtain ⟨g1, g2, g3, g4, g5, g6, g7⟩ := giveBack_ok hg
    refine ⟨rfl, g2, (exec_nft he).1, (exec_nft he).2, g7, fun _ hl => ?_⟩
    show cl.tokens.length < U64
    rw [g6]; exact hl

theorem run_keeps {ok : Addr → List CollMsg → Prop} {w w' : World} {b b' : Block} {log : List Event}
    (hr : (sysOf ok).Run w b log w' b') : w'.self = w.self ∧ w'.coll.addr = w.coll.addr ∧ w'.vm.nft = w.vm.nft ∧ w'.vm.dao = w.vm.dao := by
  induction hr with
  | refl => exact ⟨rfl, rfl, rfl, rfl⟩
  | step _ _ hs ih =>
    obtain ⟨h1, h2, h3, h4, _⟩ := step_keeps hs
    exact ⟨h1.trans ih.1, h2.trans ih.2.1, h3.trans ih.2.2.1, h4.trans ih.2.2.2⟩

/-- A new NFT is minted by the owner of the collection, and the ownership changes by messages about it. -/
theorem step_mints {w w' : World} {e : Env} {call : Call} {out : NftStaked.Out} (hs : step w e call = .ok (w', out)) :
    (∀ t, owner w t = none → owner w' t ≠ none → ∃ a, call = .coll (.mint t a) ∧ minter w = some e.sender) ∧
      (w'.coll.owner = w.coll.owner ∨ ∃ x, call = .coll (.updateOwnership x) ∧
        w.coll.owner.update e.block e.sender x = .ok w'.coll.owner) ∧ e.sender ≠ w.self := by
  cases call with
  | coll m =>
    simp only [step, bind_ok, require_ok, decide_eq_true_eq] at hs
    obtain ⟨_, ⟨hself, _⟩, hs⟩ := hs
    obtain ⟨c, hc, h1⟩ := collStep_ok hs
    have hw : w'.coll = c := by rcases h1 with ⟨_, rfl, _⟩ | ⟨t, rfl, _, rfl, _⟩ <;> rfl
    refine ⟨?_, ?_, hself⟩
    · intro t h2 h3
      unfold owner at h2 h3
      rw [hw] at h3
      cases exec_effect hc with
      | mint t' dst own fresh len =>
        simp only [AMap.get_set] at h3
        split at h3
        · rename_i ht; subst ht; exact ⟨dst, rfl, own⟩
        · exact absurd h2 h3
      | burn t' o ho may =>
        simp only [AMap.get_erase] at h3
        split at h3
        · exact absurd rfl h3
        · exact absurd h2 h3
      | transfer t' dst o ho may =>
        simp only [AMap.get_set] at h3
        split at h3
        · rename_i ht; subst ht; rw [ho] at h2; cases h2
        · exact absurd h2 h3
      | send t' dst o ho may =>
        simp only [AMap.get_set] at h3
        split at h3
        · rename_i ht; subst ht; rw [ho] at h2; cases h2
        · exact absurd h2 h3
      | approvals => exact absurd h2 h3
      | operators => exact absurd h2 h3
      | ownership => exact absurd h2 h3
    · rw [hw]
      rcases exec_owner hc with h2 | ⟨x, rfl, h2⟩
      · exact Or.inl h2
      · exact Or.inr ⟨x, rfl, h2⟩
  | vm m =>
    simp only [step, bind_ok, require_ok, decide_eq_true_eq] at hs
    obtain ⟨_, ⟨hself, _⟩, ⟨c, o⟩, he, cl, hg, hs⟩ := hs
    simp only [Except.ok.injEq, Prod.mk.injEq] at hs hg
    obtain ⟨rfl, rfl⟩ := hs
    refine ⟨?_, Or.inl (giveBack_ok hg).2.2.1, hself⟩
    intro t h2 h3
    exfalso; apply h3
    have key : ∀ (l : List (Addr × Tok)) {c c' : Coll}, giveBack e.block w.self l c = .ok c' → c.tokens.get t = none →
        c'.tokens.get t = none := by
      intro l
      induction l with
      | nil => intro c c' h hn; simp only [giveBack, Except.ok.injEq] at h; rw [← h]; exact hn
      | cons x l ih =>
        intro c c' h hn
        obtain ⟨a, t'⟩ := x
        simp only [giveBack, bind_ok] at h
        obtain ⟨c1, h1, h⟩ := h
        refine ih h ?_
        have he := exec_effect h1
        generalize hm : CollMsg.transfer a t' = m at he
        cases he with
        | transfer t'' dst o ho may =>
          cases hm
          simp only [AMap.get_set]
          split
          · rename_i ht; subst ht; rw [ho] at hn; cases hn
          · exact hn
        | approvals m hp => subst hm; exact absurd hp id
        | operators m hp => subst hm; exact absurd hp id
        | _ => cases hm
    exact key _ hg h2

/-- **C91.** Only whoever the collection names mints, in a message of their own; and the name changes only in messages about
it: the one named offers, the one offered accepts, or the one named steps down. -/
theorem C91_mints {w w' : World} {e : Env} {call : Call} {out : NftStaked.Out} (hs : sys.step w e call = .ok (w', out)) :
    (∀ t, owner w t = none → owner w' t ≠ none → minter w = some e.sender ∧ ∃ a, call = .coll (.mint t a)) ∧
      (minter w' ≠ minter w → (call = .coll (.updateOwnership .accept) ∧ w.coll.owner.pendingOwner = some e.sender ∧
          minter w' = some e.sender) ∨
        call = .coll (.updateOwnership .renounce) ∧ minter w = some e.sender ∧ minter w' = none) := by
  obtain ⟨h1, h2, _⟩ := step_mints hs
  refine ⟨fun t ht ht' => ?_, fun hne => ?_⟩
  · obtain ⟨a, h3, h4⟩ := h1 t ht ht'; exact ⟨h4, a, h3⟩
  · unfold minter at hne ⊢
    rcases h2 with h2 | ⟨x, rfl, h2⟩
    · exact absurd (by rw [h2]) hne
    · cases x with
      | transfer n ex =>
        simp only [Ownership.update, bind_ok, Ownership.assertOwner_ok, Except.ok.injEq] at h2
        obtain ⟨_, _, h2⟩ := h2
        exact absurd (by rw [← h2]) hne
      | accept =>
        simp only [Ownership.update, bind_ok, require_ok, decide_eq_true_eq, Except.ok.injEq] at h2
        obtain ⟨_, h3, _, _, h2⟩ := h2
        exact Or.inl ⟨rfl, h3, by rw [← h2]; exact h3⟩
      | renounce =>
        simp only [Ownership.update, bind_ok, Ownership.assertOwner_ok, Except.ok.injEq] at h2
        obtain ⟨_, h3, h2⟩ := h2
        exact Or.inr ⟨rfl, h3, by rw [← h2]⟩

theorem update_stranger {o o' : Ownership} {b : Block} {s : Addr} {x : OwnerAction} (h : o.update b s x = .ok o') :
    o.owner = some s ∨ o.pendingOwner = some s := by
  cases x with
  | transfer n ex =>
    simp only [Ownership.update, bind_ok, Ownership.assertOwner_ok] at h
    obtain ⟨_, h, _⟩ := h; exact Or.inl h
  | accept =>
    simp only [Ownership.update, bind_ok, require_ok, decide_eq_true_eq] at h
    obtain ⟨_, h, _⟩ := h; exact Or.inr h
  | renounce =>
    simp only [Ownership.update, bind_ok, Ownership.assertOwner_ok] at h
    obtain ⟨_, h, _⟩ := h; exact Or.inl h

/-- **C91.** As long as the DAO neither mints nor acts on the ownership there are no new NFTs, and the ownership stays as it
was, whatever anybody sends. -/
theorem C91_silent {b0 b : Block} {w0 w : World} {log : List Event} (h0 : sys.init b0 w0) (hr : sys.Run w0 b0 log w b)
    (hq : Silent w0.vm.dao log) :
    w.coll.owner = w0.coll.owner ∧ ∀ t, owner w0 t = none → owner w t = none := by
  obtain ⟨hown, hds, _⟩ := init_shape h0
  induction hr with
  | refl => exact ⟨rfl, fun _ h => h⟩
  | @step w1 w2 b1 l env call out hr hb hs ih =>
    obtain ⟨i1, i2⟩ := ih (fun e he => hq e (List.mem_cons_of_mem _ he))
    obtain ⟨k1, _⟩ := run_keeps (ok := fun _ _ => True) hr
    obtain ⟨m1, m2, m3⟩ := step_mints hs
    have hq' := hq _ List.mem_cons_self
    have not : ∀ a, w1.coll.owner.owner = some a ∨ w1.coll.owner.pendingOwner = some a → a = w0.vm.dao ∨ a = w1.self := by
      intro a ha
      rw [i1] at ha
      rcases hown with h | h
      · rw [h] at ha; simp at ha; exact Or.inl ha.symm
      · rw [h] at ha; simp at ha
        rcases ha with ha | ha
        · exact Or.inr (by rw [k1]; exact ha.symm)
        · exact Or.inl ha.symm
    refine ⟨?_, fun t ht => ?_⟩
    · rcases m2 with m2 | ⟨x, rfl, m2⟩
      · exact m2.trans i1
      · exfalso
        rcases not _ (update_stranger m2) with h | h
        · exact (hq' h).2 x rfl
        · exact m3 h
    · by_contra hne
      obtain ⟨a, h1, h2⟩ := m1 t (i2 t ht) hne
      rcases not _ (Or.inl h2) with h | h
      · exact (hq' h).1 t a h1
      · exact m3 h

/-- **C91.** A DAO that owns the collection can mint any new NFT for anybody. -/
theorem C91_minting {w : World} {b : Block} {dao : Addr} {t : Tok} {a : Addr} (hm : minter w = some dao) (hd : dao ≠ w.self)
    (hd' : dao ≠ w.coll.addr) (ht : owner w t = none) (hs : supply w + 1 < U64) :
    ∃ w' out, sys.step w ⟨b, dao⟩ (.coll (.mint t a)) = .ok (w', out) ∧ owner w' t = some a ∧ supply w' = supply w + 1 ∧
      ∀ q, q ≠ t → owner w' q = owner w q := by
  have h1 : decide (dao ≠ w.self ∧ dao ≠ w.coll.addr) = true := decide_eq_true ⟨hd, hd'⟩
  have h2 : decide (w.coll.tokens.get t = none ∧ w.coll.tokens.length + 1 < U64) = true := decide_eq_true ⟨ht, hs⟩
  refine ⟨{ w with coll := { w.coll with tokens := w.coll.tokens.set t a, approvals := w.coll.approvals.erase t } }, {}, ?_, ?_, ?_, ?_⟩
  · simp only [sys, sysOf, step, h1, require, if_true, ok_bind, collStep, Coll.exec,
      (Ownership.assertOwner_ok (u := ())).2 hm, h2, notify]
  · simp [owner]
  · simp only [supply, AMap.length_set]; rw [if_pos (show w.coll.tokens.get t = none from ht)]
  · intro q hq; exact AMap.get_set_ne _ _ (Ne.symm hq)

/-- **C91.** After a replacement: until the DAO accepts, nobody can mint, the DAO neither, and none of the messages about the
ownership but the DAO's acceptance goes through; the acceptance does, at any time. -/
theorem C91_waiting {b0 b : Block} {w0 w : World} {log : List Event} {self addr : Addr} {d : Option Duration}
    {th : Option Active.ActiveThreshold} {initial : List CollMsg} {dao : Addr} (hds : dao ≠ self) (hda : dao ≠ addr)
    (hsa : self ≠ addr) (h0 : replace b0 dao self addr d th initial = .ok w0) (hr : sys.Run w0 b0 log w b)
    (hq : ∀ e ∈ log, e.call = .coll (.updateOwnership .accept) → e.env.sender ≠ dao) :
    (∀ e t a, ∀ r, sys.step w e (.coll (.mint t a)) ≠ .ok r) ∧
    (∀ e x r, sys.step w e (.coll (.updateOwnership x)) = .ok r → x = .accept ∧ e.sender = dao) ∧
    (∀ t, owner w0 t = none → owner w t = none) ∧
    ∀ b', ∃ w' out, sys.step w ⟨b', dao⟩ (.coll (.updateOwnership .accept)) = .ok (w', out) ∧
      w'.coll.owner = { owner := some dao } := by
  have hi : Init (fun _ _ => True) b0 w0 := ⟨dao, self, addr, d, th, initial, hds, hda, hsa, trivial, Or.inr h0⟩
  obtain ⟨_, _, _, _, hown, hdao⟩ := C91_replaced h0
  obtain ⟨_, hs1, hs2, _, _, _, _⟩ := init_shape hi
  rw [hdao] at hs1 hs2
  have only : ∀ {w : World} {e : Env} {x : OwnerAction} {r : World × NftStaked.Out},
      w.coll.owner = { owner := some w.self, pendingOwner := some dao, pendingExpiry := none } →
      step w e (.coll (.updateOwnership x)) = .ok r → x = .accept ∧ e.sender = dao := by
    intro w e x r ho hs
    obtain ⟨w', out⟩ := r
    obtain ⟨_, h2, h3⟩ := step_mints hs
    simp only [step, bind_ok, collStep_owner] at hs
    obtain ⟨_, _, o, hu, _⟩ := hs
    rw [ho] at hu
    cases x with
    | transfer n ex =>
      simp only [Ownership.update, bind_ok, Ownership.assertOwner_ok, Option.some.injEq] at hu
      obtain ⟨_, hu, _⟩ := hu; exact absurd hu.symm h3
    | accept =>
      simp only [Ownership.update, bind_ok, require_ok, decide_eq_true_eq, Option.some.injEq] at hu
      obtain ⟨_, hu, _⟩ := hu; exact ⟨rfl, hu.symm⟩
    | renounce =>
      simp only [Ownership.update, bind_ok, Ownership.assertOwner_ok, Option.some.injEq] at hu
      obtain ⟨_, hu, _⟩ := hu; exact absurd hu.symm h3
  have nomint : ∀ {w : World} {e : Env} {t a} {r : World × NftStaked.Out},
      w.coll.owner = { owner := some w.self, pendingOwner := some dao, pendingExpiry := none } →
      step w e (.coll (.mint t a)) ≠ .ok r := by
    intro w e t a r ho hs
    obtain ⟨w', out⟩ := r
    obtain ⟨_, _, h3⟩ := step_mints hs
    simp only [step, bind_ok, collStep, Coll.exec, Ownership.assertOwner_ok, ho, Option.some.injEq] at hs
    obtain ⟨_, _, c, ⟨_, h, _⟩, _⟩ := hs
    exact h3 h.symm
  have main : w.coll.owner = { owner := some w.self, pendingOwner := some dao, pendingExpiry := none } ∧
      (∀ t, owner w0 t = none → owner w t = none) ∧ w.self = w0.self ∧ w.coll.addr = w0.coll.addr := by
    induction hr with
    | refl => exact ⟨hown, fun _ h => h, rfl, rfl⟩
    | @step w1 w2 b1 l env call out hr hb hs ih =>
      obtain ⟨i1, i2, i3, i4⟩ := ih (fun e he => hq e (List.mem_cons_of_mem _ he))
      obtain ⟨k1, k2, _⟩ := step_keeps hs
      obtain ⟨m1, m2, m3⟩ := step_mints hs
      refine ⟨?_, ?_, k1.trans i3, k2.trans i4⟩
      · rw [k1]
        rcases m2 with m2 | ⟨x, rfl, m2⟩
        · exact m2.trans i1
        · obtain ⟨rfl, h⟩ := only i1 hs
          exact absurd h (hq _ List.mem_cons_self rfl)
      · intro t ht
        by_contra hne
        obtain ⟨a, rfl, h2⟩ := m1 t (i2 t ht) hne
        exact nomint i1 hs
  obtain ⟨m1, m2, m3, m4⟩ := main
  refine ⟨fun e t a r => nomint m1, fun e x r => only m1, m2, fun b' => ?_⟩
  have h1 : decide (dao ≠ w.self ∧ dao ≠ w.coll.addr) = true := decide_eq_true ⟨by rw [m3]; exact hs1, by rw [m4]; exact hs2⟩
  have h2 : decide (w.coll.owner.pendingOwner = some dao) = true := decide_eq_true (by rw [m1])
  have h3 : (!w.coll.owner.expired b') = true := by rw [m1]; rfl
  refine ⟨{ w with coll := { w.coll with owner := { owner := w.coll.owner.pendingOwner } } }, {}, ?_, by rw [m1]⟩
  simp only [sys, sysOf, step, h1, require, if_true, ok_bind, collStep, Coll.exec, Ownership.update, h2, h3, notify]

end Verif.NftDao
