import Verif.Proofs.Roles
import Verif.Props.ActiveThreshold
/-!
# Role NFTs: C30, C58, C67, C68, C69
-/

namespace Verif.Roles
open Verif Verif.Spec.Roles

/-! ## C30 -/

/-- **C30.** The weights and the total reported for a height are those after the last call below that
height, whatever is called from then on. -/
theorem C30_roles_history {s s' : State} {b b' : Block} {log log' : List Event}
    (h : sys.Reach s b log) (hr : sys.Run s b log' s' b') {x : Nat} (hb : b.height < x)
    (hx : ∀ e ∈ log', x ≤ e.env.block.height) (a : Addr) :
    memberAt s' a x = memberNow s a ∧ totalAt s' x = totalNow s := by
  unfold memberAt memberNow totalAt totalNow
  rw [snapshotted.1.current h hr hb hx a, snapshotted.2.current h hr hb hx ()]
  exact ⟨rfl, rfl⟩

/-- **C30.** What is reported for a height does not change through calls at or above that height. -/
theorem C30_roles_stable {s s' : State} {b b' : Block} {log log' : List Event}
    (h : sys.Reach s b log) (hr : sys.Run s b log' s' b') {x : Nat}
    (hx : ∀ e ∈ log', x ≤ e.env.block.height) (a : Addr) :
    memberAt s' a x = memberAt s a x ∧ totalAt s' x = totalAt s x := by
  unfold memberAt totalAt
  rw [snapshotted.1.stable h hr hx a, snapshotted.2.stable h hr hx ()]
  exact ⟨rfl, rfl⟩

/-! ## C58 -/

/-- **C58.** In every reachable state the total weight is the sum of the weights of all members, and the sum
of the weights of all tokens. -/
theorem C58_total {s : State} {b : Block} {log : List Event} (h : sys.Reach s b log) :
    totalNow s = allMembers s ∧ totalNow s = allTokens s := by
  have hi := inv_reach h
  have : totalNow s = allMembers s := by unfold totalNow; rw [hi.tot]; rfl
  exact ⟨this, this.trans hi.eq⟩

/-- **C58.** At every height the total weight is the sum of the weights of all addresses: over any list of
addresses without repetition that has everybody with weight. -/
theorem C58_total_at_height {s : State} {b : Block} {log : List Event} (h : sys.Reach s b log) (x : Nat)
    {L : List Addr} (hL : L.Nodup) (hc : ∀ a, a ∉ L → (memberAt s a x).getD 0 = 0) :
    totalAt s x = (L.map (fun a => (memberAt s a x).getD 0)).sum := by
  obtain ⟨w1, b1, l1, l2, rfl, h1, hr, hx, hb⟩ := h.split x
  rcases hb with hb | ⟨rfl, hi⟩
  · have e := C30_roles_history h1 hr hb hx
    have ht := (C58_total h1).1
    have hi := inv_reach h1
    rw [(e 0).2, ht, allMembers_eq, ← total_eq_sum hi.wfM hL
      (fun a ha => by have := hc a ha; rw [(e a).1] at this; exact this)]
    congr 1
    apply List.map_congr_left
    intro a _; rw [(e a).1]; rfl
  · have e := fun a => C30_roles_stable h1 hr hx a
    obtain ⟨m, rfl⟩ := hi
    have z : ∀ a, memberAt (instantiate b1 m) a x = none := fun a => rfl
    rw [(e 0).2]
    have z' : totalAt (instantiate b1 m) x = 0 := by
      unfold totalAt instantiate
      by_cases hle : x ≤ b1.height
      · rw [Snap.atHeight_save (Snap.upTo_empty _) hle]; rfl
      · rw [Snap.atHeight_future (Snap.upTo_save (Snap.upTo_empty b1.height) (Nat.le_refl _)) (by omega),
          Snap.get_save]; rfl
    rw [z']
    symm
    apply List.sum_eq_zero
    intro n hn
    obtain ⟨a, _, rfl⟩ := List.mem_map.1 hn
    rw [(e a).1, z]; rfl

/-- **C58.** In every history, the weight of an address is that of the tokens it owns, plus the weight that
tokens had when they were moved away from it, minus the weight that tokens had when they were moved to it. -/
theorem C58_member {s : State} {b : Block} {log : List Event} (h : sys.Reach s b log) (a : Addr) :
    weight s a + (log.map (received a)).sum = owned s a + (log.map (givenAway a)).sum :=
  flow_reach h a

theorem stays_sums {log : List Event} (hs : ∀ e ∈ log, Stays e) (a : Addr) :
    (log.map (received a)).sum = (log.map (givenAway a)).sum := by
  congr 1
  apply List.map_congr_left
  intro e he
  unfold received givenAway
  cases hm : moves e with
  | none => rfl
  | some p =>
    obtain ⟨t, dst⟩ := p
    simp only
    cases ht : e.pre.tokens.get t with
    | none => rfl
    | some tok => simp only [hs e he t dst hm tok ht]

/-- **C58**, for histories in which no token is moved into other hands: the weight of a member is the sum of
the weights of the tokens it owns. With transfers this is false of the code: `C58_transfer_keeps_weight`,
`C58_transfer_witness`. -/
theorem C58_member_partial {s : State} {b : Block} {log : List Event} (h : sys.Reach s b log)
    (hs : ∀ e ∈ log, Stays e) (a : Addr) : weight s a = owned s a := by
  have := C58_member h a
  rw [stays_sums hs a] at this
  omega

/-- **C58**, why not with transfers: moving a token changes nobody's weight. -/
theorem C58_transfer_keeps_weight {s : State} {b : Block} {log : List Event} (h : sys.Reach s b log)
    {e : Event} (he : e ∈ log) (hm : (moves e).isSome) (a : Addr) :
    memberNow e.post a = memberNow e.pre a ∧ totalNow e.post = totalNow e.pre := by
  obtain ⟨_, _, _, hr⟩ := h
  obtain ⟨_, _, _, _, _, _, hs, _⟩ := hr.event e he
  obtain ⟨p, env, call, out, q⟩ := e
  have hd := exec_does hs
  simp only at hd
  cases hd with
  | transfer => exact ⟨rfl, rfl⟩
  | send => exact ⟨rfl, rfl⟩
  | _ => simp [moves] at hm

/-- The number of tokens is counted right. -/
theorem C58_count {s : State} {b : Block} {log : List Event} (h : sys.Reach s b log) :
    s.count = s.tokens.length := (inv_reach h).count

/-! ## C67 -/

/-- **C67.** Every message that succeeds comes from the owner. -/
theorem C67_only_owner {s : State} {b : Block} {log : List Event} (h : sys.Reach s b log) {e : Event}
    (he : e ∈ log) : e.pre.ownership.owner = some e.env.sender := by
  obtain ⟨_, _, _, hr⟩ := h
  obtain ⟨_, _, _, _, _, _, hs, _⟩ := hr.event e he
  exact exec_owner hs

/-- **C67**, where the code falls short: nobody but the instantiated minter ever is the owner, because a named
successor cannot accept: it is not the owner yet. -/
theorem C67_never_handed_over {s : State} {b b0 : Block} {log : List Event} {minter : Addr}
    (h : sys.Run (instantiate b0 minter) b0 log s b) :
    s.ownership.owner = some minter ∨ s.ownership.owner = none := by
  generalize hs : instantiate b0 minter = s0 at h
  induction h with
  | refl => subst hs; exact Or.inl rfl
  | step hr hb hstep ih =>
    rcases exec_ownership hstep with h | h
    · rw [h]; exact ih
    · exact Or.inr h

/-- **C67**, the refusal itself: whoever is named as the next owner, its acceptance fails. -/
theorem C67_accept_refused (s : State) (b : Block) (a : Addr) (ha : s.ownership.owner ≠ some a) :
    exec s b a (.updateOwnership .accept) = .error .unauthorized := by
  simp [exec, Ownership.assertOwner, require, ha]

/-! ## C68 -/

/-- **C68.** A step changes the weight of nobody but the owner of the token it mints, burns or reweighs. -/
theorem C68_others {s : State} {b : Block} {log : List Event} (h : sys.Reach s b log) {e : Event}
    (he : e ∈ log) {a : Addr} (ha : concerns e ≠ some a) : memberNow e.post a = memberNow e.pre a := by
  obtain ⟨_, _, _, hr⟩ := h
  obtain ⟨_, _, _, _, _, _, hs, _⟩ := hr.event e he
  obtain ⟨p, env, call, out, q⟩ := e
  have hd := exec_does hs
  simp only at hd
  unfold memberNow
  cases hd with
  | mint =>
    simp only [concerns, ne_eq, Option.some.injEq] at ha
    simp only [Snap.get_save, if_neg ha]
  | burn ht =>
    simp only [concerns, ht, Option.map_some, ne_eq, Option.some.injEq] at ha
    simp only [setMember]
    split
    · simp only [Snap.get_remove, if_neg ha]
    · simp only [Snap.get_save, if_neg ha]
  | raise ht =>
    simp only [concerns, ht, Option.map_some, ne_eq, Option.some.injEq] at ha
    simp only [Snap.get_save, if_neg ha]
  | lower ht =>
    simp only [concerns, ht, Option.map_some, ne_eq, Option.some.injEq] at ha
    simp only [Snap.get_save, if_neg ha]
  | _ => rfl

/-- What every registered listener should hear of a step. -/
def truth (e : Event) : List HookMsg :=
  match concerns e with
  | some a => (Hooks.items e.pre.hooks).map (fun r => ⟨r, a, memberNow e.pre a, memberNow e.post a⟩)
  | none => []

/-- **C68**, for all steps but those that lower a token's weight: every registered listener is told who is
concerned, and the weight before and after; nobody is told anything when no weight can change. -/
theorem C68_hooks_partial {s : State} {b : Block} {log : List Event} (h : sys.Reach s b log) {e : Event}
    (he : e ∈ log) (hl : ¬ Lowers e) : e.out.hooks = truth e := by
  obtain ⟨_, _, _, hr⟩ := h
  obtain ⟨_, _, _, _, _, _, hs, _⟩ := hr.event e he
  obtain ⟨p, env, call, out, q⟩ := e
  have hd := exec_does hs
  simp only at hd
  unfold truth
  cases hd with
  | mint hT hTw hn hfree hc hc' =>
    simp only [concerns, announce, prepareHooks_eq, memberNow, Snap.get_save, if_true]
  | burn ht hT ho hle hle' hc =>
    simp only [concerns, ht, Option.map_some, announce, prepareHooks_eq, memberNow, ho, setMember, leftOver]
    split
    · simp only [Snap.get_remove, if_true]
    · simp only [Snap.get_save, if_true]
  | raise ht hT hlt hTw hn =>
    simp only [concerns, ht, Option.map_some, announce, prepareHooks_eq, memberNow, Snap.get_save, if_true]
  | lower ht hT hlt hle hle' => exact absurd ⟨_, _, _, rfl, ht, hlt⟩ hl
  | _ => rfl

/-- **C68**, where the code falls short: when the weight of a token is lowered, its owner loses weight, and
every listener is told of no weight before and no weight after. -/
theorem C68_lowered {s : State} {b : Block} {log : List Event} (h : sys.Reach s b log) {e : Event}
    (he : e ∈ log) (hl : Lowers e) : ∃ a, concerns e = some a ∧ weight e.post a < weight e.pre a ∧
      e.out.hooks = (Hooks.items e.pre.hooks).map (fun r => ⟨r, a, none, none⟩) := by
  obtain ⟨_, _, _, hr⟩ := h
  obtain ⟨_, _, _, _, _, _, hs, _⟩ := hr.event e he
  obtain ⟨p, env, call, out, q⟩ := e
  obtain ⟨t, w, tok, hcall, htok, hlt⟩ := hl
  simp only at hcall htok
  subst hcall
  have hd := exec_does hs
  simp only at hd
  cases hd with
  | raise ht hT hlt' hTw hn => rw [htok] at ht; cases ht; omega
  | lower ht hT hlt' hle hle' =>
    rw [htok] at ht; cases ht
    refine ⟨tok.owner, by simp only [concerns, htok, Option.map_some], ?_, ?_⟩
    · simp only [weight, memberNow, Snap.get_save, if_true, Option.getD_some]; omega
    · simp only [announce, prepareHooks_eq]

/-! ## C69 -/

/-- **C69.** The owner can give a fresh token to anybody exactly as long as the total weight and the number
of tokens fit in 64 bits. -/
theorem C69_mint_iff {s : State} {b : Block} {log : List Event} (h : sys.Reach s b log) {o : Addr}
    (ho : s.ownership.owner = some o) (b' : Block) (t : Nat) (a : Addr) (u r : Option Nat) (w : Nat) :
    (∃ x, exec s b' o (.mint t a u r w) = .ok x) ↔
      s.tokens.get t = none ∧ totalNow s + w < U64 ∧ s.count + 1 < U64 := by
  have hi := inv_reach h
  have hT := (C58_total h).1
  have hle : (s.members.get a).getD 0 ≤ allMembers s := getD0_le_total s.members.cur a
  constructor
  · rintro ⟨⟨s', out⟩, hx⟩
    have hd := exec_does hx
    cases hd with
    | mint hT' hTw hn hfree hc hc' =>
      rw [hi.tot, Option.some.injEq] at hT'
      exact ⟨hfree, by omega, hc'⟩
  · rintro ⟨h1, h2, h3⟩
    simp only [exec, dispatch, execMint, bind_ok, Ownership.assertOwner_ok, require_ok, orErr_ok, add64_ok,
      decide_eq_true_eq]
    exact ⟨_, (), ho, _, hi.tot, _, ⟨by omega, rfl⟩, _, ⟨by omega, rfl⟩, (), h1, _, ⟨h3, rfl⟩, rfl⟩

/-- **C69.** The owner can burn a token exactly if the holder is recorded with at least its weight. -/
theorem C69_burn_iff {s : State} {b : Block} {log : List Event} (h : sys.Reach s b log) {o : Addr}
    (ho : s.ownership.owner = some o) (b' : Block) {t : Nat} {tok : Token} (ht : s.tokens.get t = some tok) :
    (∃ x, exec s b' o (.burn t) = .ok x) ↔ ∃ w, memberNow s tok.owner = some w ∧ tok.weight ≤ w := by
  have hi := inv_reach h
  constructor
  · rintro ⟨⟨s', out⟩, hx⟩
    have hd := exec_does hx
    cases hd with
    | burn ht' hT hm hle hle' hc =>
      rw [ht] at ht'; cases ht'
      exact ⟨_, hm, hle⟩
  · rintro ⟨w, h1, h2⟩
    have hle : (s.members.get tok.owner).getD 0 ≤ allMembers s := getD0_le_total s.members.cur tok.owner
    have h1' : s.members.get tok.owner = some w := h1
    rw [h1', Option.getD_some] at hle
    have hc : 1 ≤ s.count := by
      rw [hi.count]
      exact List.length_pos_of_mem (AMap.mem_of_get ht)
    simp only [exec, dispatch, execBurn, bind_ok, Ownership.assertOwner_ok, require_ok, orErr_ok,
      decide_eq_true_eq]
    exact ⟨_, (), ho, _, ht, _, hi.tot, _, h1', (), h2, (), Nat.le_trans h2 hle, (), hc, rfl⟩

/-- **C69.** The owner can change the weight of a token to a higher one exactly as long as the total fits in
64 bits, and to a lower one exactly if the holder is recorded with at least the difference. -/
theorem C69_weight_iff {s : State} {b : Block} {log : List Event} (h : sys.Reach s b log) {o : Addr}
    (ho : s.ownership.owner = some o) (b' : Block) {t : Nat} {tok : Token} (ht : s.tokens.get t = some tok)
    (w : Nat) :
    (∃ x, exec s b' o (.updateTokenWeight t w) = .ok x) ↔
      (tok.weight < w ∧ totalNow s + (w - tok.weight) < U64) ∨
      (w < tok.weight ∧ tok.weight - w ≤ weight s tok.owner) := by
  have hi := inv_reach h
  have hT := (C58_total h).1
  have hle : (s.members.get tok.owner).getD 0 ≤ allMembers s := getD0_le_total s.members.cur tok.owner
  constructor
  · rintro ⟨⟨s', out⟩, hx⟩
    have hd := exec_does hx
    cases hd with
    | raise ht' hT' hlt hTw hn =>
      rw [ht] at ht'; cases ht'
      rw [hi.tot, Option.some.injEq] at hT'
      exact Or.inl ⟨hlt, by omega⟩
    | lower ht' hT' hlt hm hle' =>
      rw [ht] at ht'; cases ht'
      exact Or.inr ⟨hlt, hm⟩
  · intro hc
    simp only [exec, dispatch, execWeight, bind_ok, Ownership.assertOwner_ok, orErr_ok]
    have hr : ∃ r, reweigh (allMembers s) (s.members.get tok.owner) tok.weight w = .ok r := by
      rcases hc with ⟨h1, h2⟩ | ⟨h1, h2⟩
      · rw [reweigh, if_neg (by omega), if_pos h1]
        simp only [bind_ok, add64_ok]
        exact ⟨_, _, ⟨by omega, rfl⟩, _, ⟨by omega, rfl⟩, rfl⟩
      · have h2' : tok.weight - w ≤ (s.members.get tok.owner).getD 0 := h2
        rw [reweigh, if_neg (by omega), if_neg (by omega)]
        simp only [bind_ok, require_ok, decide_eq_true_eq]
        exact ⟨_, (), h2', (), Nat.le_trans h2' hle, rfl⟩
    obtain ⟨r, hr⟩ := hr
    exact ⟨_, (), ho, _, ht, _, hi.tot, r, hr, rfl⟩

/-- **C69**, for histories in which no token is moved into other hands: every token with a weight can be burnt
by the owner, and its weight can be lowered at will. Without that, or for tokens without weight, it is false
of the code: `C69_moved_witness`, `C69_weightless_witness`. -/
theorem C69_revocable_partial {s : State} {b : Block} {log : List Event} (h : sys.Reach s b log)
    (hs : ∀ e ∈ log, Stays e) {o : Addr} (ho : s.ownership.owner = some o) (b' : Block) {t : Nat}
    {tok : Token} (ht : s.tokens.get t = some tok) (hw : 0 < tok.weight) :
    (∃ x, exec s b' o (.burn t) = .ok x) ∧
      ∀ w, w < tok.weight → ∃ x, exec s b' o (.updateTokenWeight t w) = .ok x := by
  have he := C58_member_partial h hs tok.owner
  have hle : tok.weight ≤ owned s tok.owner := by
    rw [owned_eq]
    have := AMap.at_le_sum (fun (_ : Nat) (x : Token) => if x.owner = tok.owner then x.weight else 0) s.tokens t
    simpa [AMap.at?, ht] using this
  constructor
  · rw [C69_burn_iff h ho b' ht]
    unfold weight at he
    cases hm : memberNow s tok.owner with
    | none => rw [hm, Option.getD_none] at he; omega
    | some w => rw [hm, Option.getD_some] at he; exact ⟨w, rfl, by omega⟩
  · intro w hlt
    rw [C69_weight_iff h ho b' ht w]
    exact Or.inr ⟨hlt, by omega⟩

/-- **C69.** Every step does to the tokens what its message says, and nothing else. -/
theorem C69_effect {s : State} {b : Block} {log : List Event} (h : sys.Reach s b log) {e : Event}
    (he : e ∈ log) (t : Nat) : e.post.tokens.get t = tokenAfter e t := by
  obtain ⟨_, _, _, hr⟩ := h
  obtain ⟨_, _, _, _, _, _, hs, _⟩ := hr.event e he
  obtain ⟨p, env, call, out, q⟩ := e
  have hd := exec_does hs
  simp only at hd
  unfold tokenAfter
  have key : ∀ {x : Nat} {tok : Token} (f : Token → Token), p.tokens.get x = some tok →
      AMap.get (p.tokens.set x (f tok)) t = (p.tokens.get t).map (fun k => if x = t then f k else k) := by
    intro x tok f hx
    rw [AMap.get_set]
    by_cases hxt : x = t
    · subst hxt; simp [hx]
    · simp [hxt]
  cases hd with
  | mint => simp only [AMap.get_set]
  | burn => simp only [AMap.get_erase]
  | raise ht => exact key (fun k => { k with weight := _ }) ht
  | lower ht => exact key (fun k => { k with weight := _ }) ht
  | transfer ht => exact key (fun k => { k with owner := _ }) ht
  | send ht => exact key (fun k => { k with owner := _ }) ht
  | role ht => exact key (fun k => { k with role := _ }) ht
  | uri ht => exact key (fun k => { k with uri := _ }) ht
  | _ => rfl

/-! ## The voting module -/

namespace Voting

theorem sysExisting_snapshotted : sysExisting.Snapshotted (fun w => w.roles.members) ∧
    sysExisting.Snapshotted (fun w => w.roles.total) := by
  have hs : ∀ {w w' : World} {e : Env} {c : Call} {out : Out}, step w e c = .ok (w', out) →
      Snap.Writes e.block.height w.roles.members w'.roles.members ∧
      Snap.Writes e.block.height w.roles.total w'.roles.total := by
    intro w w' e c out h
    cases c with
    | voting => simp [step] at h
    | roles m =>
      simp only [step, bind_ok, Except.ok.injEq, Prod.mk.injEq] at h
      obtain ⟨_, _, ⟨s', o⟩, hx, rfl, rfl⟩ := h
      exact does_writes (exec_does hx)
  constructor
  · constructor
    · rintro b w ⟨log, hr⟩; exact snapshotted.1.upTo hr
    · intro s env call s' out h; exact (hs h).1
  · constructor
    · rintro b w ⟨log, hr⟩; exact snapshotted.2.upTo hr
    · intro s env call s' out h; exact (hs h).2

/-- **C30.** The voting powers and the total that the voting module reports for a height are those after the
last call below that height, whatever is called from then on. -/
theorem C30_roles_voting_history {w w' : World} {b b' : Block} {log log' : List (Ev World Env Call Out)}
    (h : sysExisting.Reach w b log) (hr : sysExisting.Run w b log' w' b') {x : Nat} (hb : b.height < x)
    (hx : ∀ e ∈ log', x ≤ e.env.block.height) (a : Addr) :
    power w' a (some x) = power w a none ∧ totalPower w' (some x) = totalPower w none := by
  unfold power totalPower memberAt memberNow totalAt totalNow
  simp only
  rw [sysExisting_snapshotted.1.current h hr hb hx a, sysExisting_snapshotted.2.current h hr hb hx ()]
  exact ⟨rfl, rfl⟩

/-- **C30.** What the voting module reports for a height does not change through calls at or above it. -/
theorem C30_roles_voting_stable {w w' : World} {b b' : Block} {log log' : List (Ev World Env Call Out)}
    (h : sysExisting.Reach w b log) (hr : sysExisting.Run w b log' w' b') {x : Nat}
    (hx : ∀ e ∈ log', x ≤ e.env.block.height) (a : Addr) :
    power w' a (some x) = power w a (some x) ∧ totalPower w' (some x) = totalPower w (some x) := by
  unfold power totalPower memberAt totalAt
  simp only
  rw [sysExisting_snapshotted.1.stable h hr hx a, sysExisting_snapshotted.2.stable h hr hx ()]
  exact ⟨rfl, rfl⟩

theorem mintAll_run {s s' : State} {b : Block} {self : Addr} {l : List Initial}
    (h : mintAll s b self l = .ok s') :
    (∃ log, Roles.sys.Run s b log s' b ∧ ∀ e ∈ log, moves e = none) ∧ s'.ownership = s.ownership ∧
    allTokens s' = allTokens s + (l.map (·.weight)).sum ∧
    ∀ a, owned s' a = owned s a + (l.map (fun i => if i.owner = a then i.weight else 0)).sum := by
  induction l generalizing s with
  | nil => simp only [mintAll, Except.ok.injEq] at h; subst h; exact ⟨⟨[], .refl, by simp⟩, rfl, by simp, by simp⟩
  | cons i l ih =>
    simp only [mintAll, bind_ok] at h
    obtain ⟨⟨s1, out⟩, hx, h⟩ := h
    obtain ⟨⟨log, hr, hm⟩, h2, h3, h4⟩ := ih h
    have hd := exec_does hx
    have hstep : Roles.sys.step s ⟨b, self⟩ (.mint i.token i.owner i.uri i.role i.weight) = .ok (s1, out) := hx
    have hrun := Sys.Run.append (.step .refl (Block.le_refl b) hstep) hr
    cases hd with
    | mint hT hTw hn hfree hc hc' =>
      refine ⟨⟨_, hrun, ?_⟩, h2, ?_, ?_⟩
      · intro e he
        rcases List.mem_append.1 he with he | he
        · exact hm e he
        · rcases List.mem_cons.1 he with rfl | he
          · rfl
          · cases he
      · have h1 := AMap.sum_set (fun (_ : Nat) (t : Token) => t.weight) s.tokens i.token
          ⟨i.owner, i.uri, i.role, i.weight⟩
        simp only [AMap.at?, hfree] at h1
        rw [h3]
        simp only [allTokens_eq, List.map_cons, List.sum_cons]
        omega
      · intro a
        have h1 := AMap.sum_set (fun (_ : Nat) (t : Token) => if t.owner = a then t.weight else 0) s.tokens i.token
          ⟨i.owner, i.uri, i.role, i.weight⟩
        simp only [AMap.at?, hfree] at h1
        rw [h4 a]
        simp only [owned_eq, List.map_cons, List.sum_cons]
        omega

theorem instantiateNew_run {b : Block} {dao self nft : Addr} {l : List Initial} {w : World}
    (h : instantiateNew b dao self nft l = .ok w) :
    (∃ log, Roles.sys.Reach w.roles b log ∧ ∀ e ∈ log, moves e = none) ∧ w.self = self ∧
    w.roles.ownership = { owner := some self, pendingOwner := some dao } ∧
    allTokens w.roles = (l.map (·.weight)).sum ∧
    ∀ a, owned w.roles a = (l.map (fun i => if i.owner = a then i.weight else 0)).sum := by
  simp only [instantiateNew, bind_ok, require_ok] at h
  obtain ⟨_, _, ⟨s1, out⟩, hx, s2, hm, h⟩ := h
  simp only [Except.ok.injEq] at h
  subst h
  obtain ⟨⟨log, hr, hmv⟩, ho, ht, hw⟩ := mintAll_run hm
  have hstep : Roles.sys.step (instantiate b self) ⟨b, self⟩ (.updateOwnership (.transfer dao none)) = .ok (s1, out) :=
    hx
  have hrun := Sys.Run.append (.step .refl (Block.le_refl b) hstep) hr
  simp only [exec, dispatch, bind_ok, Except.ok.injEq, Prod.mk.injEq, Ownership.update] at hx
  obtain ⟨_, _, o, ⟨_, _, rfl⟩, rfl, rfl⟩ := hx
  refine ⟨⟨_, ⟨b, _, ⟨self, rfl⟩, hrun⟩, ?_⟩, rfl, ?_, ?_, ?_⟩
  · intro e he
    rcases List.mem_append.1 he with he | he
    · exact hmv e he
    · rcases List.mem_cons.1 he with rfl | he
      · rfl
      · cases he
  · simp only [ho]; rfl
  · simp only [ht]; simp [allTokens, instantiate]
  · intro a; simp only [hw]; simp [owned, instantiate]

/-- **C67**, the consequence: a role contract that a voting module creates for its DAO obeys nobody. Its owner
is the voting module, which never sends a message; every call by anybody, the DAO included, fails. -/
theorem C67_created_frozen {w : World} {b : Block} {log : List (Ev World Env Call Out)}
    (h : sysNew.Reach w b log) :
    log = [] ∧ w.roles.ownership.owner = some w.self ∧
      ∀ (e : Env) (c : Call), ∃ err, step w e c = .error err := by
  have key : ∀ w : World, w.roles.ownership.owner = some w.self →
      ∀ (e : Env) (c : Call), ∃ err, step w e c = .error err := by
    intro w ho e c
    cases c with
    | voting => exact ⟨_, rfl⟩
    | roles m =>
      by_cases hs : e.sender = w.self
      · exact ⟨.unauthorized, by simp [step, require, hs]⟩
      · refine ⟨.unauthorized, ?_⟩
        have : w.roles.ownership.owner ≠ some e.sender := by rw [ho]; simpa using fun h => hs h.symm
        simp [step, exec, Ownership.assertOwner, require, hs, this]
  obtain ⟨b0, w0, ⟨dao, self, nft, l, hi⟩, hr⟩ := h
  obtain ⟨_, h1, h2, _⟩ := instantiateNew_run hi
  have h0 : w0.roles.ownership.owner = some w0.self := by rw [h2, h1]
  have hlog : log = [] ∧ w = w0 := by
    induction hr with
    | refl => exact ⟨rfl, rfl⟩
    | step hr hb hs ih =>
      rename_i env call _
      rw [(ih).2] at hs
      obtain ⟨err, he⟩ := key w0 h0 env call
      have hs' : step w0 env call = .ok _ := hs
      rw [he] at hs'; cases hs'
  obtain ⟨rfl, rfl⟩ := hlog
  exact ⟨rfl, h0, key _ h0⟩

/-- **C58, C67.** In a DAO with a role contract created by its voting module everybody's power is the weight
of the initial tokens given to it, and the total is the weight of all of them. -/
theorem C58_created {b : Block} {dao self nft : Addr} {l : List Initial} {w : World}
    (h : instantiateNew b dao self nft l = .ok w) :
    (∀ a, power w a none = (l.map (fun i => if i.owner = a then i.weight else 0)).sum) ∧
    totalPower w none = (l.map (·.weight)).sum := by
  obtain ⟨⟨log, hr, hm⟩, _, _, ht, hw⟩ := instantiateNew_run h
  constructor
  · intro a
    have := C58_member_partial hr (fun e he t x hx => by rw [hm e he] at hx; cases hx) a
    rw [← hw a]; exact this
  · exact (C58_total hr).2.trans ht

/-- A case: two tokens for member 5, one for member 6. -/
example : ∃ w, instantiateNew ⟨10, 100⟩ 1 2 3 [⟨1, 5, none, none, 4⟩, ⟨2, 5, none, none, 3⟩, ⟨3, 6, none, none, 9⟩] =
    .ok w ∧ power w 5 none = 7 ∧ totalPower w none = 16 ∧ w.roles.ownership.pendingOwner = some 1 := by
  have : (match instantiateNew ⟨10, 100⟩ 1 2 3
      [⟨1, 5, none, none, 4⟩, ⟨2, 5, none, none, 3⟩, ⟨3, 6, none, none, 9⟩] with
    | .ok w => decide (power w 5 none = 7 ∧ totalPower w none = 16 ∧ w.roles.ownership.pendingOwner = some 1)
    | .error _ => false) = true := by decide +kernel
  split at this
  · rename_i w hw; exact ⟨w, hw, of_decide_eq_true this⟩
  · cases this

end Voting

/-! ## Cases -/

/-- A history without moves into other hands: two members, a listener, a raise, a lowering and a burn. -/
def history : List (Env × Msg) :=
  [(⟨⟨11, 110⟩, 1⟩, .addHook 90), (⟨⟨12, 120⟩, 1⟩, .mint 1 5 none none 4),
   (⟨⟨12, 120⟩, 1⟩, .mint 2 5 none (some 8) 3), (⟨⟨13, 130⟩, 1⟩, .mint 3 6 none none 9),
   (⟨⟨14, 140⟩, 1⟩, .transferNft 5 2), (⟨⟨15, 150⟩, 1⟩, .updateTokenWeight 1 6),
   (⟨⟨16, 160⟩, 1⟩, .burn 3), (⟨⟨17, 170⟩, 1⟩, .updateTokenRole 2 none)]

/-- A case for the theorems about histories without moves. -/
theorem C58_example : ∃ s b log, sys.Reach s b log ∧ (∀ e ∈ log, Stays e) ∧ log.length = 8 ∧
    weight s 5 = 9 ∧ weight s 6 = 0 ∧ totalNow s = 9 ∧ totalAt s 16 = 18 ∧ totalAt s 17 = 9 ∧
    (log.map (fun e => e.out.hooks)).flatten =
      [⟨90, 6, some 9, none⟩, ⟨90, 5, some 7, some 9⟩, ⟨90, 6, none, some 9⟩, ⟨90, 5, some 4, some 7⟩,
       ⟨90, 5, none, some 4⟩] := by
  obtain ⟨w, b, log, hr, hp⟩ := Sys.check_run (M := sys) (s := instantiate ⟨10, 100⟩ 1) (b := ⟨10, 100⟩)
    (cs := history) (p := fun s _ log => decide ((∀ e ∈ log, (moves e).bind (fun p => (e.pre.tokens.get p.1).map (·.owner)) =
        (moves e).map (fun p => p.2)) ∧ log.length = 8 ∧
      weight s 5 = 9 ∧ weight s 6 = 0 ∧ totalNow s = 9 ∧ totalAt s 16 = 18 ∧ totalAt s 17 = 9 ∧
      (log.map (fun e => e.out.hooks)).flatten =
      [⟨90, 6, some 9, none⟩, ⟨90, 5, some 7, some 9⟩, ⟨90, 6, none, some 9⟩, ⟨90, 5, some 4, some 7⟩,
       ⟨90, 5, none, some 4⟩])) (by decide +kernel)
  obtain ⟨h1, h2⟩ := of_decide_eq_true hp
  refine ⟨w, b, log, ⟨_, _, ⟨1, rfl⟩, hr⟩, ?_, h2⟩
  intro e he t dst hm tok ht
  have := h1 e he
  rw [hm] at this
  simp only [Option.bind_some, ht, Option.map_some, Option.some.injEq] at this
  exact this

/-- **C58**, a transfer breaks it: member 5 keeps the weight of a token that member 6 owns now. -/
theorem C58_transfer_witness : ∃ s b log, sys.Reach s b log ∧
    weight s 5 = 4 ∧ owned s 5 = 0 ∧ weight s 6 = 0 ∧ owned s 6 = 4 := by
  obtain ⟨w, b, log, hr, hp⟩ := Sys.check_run (M := sys) (s := instantiate ⟨10, 100⟩ 1) (b := ⟨10, 100⟩)
    (cs := [(⟨⟨12, 120⟩, 1⟩, .mint 1 5 none none 4), (⟨⟨13, 130⟩, 1⟩, .transferNft 6 1)])
    (p := fun s _ _ => decide (weight s 5 = 4 ∧ owned s 5 = 0 ∧ weight s 6 = 0 ∧ owned s 6 = 4))
    (by decide +kernel)
  exact ⟨w, b, log, ⟨_, _, ⟨1, rfl⟩, hr⟩, of_decide_eq_true hp⟩

/-- **C69**, a token moved into other hands can no longer be burnt. -/
theorem C69_moved_witness : ∃ s b log, sys.Reach s b log ∧ s.ownership.owner = some 1 ∧
    s.tokens.get 1 = some { owner := 6, weight := 4 } ∧ ∀ b', ¬ ∃ x, exec s b' 1 (.burn 1) = .ok x := by
  obtain ⟨s, b, log, hr, hp⟩ := Sys.check_run (M := sys) (s := instantiate ⟨10, 100⟩ 1) (b := ⟨10, 100⟩)
    (cs := [(⟨⟨12, 120⟩, 1⟩, .mint 1 5 none none 4), (⟨⟨13, 130⟩, 1⟩, .transferNft 6 1)])
    (p := fun s _ _ => decide (s.ownership.owner = some 1 ∧
      s.tokens.get 1 = some { owner := 6, weight := 4 } ∧ memberNow s 6 = none))
    (by decide +kernel)
  obtain ⟨h1, h2, h3⟩ := of_decide_eq_true hp
  have hreach : sys.Reach s b log := ⟨_, _, ⟨1, rfl⟩, hr⟩
  refine ⟨s, b, log, hreach, h1, h2, fun b' => ?_⟩
  rw [C69_burn_iff hreach h1 b' h2, h3]
  simp

/-- **C69**, of two tokens without weight only one can be burnt. -/
theorem C69_weightless_witness : ∃ s b log, sys.Reach s b log ∧ s.ownership.owner = some 1 ∧
    (∀ e ∈ log, moves e = none) ∧ s.tokens.get 2 = some { owner := 5, weight := 0 } ∧
    ∀ b', ¬ ∃ x, exec s b' 1 (.burn 2) = .ok x := by
  obtain ⟨s, b, log, hr, hp⟩ := Sys.check_run (M := sys) (s := instantiate ⟨10, 100⟩ 1) (b := ⟨10, 100⟩)
    (cs := [(⟨⟨12, 120⟩, 1⟩, .mint 1 5 none none 0), (⟨⟨12, 120⟩, 1⟩, .mint 2 5 none none 0),
      (⟨⟨13, 130⟩, 1⟩, .burn 1)])
    (p := fun s _ log => decide (s.ownership.owner = some 1 ∧ (∀ e ∈ log, moves e = none) ∧
      s.tokens.get 2 = some { owner := 5, weight := 0 } ∧ memberNow s 5 = none))
    (by decide +kernel)
  obtain ⟨h1, h4, h2, h3⟩ := of_decide_eq_true hp
  have hreach : sys.Reach s b log := ⟨_, _, ⟨1, rfl⟩, hr⟩
  refine ⟨s, b, log, hreach, h1, h4, h2, fun b' => ?_⟩
  rw [C69_burn_iff hreach h1 b' h2, h3]
  simp

/-- **C68**, a case of a lowering: the member falls from 4 to 1 and the listener hears nothing of it. -/
theorem C68_lowered_witness : ∃ s b log, ∃ e : Event, sys.Reach s b log ∧ e ∈ log ∧ Lowers e ∧
    memberNow e.pre 5 = some 4 ∧ memberNow e.post 5 = some 1 ∧ e.out.hooks = [⟨90, 5, none, none⟩] := by
  obtain ⟨s, b, log, hr, hp⟩ := Sys.check_run (M := sys) (s := instantiate ⟨10, 100⟩ 1) (b := ⟨10, 100⟩)
    (cs := [(⟨⟨11, 110⟩, 1⟩, .addHook 90), (⟨⟨12, 120⟩, 1⟩, .mint 1 5 none none 4),
      (⟨⟨13, 130⟩, 1⟩, .updateTokenWeight 1 1)])
    (p := fun s _ log => decide (∃ e ∈ log, e.call = .updateTokenWeight 1 1 ∧
      e.pre.tokens.get 1 = some { owner := 5, weight := 4 } ∧
      memberNow e.pre 5 = some 4 ∧ memberNow e.post 5 = some 1 ∧ e.out.hooks = [⟨90, 5, none, none⟩]))
    (by decide +kernel)
  obtain ⟨e, he, h1, h2, h3⟩ := of_decide_eq_true hp
  exact ⟨s, b, log, e, ⟨_, _, ⟨1, rfl⟩, hr⟩, he, ⟨1, 1, _, h1, h2, by decide⟩, h3⟩

/-- **C67**, a case: the owner names a successor, whose acceptance fails. -/
theorem C67_witness : ∃ s b log, sys.Reach s b log ∧ s.ownership.owner = some 1 ∧
    s.ownership.pendingOwner = some 2 ∧
    exec s b 2 (.updateOwnership .accept) = .error .unauthorized := by
  obtain ⟨s, b, log, hr, hp⟩ := Sys.check_run (M := sys) (s := instantiate ⟨10, 100⟩ 1) (b := ⟨10, 100⟩)
    (cs := [(⟨⟨12, 120⟩, 1⟩, .updateOwnership (.transfer 2 none))])
    (p := fun s _ _ => decide (s.ownership.owner = some 1 ∧ s.ownership.pendingOwner = some 2))
    (by decide +kernel)
  obtain ⟨h1, h2⟩ := of_decide_eq_true hp
  exact ⟨s, b, log, ⟨_, _, ⟨1, rfl⟩, hr⟩, h1, h2, C67_accept_refused s b 2 (by rw [h1]; decide)⟩

end Verif.Roles
