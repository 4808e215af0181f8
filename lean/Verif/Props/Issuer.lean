import Verif.Proofs.Issuer
/-!
# Properties of cw-tokenfactory-issuer (C56, C57)
-/

namespace Verif.Issuer
open Verif Verif.Spec.Issuer

/-! ## C56 -/

/-- C56: what an address minted since its allowance was last set, plus what it may still mint, is that allowance; so it
never mints more. -/
theorem C56_mint {w : World} {b : Block} {log : List Event} (h : sys.Reach w b log) (a : Addr) :
    usedSince (mintGrant a) (mints a) log + w.st.mintAllowance a = lastGrant (mintGrant a) log := by
  have := (inv_reach h).minters a
  unfold State.mintAllowance
  omega

theorem C56_mint_le {w : World} {b : Block} {log : List Event} (h : sys.Reach w b log) (a : Addr) :
    usedSince (mintGrant a) (mints a) log ≤ lastGrant (mintGrant a) log := by
  have := C56_mint h a
  omega

/-- C56: the same for burning. -/
theorem C56_burn {w : World} {b : Block} {log : List Event} (h : sys.Reach w b log) (a : Addr) :
    usedSince (burnGrant a) (burns a) log + w.st.burnAllowance a = lastGrant (burnGrant a) log := by
  have := (inv_reach h).burners a
  unfold State.burnAllowance
  omega

theorem C56_burn_le {w : World} {b : Block} {log : List Event} (h : sys.Reach w b log) (a : Addr) :
    usedSince (burnGrant a) (burns a) log ≤ lastGrant (burnGrant a) log := by
  have := C56_burn h a
  omega

/-- C56: only the owner sets allowances. -/
theorem C56_only_owner {w : World} {b : Block} {log : List Event} (h : sys.Reach w b log) {e : Event} (he : e ∈ log)
    {a : Addr} (hg : mintGrant a e ≠ none ∨ burnGrant a e ≠ none) : e.pre.st.owner.owner = some e.env.sender := by
  obtain ⟨_, _, _, _, _, _, hs⟩ := event h he
  obtain ⟨w0, env, c, out, w'⟩ := e
  simp only at hs ⊢
  cases c with
  | chain m => simp [mintGrant, burnGrant] at hg
  | exec m =>
    obtain ⟨msgs, h1, _, _⟩ := step_exec hs
    have ho := exec_owner h1
    cases m <;> simp [mintGrant, burnGrant] at hg <;> exact ho

/-- Holdings after a credit and a transfer on. -/
theorem passed_on {c c1 c2 : Ledger (Nat × Addr)} {d here dest n : Nat} (h1 : Ledger.credit c (d, here) n = .ok c1)
    (h2 : Ledger.move c1 (d, here) (d, dest) n = .ok c2) (x : Nat) (q : Addr) :
    getD0 c2 (x, q) = getD0 c (x, q) + (if x = d ∧ q = dest then n else 0) := by
  simp only [Ledger.move, bind_ok] at h2
  obtain ⟨c3, h3, h4⟩ := h2
  rw [Ledger.credit_get h4, Ledger.debit_get h3, Ledger.debit_get h3, Ledger.credit_get h1, Ledger.credit_get h1,
    Ledger.credit_get h1]
  simp only [Prod.mk.injEq, true_and, if_true]
  by_cases hd : x = d
  · subst hd
    by_cases hq : dest = q
    · subst hq
      by_cases hh : here = dest
      · subst hh; simp
      · simp [hh]
    · have hq' : ¬ q = dest := fun hc => hq hc.symm
      by_cases hh : here = q
      · subst hh; simp [hq, hq']
      · simp [hh, hq, hq']
  · have hd' : ¬ d = x := fun hc => hd hc.symm
    simp [hd, hd']

/-- C56: minting gives the recipient exactly the amount, nobody loses or gains anything else, and the supply grows by
it; the amount is not zero and the contract administers the token. -/
theorem C56_mint_effect {w w' : World} {e : Env} {dest : Addr} {n : Nat}
    (hs : sys.step w e (.exec (.mint dest n)) = .ok (w', ())) :
    0 < n ∧ n ≤ w.st.mintAllowance e.sender ∧ w.chain.admin.get w.st.denom = some w.here ∧
    (∀ d a, holds w' d a = holds w d a + (if d = w.st.denom ∧ a = dest then n else 0)) ∧
    (∀ d, supply w'.chain d = supply w.chain d + (if d = w.st.denom then n else 0)) := by
  obtain ⟨msgs, h1, h2, _⟩ := step_exec hs
  have hm := (exec_msgs h1).2
  have ho := exec_owner h1
  simp only at hm ho
  subst hm
  simp only [Chain.runAll, bind_ok, Except.ok.injEq] at h2
  obtain ⟨c1, hmint, c2, hsend, rfl⟩ := h2
  have e1 := fun d => run_supply hmint d
  have e2 := fun d => run_supply hsend d
  simp only at e1 e2
  refine ⟨by omega, ho.2, (e1 0).2, ?_, ?_⟩
  · simp only [Chain.run, Chain.assertAdmin, bind_ok, Except.ok.injEq] at hmint
    obtain ⟨_, _, bal, hc, rfl⟩ := hmint
    obtain ⟨_, bal2, hmv, hw⟩ := transfer_ok hsend
    intro d a
    unfold holds
    rw [hw]
    exact passed_on hc hmv d a
  · intro d
    rw [e2 d, (e1 d).1]
    by_cases hd : d = w.st.denom
    · subst hd; simp
    · have : ¬ w.st.denom = d := fun hc => hd hc.symm
      simp [hd, this]

/-- C56: burning takes exactly the amount from one account (the one named, or on chains whose token factory does not
know about that, the contract), and the supply falls by it. -/
theorem C56_burn_effect {w w' : World} {e : Env} {src : Addr} {n : Nat}
    (hs : sys.step w e (.exec (.burn src n)) = .ok (w', ())) :
    0 < n ∧ n ≤ w.st.burnAllowance e.sender ∧ w.chain.admin.get w.st.denom = some w.here ∧
    (∀ d a, holds w' d a + (if d = w.st.denom ∧ a = (if w.chain.burnsAny then src else w.here) then n else 0) =
      holds w d a) ∧
    (∀ d, supply w'.chain d + (if d = w.st.denom then n else 0) = supply w.chain d) := by
  obtain ⟨msgs, h1, h2, _⟩ := step_exec hs
  have hm := (exec_msgs h1).2
  have ho := exec_owner h1
  simp only at hm ho
  subst hm
  have hrun := runAll_one h2
  have e1 := fun d => run_supply hrun d
  simp only at e1
  refine ⟨by omega, ho.2, (e1 0).2, ?_, ?_⟩
  · simp only [Chain.run, Chain.assertAdmin, bind_ok, Except.ok.injEq] at hrun
    obtain ⟨_, _, bal, hc, hw⟩ := hrun
    intro d a
    have hg := Ledger.debit_get hc (d, a)
    have hle := (Ledger.debit_ok.1 hc).1
    unfold holds
    rw [← hw, hg]
    simp only [Prod.mk.injEq]
    generalize (if w.chain.burnsAny then src else w.here) = s at *
    by_cases hx : w.st.denom = d ∧ s = a
    · obtain ⟨rfl, rfl⟩ := hx
      simp only [and_self, if_true]
      omega
    · have hx' : ¬ (d = w.st.denom ∧ a = s) := fun hc => hx ⟨hc.1.symm, hc.2.symm⟩
      rw [if_neg hx, if_neg hx']
      omega
  · intro d
    have := (e1 d).1
    by_cases hd : d = w.st.denom
    · subst hd; simpa using this
    · have h' : ¬ w.st.denom = d := fun hc => hd hc.symm
      simpa [hd, h'] using this

theorem run_denom {s w : World} {b b' : Block} {log : List Event} (h : sys.Run s b log w b') :
    w.st.denom = s.st.denom ∧ w.here = s.here := by
  induction h with
  | refl => exact ⟨rfl, rfl⟩
  | step hrr hbb hs ih => exact ⟨(step_denom hs).trans ih.1, (step_here hs).trans ih.2⟩

/-- C56: while the contract administers the token, the supply changes by what is minted and burned through the contract
and nothing else: with `C56_mint_le` and `C56_burn_le`, within the allowances the owner gave. -/
theorem C56_supply {s w : World} {b b' : Block} {log : List Event} (h : sys.Run s b log w b')
    (hadm : ∀ e ∈ log, e.pre.chain.admin.get s.st.denom = some s.here) :
    supply w.chain s.st.denom + (log.map burned).sum = supply s.chain s.st.denom + (log.map minted).sum := by
  induction h with
  | refl => simp
  | step hrr hbb hs ih =>
    rename_i s1 s2 b1 log env call out
    have ih := ih (fun e he => hadm e (List.mem_cons_of_mem _ he))
    have ha := hadm _ (List.mem_cons_self ..)
    simp only at ha
    obtain ⟨hd, hh⟩ := run_denom hrr
    simp only [List.map_cons, List.sum_cons]
    cases call with
    | chain m =>
      obtain ⟨hne, hrun, _, _⟩ := step_chain hs
      have hsup := run_supply hrun s.st.denom
      simp only [minted, burned]
      cases m with
      | mint x n =>
        simp only at hsup
        by_cases hx : x = s.st.denom
        · subst hx
          rw [ha] at hsup
          have := hsup.2
          simp only [Option.some.injEq] at this
          exact absurd (this.symm.trans hh.symm) hne
        · simp only [hx, if_false] at hsup; omega
      | burn x n src =>
        simp only at hsup
        by_cases hx : x = s.st.denom
        · subst hx
          rw [ha] at hsup
          have := hsup.2
          simp only [Option.some.injEq] at this
          exact absurd (this.symm.trans hh.symm) hne
        · simp only [hx, if_false] at hsup; omega
      | send x dest n => simp only at hsup; omega
      | changeAdmin x a => simp only at hsup; omega
      | setHook x a => simp only at hsup; omega
      | force x n src dest => simp only at hsup; omega
    | exec m =>
      cases m with
      | mint dest n =>
        have := (C56_mint_effect (w := s1) (w' := s2) (e := env) (dest := dest) (n := n) hs).2.2.2.2 s.st.denom
        rw [if_pos hd.symm] at this
        simp only [minted, burned]
        omega
      | burn src n =>
        have := (C56_burn_effect (w := s1) (w' := s2) (e := env) (src := src) (n := n) hs).2.2.2.2 s.st.denom
        rw [if_pos hd.symm] at this
        simp only [minted, burned]
        omega
      | force n src dest =>
        obtain ⟨msgs, h1, h2, _⟩ := step_exec hs
        have hm := (exec_msgs h1).2
        simp only at hm; subst hm
        have := run_supply (runAll_one h2) s.st.denom
        simp only at this
        simp only [minted, burned]; omega
      | setHook a =>
        obtain ⟨msgs, h1, h2, _⟩ := step_exec hs
        have hm := (exec_msgs h1).2
        simp only at hm; subst hm
        have := run_supply (runAll_one h2) s.st.denom
        simp only at this
        simp only [minted, burned]; omega
      | updateAdmin a =>
        obtain ⟨msgs, h1, h2, _⟩ := step_exec hs
        have hm := (exec_msgs h1).2
        simp only at hm; subst hm
        have := run_supply (runAll_one h2) s.st.denom
        simp only at this
        simp only [minted, burned]; omega
      | allow a x =>
        obtain ⟨msgs, h1, h2, _⟩ := step_exec hs
        have hm := (exec_msgs h1).2
        simp only at hm; subst hm
        rw [runAll_nil h2]
        simp only [minted, burned]; omega
      | deny a x =>
        obtain ⟨msgs, h1, h2, _⟩ := step_exec hs
        have hm := (exec_msgs h1).2
        simp only at hm; subst hm
        rw [runAll_nil h2]
        simp only [minted, burned]; omega
      | freeze x =>
        obtain ⟨msgs, h1, h2, _⟩ := step_exec hs
        have hm := (exec_msgs h1).2
        simp only at hm; subst hm
        rw [runAll_nil h2]
        simp only [minted, burned]; omega
      | setBurner a x =>
        obtain ⟨msgs, h1, h2, _⟩ := step_exec hs
        have hm := (exec_msgs h1).2
        simp only at hm; subst hm
        rw [runAll_nil h2]
        simp only [minted, burned]; omega
      | setMinter a x =>
        obtain ⟨msgs, h1, h2, _⟩ := step_exec hs
        have hm := (exec_msgs h1).2
        simp only at hm; subst hm
        rw [runAll_nil h2]
        simp only [minted, burned]; omega
      | updateOwnership x =>
        obtain ⟨msgs, h1, h2, _⟩ := step_exec hs
        have hm := (exec_msgs h1).2
        simp only at hm; subst hm
        rw [runAll_nil h2]
        simp only [minted, burned]; omega

/-- C56: an allowance can be used: the holder of one mints up to it if the contract administers the token, neither the
contract nor the recipient is denied, the token is not frozen, and the supply still fits. -/
theorem C56_can_mint {w : World} {b : Block} {log : List Event} (h : sys.Reach w b log) {e : Env} {dest : Addr} {n : Nat}
    (hn : 0 < n) (hle : n + usedSince (mintGrant e.sender) (mints e.sender) log ≤ lastGrant (mintGrant e.sender) log)
    (hadm : w.chain.admin.get w.st.denom = some w.here) (hfr : frozenBy log = false) (hd : deniedBy dest log = false)
    (hfit : total w.chain.bal + n < U128) :
    ∃ w', sys.step w e (.exec (.mint dest n)) = .ok (w', ()) := by
  have hi := inv_reach h
  have hal := hi.minters e.sender
  have h1 : exec w.st w.here e.block e.sender (.mint dest n) =
      .ok ({ w.st with minters := setAllowance w.st.minters e.sender (getD0 w.st.minters e.sender - n) },
        [.mint w.st.denom n, .send w.st.denom dest n]) := by
    have hsub : sub128 (getD0 w.st.minters e.sender) n = .ok (getD0 w.st.minters e.sender - n) :=
      (sub128_ok _ _ _).2 ⟨by omega, rfl⟩
    have hfz : ∀ m, State.checkNotFrozen { w.st with minters := m } e.sender dest w.st.denom = .ok () := by
      intro m
      rw [checkNotFrozen_ok]
      intro hh
      simp only at hh
      rw [hi.frozen, hfr] at hh
      cases hh.1
    simp only [exec, execMint, require]
    rw [if_pos (by simp; omega), ok_bind, hsub, ok_bind, hfz, ok_bind]
  generalize hst : ({ w.st with minters := setAllowance w.st.minters e.sender (getD0 w.st.minters e.sender - n) } :
    State) = st at h1
  have hb := getD0_le_total w.chain.bal (w.st.denom, w.here)
  have hc : Ledger.credit w.chain.bal (w.st.denom, w.here) n =
      .ok (AMap.set w.chain.bal (w.st.denom, w.here) (getD0 w.chain.bal (w.st.denom, w.here) + n)) :=
    Ledger.credit_ok.2 ⟨by omega, rfl⟩
  have ht := Ledger.credit_total hc
  obtain ⟨bal2, hmv⟩ := Ledger.move_total_ok (l := AMap.set w.chain.bal (w.st.denom, w.here)
    (getD0 w.chain.bal (w.st.denom, w.here) + n)) (a := (w.st.denom, w.here)) (b := (w.st.denom, dest)) (n := n)
    (by rw [getD0_set, if_pos rfl]; omega) (by omega)
  generalize hb1 : AMap.set w.chain.bal (w.st.denom, w.here) (getD0 w.chain.bal (w.st.denom, w.here) + n) = bal1 at hc hmv
  have hask : Chain.ask { w.chain with bal := bal1 } st w.here w.here dest w.st.denom true = .ok () := by
    unfold Chain.ask
    split
    · rw [beforeSend_ok]
      subst hst
      simp only
      refine ⟨?_, ?_, ?_⟩
      · intro hh; rw [hi.frozen, hfr] at hh; cases hh.1
      · rw [hi.denied, hi.self]; simp [entry]
      · rw [hi.denied, hd]; simp [entry]
    · rfl
  refine ⟨{ w with st := st, chain := { w.chain with bal := bal2 } }, ?_⟩
  change step w e (.exec (.mint dest n)) = _
  simp only [step, h1, ok_bind, Chain.runAll, Chain.run, Chain.assertAdmin, require, hadm, decide_true, if_true, hc,
    Chain.transfer, hask, hmv]

/-! ## C57 -/

/-- C57: the contract's answers about freezing and the lists are what was said last. -/
theorem C57_answers {w : World} {b : Block} {log : List Event} (h : sys.Reach w b log) :
    w.st.frozen = frozenBy log ∧ (∀ a, w.st.isDenied a = deniedBy a log) ∧ (∀ a, w.st.isAllowed a = allowedBy a log) ∧
    w.st.hookAddr = hookBy log := by
  have hi := inv_reach h
  refine ⟨hi.frozen, ?_, ?_, hi.hookAddr⟩
  · intro a
    unfold State.isDenied
    rw [hi.denied]
    cases deniedBy a log <;> rfl
  · intro a
    unfold State.isAllowed
    rw [hi.allowed]
    cases allowedBy a log <;> rfl

/-- C57: a transfer of a token whose listener is the contract happened only if neither side was denied, and, if the
token is the contract's and frozen, one side was allowed. -/
theorem C57_transfer {w : World} {b : Block} {log l1 l2 : List Event} {e : Event} (h : sys.Reach w b log)
    (hl : log = l2 ++ e :: l1) {d n : Nat} {dest : Addr} (hc : e.call = .chain (.send d dest n))
    (hk : e.pre.chain.hook.get d = some e.pre.here) : Passes l1 e.pre.st.denom e.env.sender dest d := by
  subst hl
  obtain ⟨b0, s0, h0, hr⟩ := h
  have : ∃ b1, sys.Run s0 b0 l1 e.pre b1 ∧ step e.pre e.env e.call = .ok (e.post, e.out) := by
    clear h0
    generalize hx : l2 ++ e :: l1 = log at hr
    induction hr generalizing l2 with
    | refl => simp at hx
    | step hrr hbb hs ih =>
      cases l2 with
      | nil =>
        simp only [List.nil_append, List.cons.injEq] at hx
        obtain ⟨rfl, rfl⟩ := hx
        exact ⟨_, hrr, hs⟩
      | cons y l2 =>
        simp only [List.cons_append, List.cons.injEq] at hx
        exact ih hx.2
  obtain ⟨b1, hrun, hs⟩ := this
  have hi : Inv e.pre l1 := inv_reach ⟨b0, s0, h0, hrun⟩
  rw [hc] at hs
  obtain ⟨hne, hrun, _, _⟩ := step_chain hs
  obtain ⟨h1, _⟩ := transfer_ok hrun
  exact (beforeSend_iff hi).1 (h1 rfl hk)

/-- C57: and these are the only transfers the contract stops. -/
theorem C57_transfer_iff {w : World} {b : Block} {log : List Event} (h : sys.Reach w b log) {e : Env} {d n : Nat}
    {dest : Addr} (hk : w.chain.hook.get d = some w.here) :
    (∃ w', sys.step w e (.chain (.send d dest n)) = .ok (w', ())) ↔
      e.sender ≠ w.here ∧ Passes log w.st.denom e.sender dest d ∧
        ∃ bal, Ledger.move w.chain.bal (d, e.sender) (d, dest) n = .ok bal := by
  have hi := inv_reach h
  constructor
  · rintro ⟨w', hs⟩
    obtain ⟨hne, hrun, _, _⟩ := step_chain hs
    obtain ⟨h1, bal, h2, _⟩ := transfer_ok hrun
    exact ⟨hne, (beforeSend_iff hi).1 (h1 rfl hk), bal, h2⟩
  · rintro ⟨hne, hp, bal, hmv⟩
    refine ⟨{ w with chain := { w.chain with bal := bal } }, ?_⟩
    have hask : w.chain.ask w.st w.here e.sender dest d true = .ok () := by
      unfold Chain.ask
      rw [if_pos (by simp [hk])]
      exact (beforeSend_iff hi).2 hp
    change step w e (.chain (.send d dest n)) = _
    simp only [step, require, hne, ne_eq, not_false_eq_true, decide_true, if_true, ok_bind, Chain.run, Chain.transfer,
      hask, hmv]

/-- C57: minting while frozen needs the minter or the recipient to be allowed; with the contract listening, the tokens
are handed on only to somebody not denied, and, while frozen, only if the contract or the recipient is allowed. -/
theorem C57_mint {w w' : World} {b : Block} {log : List Event} (h : sys.Reach w b log) {e : Env} {dest : Addr} {n : Nat}
    (hs : sys.step w e (.exec (.mint dest n)) = .ok (w', ())) :
    (frozenBy log = true → allowedBy e.sender log = true ∨ allowedBy dest log = true) ∧
    (w.chain.hook.get w.st.denom = some w.here → deniedBy dest log = false ∧
      (frozenBy log = true → allowedBy w.here log = true ∨ allowedBy dest log = true)) := by
  have hi := inv_reach h
  obtain ⟨msgs, h1, h2, _⟩ := step_exec hs
  have hm := (exec_msgs h1).2
  simp only at hm
  subst hm
  generalize hst : w'.st = st at h1 h2
  simp only [exec, execMint, bind_ok, Except.ok.injEq, Prod.mk.injEq, checkNotFrozen_ok] at h1
  obtain ⟨_, _, left, hsub, _, hfz, rfl, _⟩ := h1
  simp only [and_true] at hfz
  rw [hi.frozen, hi.allowed, hi.allowed, entry_true, entry_true] at hfz
  refine ⟨hfz, ?_⟩
  intro hk
  simp only [Chain.runAll, bind_ok, Except.ok.injEq] at h2
  obtain ⟨c1, hmint, c2, hsend, rfl⟩ := h2
  have hk1 := (run_hook hmint w.st.denom).1
  simp only at hk1
  obtain ⟨h3, _⟩ := transfer_ok hsend
  have h3 := h3 rfl (hk1.trans hk)
  rw [beforeSend_ok] at h3
  simp only [and_true] at h3
  rw [hi.frozen, hi.allowed, hi.allowed, hi.denied, hi.denied, entry_true, entry_true] at h3
  refine ⟨?_, h3.1⟩
  have := h3.2.2
  rw [ne_eq, entry_true, Bool.not_eq_true] at this
  exact this

/-- C57: a forced transfer is the owner's, and on chains that ask the listener it passes under the same rule. -/
theorem C57_force {w w' : World} {b : Block} {log : List Event} (h : sys.Reach w b log) {e : Env} {src dest : Addr}
    {n : Nat} (hs : sys.step w e (.exec (.force n src dest)) = .ok (w', ())) :
    w.st.owner.owner = some e.sender ∧ w.chain.admin.get w.st.denom = some w.here ∧
    (e.forceAsks = true → w.chain.hook.get w.st.denom = some w.here → Passes log w.st.denom src dest w.st.denom) := by
  have hi := inv_reach h
  obtain ⟨msgs, h1, h2, _⟩ := step_exec hs
  have hm := (exec_msgs h1).2
  have ho := exec_owner h1
  simp only at hm ho
  subst hm
  generalize hst : w'.st = st at h1 h2
  simp only [exec, bind_ok, Except.ok.injEq, Prod.mk.injEq] at h1
  obtain ⟨_, _, rfl, _⟩ := h1
  have hrun := runAll_one h2
  simp only [Chain.run, Chain.assertAdmin, bind_ok, require_ok, decide_eq_true_eq] at hrun
  obtain ⟨_, ha, htr⟩ := hrun
  refine ⟨ho, ha, ?_⟩
  intro hf hk
  obtain ⟨h3, _⟩ := transfer_ok htr
  exact (beforeSend_iff hi).1 (h3 hf hk)

/-- C57: the contract itself is never denied. -/
theorem C57_never_self {w : World} {b : Block} {log : List Event} (h : sys.Reach w b log) :
    deniedBy w.here log = false ∧ w.st.isDenied w.here = false := by
  have hi := inv_reach h
  exact ⟨hi.self, by rw [(C57_answers h).2.1]; exact hi.self⟩

/-- C57: only the owner freezes, denies and allows, and only while the contract is the listener it chose; only the
owner chooses the listener, forces transfers and gives the token away. -/
theorem C57_owner {w : World} {b : Block} {log l1 l2 : List Event} {e : Event} (h : sys.Reach w b log)
    (hl : log = l2 ++ e :: l1) {m : Msg} (hc : e.call = .exec m) :
    match m with
    | .mint _ _ => True
    | .burn _ _ => True
    | .updateOwnership _ => True
    | .allow _ _ => e.pre.st.owner.owner = some e.env.sender ∧ hookBy l1 = some e.pre.here
    | .deny a _ => e.pre.st.owner.owner = some e.env.sender ∧ hookBy l1 = some e.pre.here ∧ a ≠ e.pre.here
    | .freeze _ => e.pre.st.owner.owner = some e.env.sender ∧ hookBy l1 = some e.pre.here
    | _ => e.pre.st.owner.owner = some e.env.sender := by
  subst hl
  obtain ⟨b0, s0, h0, hr⟩ := h
  have : ∃ b1, sys.Run s0 b0 l1 e.pre b1 ∧ step e.pre e.env e.call = .ok (e.post, e.out) := by
    clear h0
    generalize hx : l2 ++ e :: l1 = log at hr
    induction hr generalizing l2 with
    | refl => simp at hx
    | step hrr hbb hs ih =>
      cases l2 with
      | nil =>
        simp only [List.nil_append, List.cons.injEq] at hx
        obtain ⟨rfl, rfl⟩ := hx
        exact ⟨_, hrr, hs⟩
      | cons y l2 =>
        simp only [List.cons_append, List.cons.injEq] at hx
        exact ih hx.2
  obtain ⟨b1, hrun, hs⟩ := this
  have hi : Inv e.pre l1 := inv_reach ⟨b0, s0, h0, hrun⟩
  rw [hc] at hs
  obtain ⟨msgs, h1, _, _⟩ := step_exec hs
  have ho := exec_owner h1
  have hf : e.pre.st.features = true → hookBy l1 = some e.pre.here := by
    intro hf; rw [hi.features] at hf; simpa using hf
  cases m with
  | mint _ _ => trivial
  | burn _ _ => trivial
  | updateOwnership _ => trivial
  | allow _ _ => exact ⟨ho.1, hf ho.2⟩
  | freeze _ => exact ⟨ho.1, hf ho.2⟩
  | deny a status =>
    refine ⟨ho.1, hf ho.2, ?_⟩
    simp only [exec, execDeny, bind_ok, require_ok, decide_eq_true_eq] at h1
    obtain ⟨_, _, _, _, _, hne, _⟩ := h1
    exact hne
  | force _ _ _ => exact ho
  | setHook _ => exact ho
  | setBurner _ _ => exact ho
  | setMinter _ _ => exact ho
  | updateAdmin _ => exact ho

/-- C57: for a token the contract created, the listener the chain asks is the one the contract's owner chose, as long as
the contract administers the token. -/
theorem C57_listener {s w : World} {b b' : Block} {log : List Event} (h : sys.Run s b log w b')
    (hnew : s.chain.hook.get s.st.denom = none)
    (hadm : ∀ e ∈ log, e.pre.chain.admin.get s.st.denom = some s.here) :
    w.chain.hook.get w.st.denom = hookBy log := by
  induction h with
  | refl => exact hnew
  | step hrr hbb hs ih =>
    rename_i s1 s2 b1 log env call out
    have ih := ih (fun e he => hadm e (List.mem_cons_of_mem _ he))
    have ha := hadm _ (List.mem_cons_self ..)
    simp only at ha
    obtain ⟨hd, hh⟩ := run_denom hrr
    rw [step_denom hs]
    cases call with
    | chain m =>
      obtain ⟨hne, hrun, _, _⟩ := step_chain hs
      obtain ⟨hk, hw, _⟩ := run_hook hrun s1.st.denom
      simp only [hookBy]
      rw [hk, ← ih]
      cases m with
      | setHook x a =>
        simp only
        by_cases hx : x = s1.st.denom
        · have := hw x a rfl
          rw [hx, hd, ha] at this
          simp only [Option.some.injEq] at this
          exact absurd (this.symm.trans hh.symm) hne
        · rw [if_neg hx]
      | send x dest n => rfl
      | mint x n => rfl
      | burn x n src => rfl
      | changeAdmin x a => rfl
      | force x n src dest => rfl
    | exec m =>
      obtain ⟨msgs, h1, h2, _⟩ := step_exec hs
      have hm := (exec_msgs h1).2
      cases m with
      | mint dest n =>
        simp only at hm; subst hm
        simp only [Chain.runAll, bind_ok, Except.ok.injEq] at h2
        obtain ⟨c1, hmint, c2, hsend, rfl⟩ := h2
        have e1 := (run_hook hmint s1.st.denom).1
        have e2 := (run_hook hsend s1.st.denom).1
        simp only at e1 e2
        simp only [hookBy]
        rw [e2, e1]; exact ih
      | setHook a =>
        simp only at hm; subst hm
        have e1 := (run_hook (runAll_one h2) s1.st.denom).1
        simp only [if_true] at e1
        simp only [hookBy]
        exact e1
      | burn src n =>
        simp only at hm; subst hm
        have e1 := (run_hook (runAll_one h2) s1.st.denom).1
        simp only at e1
        simp only [hookBy]
        rw [e1]; exact ih
      | force n src dest =>
        simp only at hm; subst hm
        have e1 := (run_hook (runAll_one h2) s1.st.denom).1
        simp only at e1
        simp only [hookBy]
        rw [e1]; exact ih
      | updateAdmin a =>
        simp only at hm; subst hm
        have e1 := (run_hook (runAll_one h2) s1.st.denom).1
        simp only at e1
        simp only [hookBy]
        rw [e1]; exact ih
      | allow a x => simp only at hm; subst hm; rw [runAll_nil h2]; exact ih
      | deny a x => simp only at hm; subst hm; rw [runAll_nil h2]; exact ih
      | freeze x => simp only at hm; subst hm; rw [runAll_nil h2]; exact ih
      | setBurner a x => simp only at hm; subst hm; rw [runAll_nil h2]; exact ih
      | setMinter a x => simp only at hm; subst hm; rw [runAll_nil h2]; exact ih
      | updateOwnership x => simp only at hm; subst hm; rw [runAll_nil h2]; exact ih

/-! ## Concrete histories -/

/-- A new token 1 of the contract at address 10, owned by 2. -/
def start : World :=
  { here := 10, st := instantiate 2 1, chain := { admin := [(1, 10)], hook := [], bal := [], burnsAny := true } }

theorem start_init : sys.init ⟨0, 0⟩ start := ⟨2, 1, rfl⟩

def tx (h a : Nat) : Env := { block := ⟨h, h⟩, sender := a }

/-- Minting and burning with allowances, then a freeze with one address allowed and one denied. -/
def calls : List (Env × Call) :=
  [(tx 1 2, .exec (.setMinter 5 100)),
   (tx 1 2, .exec (.setBurner 6 10)),
   (tx 1 5, .exec (.mint 7 40)),
   (tx 1 5, .exec (.mint 8 30)),
   (tx 1 6, .exec (.burn 7 10)),
   (tx 1 2, .exec (.setMinter 5 50)),
   (tx 1 5, .exec (.mint 9 20)),
   (tx 2 7, .chain (.send 1 8 5)),
   (tx 2 2, .exec (.setHook (some 10))),
   (tx 2 2, .exec (.freeze true)),
   (tx 2 2, .exec (.allow 20 true)),
   (tx 2 2, .exec (.deny 9 true)),
   (tx 3 7, .chain (.send 1 20 5))]

/-- The hypotheses of the theorems are met. -/
theorem C56_example : ∃ w b log, sys.Reach w b log ∧ log.length = 13 ∧
    usedSince (mintGrant 5) (mints 5) log = 20 ∧ lastGrant (mintGrant 5) log = 50 ∧ w.st.mintAllowance 5 = 30 ∧
    w.st.burnAllowance 6 = 0 ∧ supply w.chain 1 = 80 ∧ holds w 1 7 = 20 ∧ holds w 1 8 = 35 ∧ holds w 1 20 = 5 ∧
    (log.map minted).sum = 90 ∧ (log.map burned).sum = 10 ∧ frozenBy log = true ∧ deniedBy 9 log = true ∧
    allowedBy 20 log = true ∧ allowedBy 10 log = true ∧ w.chain.hook.get 1 = some 10 ∧
    (∀ e ∈ log, e.pre.chain.admin.get 1 = some 10) ∧
    sys.step w (tx 4 7) (.chain (.send 1 8 1)) = .error .unauthorized ∧
    sys.step w (tx 4 9) (.chain (.send 1 20 1)) = .error .unauthorized ∧
    sys.step w (tx 4 5) (.exec (.mint 7 1)) = .error .unauthorized := by
  obtain ⟨w, b, log, hr, hp⟩ := Sys.check_run (M := sys) (s := start) (b := ⟨0, 0⟩) (cs := calls)
    (p := fun w b log => decide (log.length = 13 ∧
    usedSince (mintGrant 5) (mints 5) log = 20 ∧ lastGrant (mintGrant 5) log = 50 ∧ w.st.mintAllowance 5 = 30 ∧
    w.st.burnAllowance 6 = 0 ∧ supply w.chain 1 = 80 ∧ holds w 1 7 = 20 ∧ holds w 1 8 = 35 ∧ holds w 1 20 = 5 ∧
    (log.map minted).sum = 90 ∧ (log.map burned).sum = 10 ∧ frozenBy log = true ∧ deniedBy 9 log = true ∧
    allowedBy 20 log = true ∧ allowedBy 10 log = true ∧ w.chain.hook.get 1 = some 10 ∧
    (∀ e ∈ log, e.pre.chain.admin.get 1 = some 10) ∧
    step w (tx 4 7) (.chain (.send 1 8 1)) = .error .unauthorized ∧
    step w (tx 4 9) (.chain (.send 1 20 1)) = .error .unauthorized ∧
    step w (tx 4 5) (.exec (.mint 7 1)) = .error .unauthorized)) (by decide +kernel)
  exact ⟨w, b, log, ⟨_, _, start_init, hr⟩, of_decide_eq_true hp⟩

/-- What C57 does not say: once the owner takes the listener away, the token still counts as frozen, which keeps the
minter from minting, but transfers pass again; and it cannot be unfrozen until the listener is back. -/
theorem C57_without_listener : ∃ w b log, sys.Reach w b log ∧ frozenBy log = true ∧ w.st.frozen = true ∧
    (∃ w', sys.step w (tx 4 7) (.chain (.send 1 8 1)) = .ok (w', ())) ∧
    sys.step w (tx 4 5) (.exec (.mint 7 1)) = .error .unauthorized ∧
    sys.step w (tx 4 2) (.exec (.freeze false)) = .error .invalid := by
  obtain ⟨w, b, log, hr, hp⟩ := Sys.check_run (M := sys) (s := start) (b := ⟨0, 0⟩)
    (cs := calls ++ [(tx 4 2, .exec (.setHook none))])
    (p := fun w b log => decide (frozenBy log = true ∧ w.st.frozen = true ∧
    (step w (tx 4 7) (.chain (.send 1 8 1))).isOk = true ∧
    step w (tx 4 5) (.exec (.mint 7 1)) = .error .unauthorized ∧
    step w (tx 4 2) (.exec (.freeze false)) = .error .invalid)) (by decide +kernel)
  have hp := of_decide_eq_true hp
  refine ⟨w, b, log, ⟨_, _, start_init, hr⟩, hp.1, hp.2.1, ?_, hp.2.2.2⟩
  have h3 := hp.2.2.1
  change ∃ w', step w (tx 4 7) (.chain (.send 1 8 1)) = .ok (w', ())
  cases hc : step w (tx 4 7) (.chain (.send 1 8 1)) with
  | ok x => exact ⟨x.1, rfl⟩
  | error x => rw [hc] at h3; cases h3

end Verif.Issuer
