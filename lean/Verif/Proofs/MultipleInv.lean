import Verif.Proofs.MultipleStep
import Verif.Spec.Multiple
/-! Invariants of dao-proposal-multiple. -/

namespace Verif.Multiple
open Verif
open Verif.Voting hiding Vote Votes
open Verif.Spec (Edge Path Final)
open Verif.Spec.Multi

/-- Facts about one recorded proposal that hold in every reachable state. -/
structure PropOk (s : State) (id : Nat) (p : Proposal) : Prop where
  valid : validateQuorum p.quorum = .ok ()
  total : p.totalPower < U128
  tally : ∀ v, weight p.votes v = ballotSum s id v
  shape : p.Shape
  range : ∀ a bal, s.ballots.get (id, a) = some bal → bal.vote < p.choices.length
  vetoUnit : ∀ v, p.veto = some v → ∃ e, p.expiration.add v.timelockDuration = .ok e

/-- The structural invariant. -/
structure Inv (s : State) : Prop where
  cfg : validateConfig s.config = .ok ()
  ids : ∀ id, (s.proposals.get id).isSome = true ↔ 1 ≤ id ∧ id ≤ s.count
  wfB : s.ballots.WF
  bal : ∀ id a b, s.ballots.get (id, a) = some b → (s.proposals.get id).isSome = true
  prop : ∀ id p, s.proposals.get id = some p → PropOk s id p

theorem getD_set (l : List Nat) (i j x : Nat) :
    (l.set i x).getD j 0 = if i = j ∧ j < l.length then x else l.getD j 0 := by
  rw [List.getD_eq_getElem?_getD, List.getD_eq_getElem?_getD, List.getElem?_set]
  by_cases h : i = j
  · subst h
    by_cases h2 : i < l.length
    · simp [h2]
    · simp [h2]
  · simp [h]

theorem addVote_count {t t' : Votes} {v : Vote} {n : Nat} (h : t.addVote v n = .ok t') (u : Vote) :
    weight t' u = weight t u + if u = v then n else 0 := by
  simp only [Votes.addVote, bind_ok, orErr_ok, add128_ok, Except.ok.injEq] at h
  obtain ⟨x, hx, y, ⟨_, rfl⟩, rfl⟩ := h
  obtain ⟨h1, h2⟩ := getD_of_getElem? hx
  unfold weight
  rw [getD_set]
  by_cases e : v = u
  · subst e; simp only [h1, and_self, if_true, h2]
  · have e' : ¬ u = v := fun h => e h.symm
    simp [e, e']

theorem removeVote_count {t t' : Votes} {v : Vote} {n : Nat} (h : t.removeVote v n = .ok t')
    (u : Vote) : weight t' u + (if u = v then n else 0) = weight t u := by
  simp only [Votes.removeVote, bind_ok, orErr_ok, sub128_ok, Except.ok.injEq] at h
  obtain ⟨x, hx, y, ⟨hle, rfl⟩, rfl⟩ := h
  obtain ⟨h1, h2⟩ := getD_of_getElem? hx
  unfold weight
  rw [getD_set]
  by_cases e : v = u
  · subst e; simp only [h1, and_self, if_true, h2]; omega
  · have e' : ¬ u = v := fun h => e h.symm
    simp [e, e']

theorem addVote_len {t t' : Votes} {v : Vote} {n : Nat} (h : t.addVote v n = .ok t') :
    t'.weights.length = t.weights.length := by
  simp only [Votes.addVote, bind_ok, Except.ok.injEq] at h
  obtain ⟨x, hx, y, _, rfl⟩ := h
  simp

theorem removeVote_len {t t' : Votes} {v : Vote} {n : Nat} (h : t.removeVote v n = .ok t') :
    t'.weights.length = t.weights.length := by
  simp only [Votes.removeVote, bind_ok, Except.ok.injEq] at h
  obtain ⟨x, hx, y, _, rfl⟩ := h
  simp

theorem withdraw_len {p : Proposal} {o : Option Ballot} {v : Vote} {w : Votes}
    (h : withdrawBallot p o v = .ok w) : w.weights.length = p.votes.weights.length := by
  unfold withdrawBallot at h
  cases o with
  | none => simp only [Except.ok.injEq] at h; subst h; rfl
  | some b =>
    simp only at h
    split at h
    · split at h
      · simp at h
      · exact removeVote_len h
    · simp at h

theorem numbered_get (os : List (Nat × List Nat)) (n i : Nat) (c : Choice)
    (h : (numbered n os)[i]? = some c) : c.index = n + i ∧ c.isNone = false ∧ i < os.length := by
  induction os generalizing n i with
  | nil => simp [numbered] at h
  | cons o os ih =>
    cases i with
    | zero =>
      simp [numbered] at h
      subst h; simp
    | succ i =>
      simp only [numbered, List.getElem?_cons_succ] at h
      obtain ⟨h1, h2, h3⟩ := ih _ _ h
      exact ⟨by omega, h2, by simp; omega⟩

theorem numbered_length (os : List (Nat × List Nat)) (n : Nat) :
    (numbered n os).length = os.length := by
  induction os generalizing n with
  | nil => rfl
  | cons o os ih => simp [numbered, ih]

theorem shape_checked {os : List (Nat × List Nat)} {cs : List Choice} (h : intoChecked os = .ok cs) :
    3 ≤ cs.length ∧ cs.length = os.length + 1 ∧
      ∀ i c, cs[i]? = some c → c.index = i ∧ (c.isNone = true ↔ i + 1 = cs.length) := by
  unfold intoChecked at h
  split at h
  · simp at h
  · rename_i hlen
    injection h with h; subst h
    simp only [not_or, Nat.not_lt] at hlen
    have hl : (numbered 0 os ++ [(⟨os.length, true, 0, []⟩ : Choice)]).length = os.length + 1 := by
      simp [numbered_length]
    refine ⟨by omega, hl, ?_⟩
    intro i c hc
    rw [hl]
    by_cases hi : i < os.length
    · rw [List.getElem?_append_left (by rw [numbered_length]; exact hi)] at hc
      obtain ⟨h1, h2, h3⟩ := numbered_get _ _ _ _ hc
      refine ⟨by omega, ?_⟩
      rw [h2]; simp; omega
    · rw [List.getElem?_append_right (by rw [numbered_length]; omega), numbered_length] at hc
      have h0 : i - os.length = 0 := by
        cases hd : i - os.length with
        | zero => rfl
        | succ k => rw [hd] at hc; simp at hc
      rw [h0] at hc
      simp at hc
      subst hc
      have : i = os.length := by omega
      subst this
      simp

/-- What an old ballot contributes. -/
def oldPart (o : Option Ballot) (u : Vote) : Nat :=
  match o with
  | some b => if b.vote = u then b.power else 0
  | none => 0

theorem withdraw_count {p : Proposal} {o : Option Ballot} {v : Vote} {w : Votes}
    (h : withdrawBallot p o v = .ok w) (u : Vote) :
    weight w u + oldPart o u = weight p.votes u := by
  unfold withdrawBallot at h
  cases o with
  | none => simp only [Except.ok.injEq] at h; subst h; simp [oldPart]
  | some b =>
    simp only at h
    split at h
    · split at h
      · simp at h
      · have := removeVote_count h u
        simp only [oldPart]
        simp only [@eq_comm _ u] at this
        exact this
    · simp at h

theorem ballotSum_set {s s' : State} {id : Nat} {a : Addr} {b : Ballot}
    (h : s'.ballots = s.ballots.set (id, a) b) (id' : Nat) (u : Vote) :
    ballotSum s' id' u + (if id = id' then oldPart (s.ballots.get (id, a)) u else 0)
      = ballotSum s id' u + (if id = id' ∧ b.vote = u then b.power else 0) := by
  unfold ballotSum
  rw [h]
  have := AMap.sum_set (fun (k : Nat × Addr) (b : Ballot) =>
    if k.1 = id' ∧ b.vote = u then b.power else 0) s.ballots (id, a) b
  simp only [AMap.at?] at this
  rw [← this]
  congr 1
  cases hg : s.ballots.get (id, a) with
  | none => simp [oldPart]
  | some ob =>
    simp only [oldPart]
    by_cases h1 : id = id' <;> by_cases h2 : ob.vote = u <;> simp [h1, h2]

theorem inv_init {env : Env} {c : Config} {i : PreProposeInfo} {s : State} {out : Out}
    (h : instantiate env c i = .ok (s, out)) : Inv s := by
  unfold instantiate at h
  simp only [bind_ok, Except.ok.injEq, Prod.mk.injEq] at h
  obtain ⟨_, hv, rfl, _⟩ := h
  refine ⟨hv, ?_, AMap.WF_nil, ?_, ?_⟩
  · intro id; simp [AMap.get]; omega
  · intro id a b h; simp [AMap.get] at h
  · intro id p h; simp [AMap.get] at h

theorem after_add_ok {d d' : Duration} {b : Block} (h : (match d, d' with
    | .time _, .time _ => (.ok () : Res Unit)
    | .height _, .height _ => .ok ()
    | _, _ => .error .invalid) = .ok ()) : ∃ e, (d'.after b).add d = .ok e := by
  cases d <;> cases d' <;> simp [Duration.after, Expiration.add] at h ⊢

theorem validateConfig_parts {c : Config} (h : validateConfig c = .ok ()) :
    validateQuorum c.quorum = .ok () ∧
      ∀ v, c.veto = some v → v.validate c.maxVotingPeriod = .ok () := by
  unfold validateConfig at h
  simp only [bind_ok] at h
  obtain ⟨_, h1, _, _, h2⟩ := h
  refine ⟨h1, fun v hv => ?_⟩
  rw [hv] at h2; exact h2

theorem inv_micro {env : Env} {s s' : State} (hi : Inv s) (hm : Micro env s s') : Inv s' := by
  obtain ⟨hcfg, hids, hwf, hbal, hprop⟩ := hi
  cases hm with
  | other h1 h2 h3 h4 =>
    refine ⟨h4 hcfg, ?_, ?_, ?_, ?_⟩
    · rw [h1, h2]; exact hids
    · rw [h3]; exact hwf
    · rw [h1, h3]; exact hbal
    · rw [h1]; intro id p hp
      obtain ⟨a, b, c, sh, rg, d⟩ := hprop id p hp
      exact ⟨a, b, fun v => by rw [c v]; unfold ballotSum; rw [h3], sh, by rw [h3]; exact rg, d⟩
  | @rationale id b r hb =>
    refine ⟨hcfg, hids, AMap.WF_set hwf _ _, ?_, ?_⟩
    · intro id' a b' h
      simp only [AMap.get_set] at h
      split at h
      · rename_i heq; injection heq with e1 e2; subst e1
        exact hbal _ _ _ hb
      · exact hbal _ _ _ h
    · intro id' p hp
      obtain ⟨a1, a2, c, sh, rg, d⟩ := hprop id' p hp
      refine ⟨a1, a2, fun u => ?_, sh, ?_, d⟩
      rotate_left
      · intro a bal hg
        simp only [AMap.get_set] at hg
        split at hg
        · rename_i he; injection he with e1 e2; subst e1; subst e2
          injection hg with hg; subst hg
          exact rg _ b hb
        · exact rg _ _ hg
      rw [c u]
      have := ballotSum_set (s := s)
        (s' := { s with ballots := s.ballots.set (id, env.sender) ({ b with rationale := r }) })
        (b := { b with rationale := r }) rfl id' u
      rw [hb] at this
      simp only [oldPart] at this
      by_cases e1 : id = id' <;> by_cases e2 : b.vote = u <;> simp [e1, e2] at this ⊢ <;> omega
  | @vote voter id v r p power w votes st hp hv hexp hpow hlt h0 hw hadd hst =>
    refine ⟨hcfg, ?_, AMap.WF_set hwf _ _, ?_, ?_⟩
    · intro id'
      simp only [AMap.get_set]
      split
      · rename_i he; subst he
        rw [← hids]; simp [hp]
      · exact hids id'
    · intro id' a b' h
      simp only [AMap.get_set] at h ⊢
      split
      · rfl
      · rename_i hne
        split at h
        · rename_i heq; injection heq with e1 e2; exact absurd e1 hne
        · exact hbal _ _ _ h
    · intro id' p' hp'
      have hbs := ballotSum_set (s := s) (s' := { s with
        proposals := s.proposals.set id { p with votes := votes, status := st }
        ballots := s.ballots.set (id, voter) ⟨power, v, r⟩ }) (b := ⟨power, v, r⟩) rfl
      simp only [AMap.get_set] at hp'
      split at hp'
      · rename_i he; subst he
        injection hp' with hp'; subst hp'
        obtain ⟨a1, a2, c, sh, rg, d⟩ := hprop id p hp
        refine ⟨a1, a2, fun u => ?_, ⟨?_, sh.three, sh.index, sh.none_⟩, ?_, d⟩
        rotate_left
        · show p.choices.length = votes.weights.length
          rw [addVote_len hadd, withdraw_len hw]; exact sh.len
        · intro a bal hg
          simp only [AMap.get_set] at hg
          split at hg
          · injection hg with hg; subst hg; exact hv
          · exact rg _ _ hg
        have h1 := addVote_count hadd u
        have h2 := withdraw_count hw u
        have h3 := hbs id u
        have h4 := c u
        show weight votes u = _
        by_cases e : v = u
        · subst e
          simp at h1 h3; omega
        · have e' : ¬ u = v := fun h => e h.symm
          simp [e, e'] at h1 h3; omega
      · rename_i hne
        obtain ⟨a1, a2, c, sh, rg, d⟩ := hprop id' p' hp'
        refine ⟨a1, a2, fun u => ?_, sh, ?_, d⟩
        rotate_left
        · intro a bal hg
          simp only [AMap.get_set] at hg
          split at hg
          · rename_i he; injection he with e1 e2; exact absurd e1 hne
          · exact rg _ _ hg
        have h3 := hbs id' u
        simp [hne] at h3
        rw [c u, h3]
  | @create proposer content options choices total st hch ht hlt hst hc =>
    have hnone : s.proposals.get (s.count + 1) = none := by
      cases h : s.proposals.get (s.count + 1) with
      | none => rfl
      | some p =>
        have := (hids (s.count + 1)).1 (by simp [h])
        omega
    refine ⟨hcfg, ?_, hwf, ?_, ?_⟩
    · intro id
      simp only [AMap.get_set]
      split
      · rename_i he; subst he; simp
      · rename_i hne
        rw [hids]; omega
    · intro id a b h
      have := hbal id a b h
      simp only [AMap.get_set]
      split
      · rfl
      · exact this
    · intro id p hp
      simp only [AMap.get_set] at hp
      split at hp
      · rename_i he; subst he
        injection hp with hp; subst hp
        obtain ⟨c1, c2⟩ := validateConfig_parts hcfg
        obtain ⟨k1, k2, k3⟩ := shape_checked hch
        refine ⟨c1, hlt, fun u => ?_, ⟨?_, k1, fun i c h => (k3 i c h).1, fun i c h => (k3 i c h).2⟩,
          ?_, ?_⟩
        rotate_left
        · show choices.length = (List.replicate choices.length 0).length
          simp
        · intro a bal hg
          have := hbal _ a bal hg
          rw [hnone] at this; simp at this
        rotate_left
        · have hz : ballotSum s (s.count + 1) u = 0 := by
            unfold ballotSum
            have : AMap.sum (fun (k : Nat × Addr) (b : Ballot) =>
                if k.1 = s.count + 1 ∧ b.vote = u then b.power else 0) s.ballots
                = AMap.sum (fun _ _ => 0) s.ballots := by
              apply AMap.sum_congr
              rintro ⟨id, a⟩ b hb
              split
              · rename_i hk
                exfalso
                have := hbal id a b (AMap.get_of_mem hwf hb)
                simp only at hk
                rw [hk.1, hnone] at this
                simp at this
              · rfl
            rw [this]
            clear this
            induction s.ballots with
            | nil => rfl
            | cons a m ih => obtain ⟨k, v⟩ := a; simpa [AMap.sum] using ih
          show weight (Votes.zero choices.length) u = ballotSum s (s.count + 1) u
          rw [hz]; unfold weight Votes.zero
          rw [List.getD_eq_getElem?_getD, List.getElem?_replicate]
          split <;> rfl
        · intro v hv
          exact after_add_ok (c2 v hv)
      · obtain ⟨a1, a2, c, sh, rg, d⟩ := hprop id p hp
        exact ⟨a1, a2, c, ⟨sh.1, sh.2, sh.3, sh.4⟩, rg, d⟩
  | @status id p st st' hp hcur hm =>
    refine ⟨hcfg, ?_, hwf, ?_, ?_⟩
    · intro id'
      simp only [AMap.get_set]
      split
      · rename_i he; subst he
        rw [← hids]; simp [hp]
      · exact hids id'
    · intro id' a b h
      simp only [AMap.get_set]
      split
      · rfl
      · exact hbal _ _ _ h
    · intro id' p' hp'
      simp only [AMap.get_set] at hp'
      split at hp'
      · rename_i he; subst he
        injection hp' with hp'; subst hp'
        obtain ⟨a1, a2, c, sh, rg, d⟩ := hprop id p hp
        exact ⟨a1, a2, c, ⟨sh.1, sh.2, sh.3, sh.4⟩, rg, d⟩
      · obtain ⟨a1, a2, c, sh, rg, d⟩ := hprop id' p' hp'
        exact ⟨a1, a2, c, sh, rg, d⟩

theorem inv_run {s s' : State} {b b' : Block} {log : List Event} (hr : Run s b log s' b')
    (hi : Inv s) : Inv s' :=
  run_micro (P := fun s _ => Inv s) hr hi (fun _ _ _ h _ => h) (fun _ _ _ h hm => inv_micro h hm)

theorem inv_reach {s : State} {b : Block} {log : List Event} (h : Reach s b log) : Inv s := by
  obtain ⟨env, c, i, s0, out, h0, hr⟩ := h
  exact inv_run hr (inv_init h0)

theorem reach_run {s s' : State} {b b' : Block} {log l : List Event} (h : Reach s b log)
    (hr : Run s b l s' b') : Reach s' b' (l ++ log) := by
  obtain ⟨env, c, i, s0, out, h0, hr0⟩ := h
  refine ⟨env, c, i, s0, out, h0, ?_⟩
  induction hr with
  | refl => exact hr0
  | step _ hb h ih => exact .step ih hb h

end Verif.Multiple
