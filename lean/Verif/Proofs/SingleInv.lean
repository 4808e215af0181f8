import Verif.Proofs.SingleStep
import Verif.Spec.SingleHistory
/-! Invariants of dao-proposal-single. -/

namespace Verif.Single
open Verif Verif.Voting Verif.Spec

/-- Facts about one recorded proposal that hold in every reachable state. -/
structure PropOk (s : State) (id : Nat) (p : Proposal) : Prop where
  valid : p.threshold.validate = .ok ()
  total : p.totalPower < U128
  tally : ∀ v, countOf p.votes v = ballotSum s id v
  vetoUnit : ∀ v, p.veto = some v → ∃ e, p.expiration.add v.timelockDuration = .ok e

/-- The structural invariant. -/
structure Inv (s : State) : Prop where
  cfg : validateConfig s.config = .ok ()
  ids : ∀ id, (s.proposals.get id).isSome = true ↔ 1 ≤ id ∧ id ≤ s.count
  wfB : s.ballots.WF
  bal : ∀ id a b, s.ballots.get (id, a) = some b → (s.proposals.get id).isSome = true
  prop : ∀ id p, s.proposals.get id = some p → PropOk s id p

theorem addVote_count {t t' : Votes} {v : Vote} {n : Nat} (h : t.addVote v n = .ok t') (u : Vote) :
    countOf t' u = countOf t u + if u = v then n else 0 := by
  cases v <;> simp only [Votes.addVote, bind_ok, add128_ok, pure_ok] at h <;>
    obtain ⟨x, ⟨_, rfl⟩, rfl⟩ := h <;> cases u <;> simp [countOf]

theorem removeVote_count {t t' : Votes} {v : Vote} {n : Nat} (h : t.removeVote v n = .ok t')
    (u : Vote) : countOf t' u + (if u = v then n else 0) = countOf t u := by
  cases v <;> simp only [Votes.removeVote, bind_ok, sub128_ok, pure_ok] at h <;>
    obtain ⟨x, ⟨_, rfl⟩, rfl⟩ := h <;> cases u <;> simp [countOf] <;> omega

/-- What an old ballot contributes. -/
def oldPart (o : Option Ballot) (u : Vote) : Nat :=
  match o with
  | some b => if b.vote = u then b.power else 0
  | none => 0

theorem withdraw_count {p : Proposal} {o : Option Ballot} {v : Vote} {w : Votes}
    (h : withdrawBallot p o v = .ok w) (u : Vote) :
    countOf w u + oldPart o u = countOf p.votes u := by
  unfold withdrawBallot at h
  cases o with
  | none => simp only [Except.ok.injEq] at h; subst h; simp [oldPart]
  | some b =>
    simp only at h
    split at h
    · split at h
      · simp at h
      · have := removeVote_count h u
        simp only [oldPart]
        simp only [@eq_comm _ u] at this
        exact this
    · simp at h

theorem ballotSum_set {s s' : State} {id : Nat} {a : Addr} {b : Ballot}
    (h : s'.ballots = s.ballots.set (id, a) b) (id' : Nat) (u : Vote) :
    ballotSum s' id' u + (if id = id' then oldPart (s.ballots.get (id, a)) u else 0)
      = ballotSum s id' u + (if id = id' ∧ b.vote = u then b.power else 0) := by
  unfold ballotSum
  rw [h]
  have := AMap.sum_set (fun (k : Nat × Addr) (b : Ballot) =>
    if k.1 = id' ∧ b.vote = u then b.power else 0) s.ballots (id, a) b
  simp only [AMap.at?] at this
  rw [← this]
  congr 1
  cases hg : s.ballots.get (id, a) with
  | none => simp [oldPart]
  | some ob =>
    simp only [oldPart]
    by_cases h1 : id = id' <;> by_cases h2 : ob.vote = u <;> simp [h1, h2]

theorem inv_init {env : Env} {c : Config} {i : PreProposeInfo} {s : State} {out : Out}
    (h : instantiate env c i = .ok (s, out)) : Inv s := by
  unfold instantiate at h
  simp only [bind_ok, Except.ok.injEq, Prod.mk.injEq] at h
  obtain ⟨_, hv, rfl, _⟩ := h
  refine ⟨hv, ?_, AMap.WF_nil, ?_, ?_⟩
  · intro id; simp [AMap.get]; omega
  · intro id a b h; simp [AMap.get] at h
  · intro id p h; simp [AMap.get] at h

theorem after_add_ok {d d' : Duration} {b : Block} (h : (match d, d' with
    | .time _, .time _ => (.ok () : Res Unit)
    | .height _, .height _ => .ok ()
    | _, _ => .error .invalid) = .ok ()) : ∃ e, (d'.after b).add d = .ok e := by
  cases d <;> cases d' <;> simp [Duration.after, Expiration.add] at h ⊢

theorem validateConfig_parts {c : Config} (h : validateConfig c = .ok ()) :
    c.threshold.validate = .ok () ∧
      ∀ v, c.veto = some v → v.validate c.maxVotingPeriod = .ok () := by
  unfold validateConfig at h
  simp only [bind_ok] at h
  obtain ⟨_, h1, _, _, h2⟩ := h
  refine ⟨h1, fun v hv => ?_⟩
  rw [hv] at h2; exact h2

theorem inv_micro {env : Env} {s s' : State} (hi : Inv s) (hm : Micro env s s') : Inv s' := by
  obtain ⟨hcfg, hids, hwf, hbal, hprop⟩ := hi
  cases hm with
  | other h1 h2 h3 h4 =>
    refine ⟨h4 hcfg, ?_, ?_, ?_, ?_⟩
    · rw [h1, h2]; exact hids
    · rw [h3]; exact hwf
    · rw [h1, h3]; exact hbal
    · rw [h1]; intro id p hp
      obtain ⟨a, b, c, d⟩ := hprop id p hp
      exact ⟨a, b, fun v => by rw [c v]; unfold ballotSum; rw [h3], d⟩
  | @rationale id b r hb =>
    refine ⟨hcfg, hids, AMap.WF_set hwf _ _, ?_, ?_⟩
    · intro id' a b' h
      simp only [AMap.get_set] at h
      split at h
      · rename_i heq; injection heq with e1 e2; subst e1
        exact hbal _ _ _ hb
      · exact hbal _ _ _ h
    · intro id' p hp
      obtain ⟨a1, a2, c, d⟩ := hprop id' p hp
      refine ⟨a1, a2, fun u => ?_, d⟩
      rw [c u]
      have := ballotSum_set (s := s)
        (s' := { s with ballots := s.ballots.set (id, env.sender) ({ b with rationale := r }) })
        (b := { b with rationale := r }) rfl id' u
      rw [hb] at this
      simp only [oldPart] at this
      by_cases e1 : id = id' <;> by_cases e2 : b.vote = u <;> simp [e1, e2] at this ⊢ <;> omega
  | @vote voter id v r p power w votes st hp hexp hpow hlt h0 hw hadd hst =>
    refine ⟨hcfg, ?_, AMap.WF_set hwf _ _, ?_, ?_⟩
    · intro id'
      simp only [AMap.get_set]
      split
      · rename_i he; subst he
        rw [← hids]; simp [hp]
      · exact hids id'
    · intro id' a b' h
      simp only [AMap.get_set] at h ⊢
      split
      · rfl
      · rename_i hne
        split at h
        · rename_i heq; injection heq with e1 e2; exact absurd e1 hne
        · exact hbal _ _ _ h
    · intro id' p' hp'
      have hbs := ballotSum_set (s := s) (s' := { s with
        proposals := s.proposals.set id { p with votes := votes, status := st }
        ballots := s.ballots.set (id, voter) ⟨power, v, r⟩ }) (b := ⟨power, v, r⟩) rfl
      simp only [AMap.get_set] at hp'
      split at hp'
      · rename_i he; subst he
        injection hp' with hp'; subst hp'
        obtain ⟨a1, a2, c, d⟩ := hprop id p hp
        refine ⟨a1, a2, fun u => ?_, d⟩
        have h1 := addVote_count hadd u
        have h2 := withdraw_count hw u
        have h3 := hbs id u
        have h4 := c u
        show countOf votes u = _
        by_cases e : v = u
        · subst e
          simp at h1 h3; omega
        · have e' : ¬ u = v := fun h => e h.symm
          simp [e, e'] at h1 h3; omega
      · rename_i hne
        obtain ⟨a1, a2, c, d⟩ := hprop id' p' hp'
        refine ⟨a1, a2, fun u => ?_, d⟩
        have h3 := hbs id' u
        simp [hne] at h3
        rw [c u, h3]
  | @create proposer content msgs total st ht hlt hst hc =>
    have hnone : s.proposals.get (s.count + 1) = none := by
      cases h : s.proposals.get (s.count + 1) with
      | none => rfl
      | some p =>
        have := (hids (s.count + 1)).1 (by simp [h])
        omega
    refine ⟨hcfg, ?_, hwf, ?_, ?_⟩
    · intro id
      simp only [AMap.get_set]
      split
      · rename_i he; subst he; simp
      · rename_i hne
        rw [hids]; omega
    · intro id a b h
      have := hbal id a b h
      simp only [AMap.get_set]
      split
      · rfl
      · exact this
    · intro id p hp
      simp only [AMap.get_set] at hp
      split at hp
      · rename_i he; subst he
        injection hp with hp; subst hp
        obtain ⟨c1, c2⟩ := validateConfig_parts hcfg
        refine ⟨c1, hlt, fun u => ?_, ?_⟩
        · have hz : ballotSum s (s.count + 1) u = 0 := by
            unfold ballotSum
            have : AMap.sum (fun (k : Nat × Addr) (b : Ballot) =>
                if k.1 = s.count + 1 ∧ b.vote = u then b.power else 0) s.ballots
                = AMap.sum (fun _ _ => 0) s.ballots := by
              apply AMap.sum_congr
              rintro ⟨id, a⟩ b hb
              split
              · rename_i hk
                exfalso
                have := hbal id a b (AMap.get_of_mem hwf hb)
                simp only at hk
                rw [hk.1, hnone] at this
                simp at this
              · rfl
            rw [this]
            clear this
            induction s.ballots with
            | nil => rfl
            | cons a m ih => obtain ⟨k, v⟩ := a; simpa [AMap.sum] using ih
          show countOf Votes.zero u = ballotSum s (s.count + 1) u
          rw [hz]; cases u <;> rfl
        · intro v hv
          exact after_add_ok (c2 v hv)
      · obtain ⟨a1, a2, c, d⟩ := hprop id p hp
        exact ⟨a1, a2, c, d⟩
  | @status id p st st' hp hcur hm =>
    refine ⟨hcfg, ?_, hwf, ?_, ?_⟩
    · intro id'
      simp only [AMap.get_set]
      split
      · rename_i he; subst he
        rw [← hids]; simp [hp]
      · exact hids id'
    · intro id' a b h
      simp only [AMap.get_set]
      split
      · rfl
      · exact hbal _ _ _ h
    · intro id' p' hp'
      simp only [AMap.get_set] at hp'
      split at hp'
      · rename_i he; subst he
        injection hp' with hp'; subst hp'
        obtain ⟨a1, a2, c, d⟩ := hprop id p hp
        exact ⟨a1, a2, c, d⟩
      · obtain ⟨a1, a2, c, d⟩ := hprop id' p' hp'
        exact ⟨a1, a2, c, d⟩

theorem inv_run {s s' : State} {b b' : Block} {log : List Event} (hr : Run s b log s' b')
    (hi : Inv s) : Inv s' :=
  run_micro (P := fun s _ => Inv s) hr hi (fun _ _ _ h _ => h) (fun _ _ _ h hm => inv_micro h hm)

theorem inv_reach {s : State} {b : Block} {log : List Event} (h : Reach s b log) : Inv s := by
  obtain ⟨env, c, i, s0, out, h0, hr⟩ := h
  exact inv_run hr (inv_init h0)

theorem reach_run {s s' : State} {b b' : Block} {log l : List Event} (h : Reach s b log)
    (hr : Run s b l s' b') : Reach s' b' (l ++ log) := by
  obtain ⟨env, c, i, s0, out, h0, hr0⟩ := h
  refine ⟨env, c, i, s0, out, h0, ?_⟩
  induction hr with
  | refl => exact hr0
  | step _ hb h ih => exact .step ih hb h

end Verif.Single
