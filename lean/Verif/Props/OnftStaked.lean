import Verif.Proofs.OnftStaked
import Verif.Props.NftStaked
/-!
# C74, C75 (and C30, C32, C70, C73): dao-voting-onft-staked
-/

namespace Verif.OnftStaked
open Verif Verif.Active Verif.Spec.OnftStaked
open Verif.NftStaked (Holds queued giveBack count matured remaining afterUnstake SameNfts HookMsg)

/-! ## C30, C70 -/

/-- **C30.** The voting powers and the total reported for a height are those after the last call below that
height, whatever is called from then on. -/
theorem C30_onft_history {w w' : World} {b b' : Block} {log log' : List Event}
    (h : sys.Reach w b log) (hr : sys.Run w b log' w' b') {x : Nat} (hb : b.height < x)
    (hx : ∀ e ∈ log', x ≤ e.env.height) (a : Addr) (now : Block) :
    power w' now a (some x) = (w.n.c.balanceOf a, x) ∧ totalPower w' now (some x) = (w.n.c.total, x) := by
  simp only [power, totalPower, Option.getD_some]
  rw [snapshotted.1.current h hr hb hx a, snapshotted.2.current h hr hb hx ()]
  exact ⟨rfl, rfl⟩

/-- **C30.** What is reported for a height does not change through calls at or above that height. -/
theorem C30_onft_stable {w w' : World} {b b' : Block} {log log' : List Event}
    (h : sys.Reach w b log) (hr : sys.Run w b log' w' b') {x : Nat}
    (hx : ∀ e ∈ log', x ≤ e.env.height) (a : Addr) (now now' : Block) :
    power w' now' a (some x) = power w now a (some x) ∧
      totalPower w' now' (some x) = totalPower w now (some x) := by
  simp only [power, totalPower, Option.getD_some]
  rw [snapshotted.1.stable h hr hx a, snapshotted.2.stable h hr hx ()]
  exact ⟨rfl, rfl⟩

/-- **C70**, dao-voting-onft-staked. Asked without a height, the module answers for the height of the block
it is asked in: the power and the height are those it answers for that height, and calls in that block, before
or after the question, change nothing. -/
theorem C70_onft {w w' : World} {b b' now : Block} {log log' : List Event}
    (h : sys.Reach w b log) (hr : sys.Run w b log' w' b')
    (hx : ∀ e ∈ log', now.height ≤ e.env.height) (a : Addr) :
    power w' now a none = power w now a (some now.height) ∧
    totalPower w' now none = totalPower w now (some now.height) ∧
    (b.height < now.height → power w' now a none = (w.n.c.balanceOf a, now.height) ∧
      totalPower w' now none = (w.n.c.total, now.height)) := by
  have e0 : ∀ v : World, power v now a none = power v now a (some now.height) ∧
      totalPower v now none = totalPower v now (some now.height) := fun v => ⟨rfl, rfl⟩
  have e := C30_onft_stable h hr hx a now now
  rw [(e0 w').1, (e0 w').2]
  exact ⟨e.1, e.2, fun hb => C30_onft_history h hr hb hx a now⟩

/-! ## C74 -/

/-- **C74.** At every height, in every history, the total power is the sum of the powers of all addresses. -/
theorem C74_total_at_height {w : World} {b : Block} {log : List Event}
    (h : sys.Reach w b log) (now : Block) (x : Nat) {L : List Addr} (hL : L.Nodup)
    (hc : ∀ a, a ∉ L → (power w now a (some x)).1 = 0) :
    (totalPower w now (some x)).1 = (L.map (fun a => (power w now a (some x)).1)).sum := by
  obtain ⟨w1, b1, l1, l2, rfl, h1, hr, hx, hb⟩ := h.split x
  rcases hb with hb | ⟨rfl, hi⟩
  · have e := fun a => C30_onft_history h1 hr hb hx a now
    have hi := basic_reach h1
    rw [(e 0).2, show (w1.n.c.total, x).1 = w1.n.c.total from rfl, hi.sum,
      ← total_eq_sum hi.wfb hL (fun a ha => by rw [← NftStaked.balanceOf_cur]; have := hc a ha; rw [(e a).1] at this; exact this)]
    congr 1
    apply List.map_congr_left
    intro a _; rw [(e a).1]; rfl
  · have e := fun a => C30_onft_stable h1 hr hx a now now
    obtain ⟨_, h3, h4, h5, _⟩ := init_shape hi
    have z : ∀ a, (power w1 now a (some x)).1 = 0 := by intro a; simp only [power]; rw [h4]; rfl
    rw [(e 0).2]
    have z' : (totalPower w1 now (some x)).1 = 0 := by
      simp only [totalPower, Option.getD_some]; rw [h5]
      by_cases hle : x ≤ b1.height
      · rw [Snap.atHeight_save (Snap.upTo_empty _) hle]; rfl
      · rw [Snap.atHeight_future (Snap.upTo_save (Snap.upTo_empty b1.height) (Nat.le_refl _)) (by omega)]
        exact NftStaked.total_save _ _ _
    rw [z']
    symm
    apply List.sum_eq_zero
    intro n hn
    obtain ⟨a, _, rfl⟩ := List.mem_map.1 hn
    rw [(e a).1, z]

/-- **C74.** In every history an address has power for every NFT listed as staked by it. -/
theorem C74_listed_counts {w : World} {b : Block} {log : List Event} (h : sys.Reach w b log) (a : Addr) :
    (stakedNfts w a).length ≤ w.n.c.balanceOf a ∧ (stakedNfts w a).Nodup := by
  have hi := basic_reach h
  refine ⟨?_, NftStaked.stakedNfts_nodup hi.wf a⟩
  have := hi.le a
  rw [NftStaked.count_eq] at this
  exact this

/-- **C74**, as long as the DAO cancels no stake of an NFT that the contract keeps for somebody: an address's
current power is the number of different NFTs listed as staked by it. Otherwise this is false of the code:
`C74_double_witness`. -/
theorem C74_power_partial {w : World} {b : Block} {log : List Event} (h : sys.Reach w b log)
    (hsp : ∀ e ∈ log, Spares e) (a : Addr) :
    w.n.c.balanceOf a = (stakedNfts w a).length ∧ (stakedNfts w a).Nodup := by
  have hi := (good_reach h hsp).inv
  exact ⟨(hi.bal a).trans (NftStaked.count_eq _ _), NftStaked.stakedNfts_nodup hi.wf a⟩

/-- **C74**, under the same condition: no NFT is counted twice. A token staked or waited for by `a` is neither
staked nor waited for by anybody else; none is staked and waited for; none is waited for twice; and the
contract owns it. -/
theorem C74_once_partial {w : World} {b : Block} {log : List Event} (h : sys.Reach w b log)
    (hsp : ∀ e ∈ log, Spares e) (a : Addr) (t : Tok) :
    (waiting w a).Nodup ∧ ¬ (t ∈ stakedNfts w a ∧ t ∈ waiting w a) ∧
    (KeptFor w a t → owner w t = some w.n.self ∧ ∀ a', KeptFor w a' t → a' = a) := by
  have hi := (good_reach h hsp).inv
  refine ⟨hi.nodup a, fun hh => hi.disj a t (mem_staked.1 hh.1) hh.2, fun hh => ?_⟩
  rw [keptFor_iff] at hh
  exact ⟨hi.own a t hh, fun a' hh' => hi.uniq _ _ _ (keptFor_iff.1 hh') hh⟩

/-- **C74**, under the same condition: the number of all NFTs staked is at most the number of NFTs there
are. -/
theorem C74_bounded_partial {w : World} {b : Block} {log : List Event} (h : sys.Reach w b log)
    (hsp : ∀ e ∈ log, Spares e) : w.n.c.total ≤ w.n.owners.length ∧ w.n.c.total < U64 :=
  ⟨NftStaked.total_le_owners (good_reach h hsp).inv, NftStaked.total_lt (good_reach h hsp).inv⟩

/-- **C74**, under the same condition: an NFT kept for somebody leaves the contract only to them, in a call
of their own: an unstake naming it when there is no waiting time, or a claim. -/
theorem C74_returned_partial {w w' : World} {b b' : Block} {log : List Event} {call : Call} {out : Out}
    (h : sys.Reach w b log) (hsp : ∀ e ∈ log, Spares e) (hs : sys.step w b' call = .ok (w', out))
    (hsp' : Spares ⟨w, b', call, out, w'⟩) {a : Addr} {t : Tok}
    (h1 : KeptFor w a t) (h2 : owner w' t ≠ some w'.n.self) :
    owner w' t = some a ∧ ((call = .exec a .claimNfts ∧ t ∈ waiting w a) ∨
      ∃ ts, call = .exec a (.unstake ts) ∧ t ∈ ts ∧ t ∈ stakedNfts w a ∧ w.n.c.unstakingDuration = none) := by
  have hg := good_reach h hsp
  have hi := hg.inv
  rw [keptFor_iff] at h1
  have hown := hi.own a t h1
  unfold owner at h2 ⊢
  cases step_effect hs with
  | prepare => exact absurd hown h2
  | confirm => exact absurd hown h2
  | cancel x ts r f p o ha hp hex ho hf =>
    obtain ⟨g1, g2, g3, g4⟩ := giveBack_fun ho
    simp only [g2] at h2
    split at h2
    · rename_i hin
      obtain ⟨ht, _⟩ := mem_ours.1 hin
      exfalso
      rcases hf with ⟨rfl, _⟩ | ⟨_, _, h3⟩
      · exact hsp' ts r rfl t ht a (keptFor_iff.2 h1)
      · rcases h3 t ht with hh | hh
        · rw [hown] at hh; exact ha (Option.some.inj hh).symm
        · rw [hg.free a t h1] at hh; cases hh
    · exact absurd hown h2
  | shared x m m' n out hm ha he hx =>
    cases he with
    | payout _ ts mm o _ ha' hts hrm hd ht hba ho hh hsend =>
      obtain ⟨g1, g2, g3, g4⟩ := NftStaked.giveBack_inv ha ho
      have hr := NftStaked.removeAll_inv hi.wf hrm
      simp only [g2] at h2 ⊢
      split at h2
      · rename_i hin
        have hxa : x = a := hi.uniq _ _ _ (Or.inl (hr.had t hin)) h1
        subst hxa
        have hm' : m = .unstake ts := by
          cases m <;> simp only [Msg.shared, Option.some.injEq, reduceCtorEq, NftStaked.Msg.unstake.injEq] at hm
          rw [hm]
        rw [if_pos hin]
        exact ⟨rfl, Or.inr ⟨ts, by rw [hm'], hin, mem_staked.2 (hr.had t hin), hd⟩⟩
      · exact absurd hown h2
    | unbond => exact absurd hown h2
    | claim _ o ha' hmat ho =>
      obtain ⟨g1, g2, g3, g4⟩ := NftStaked.giveBack_inv ha ho
      simp only [g2] at h2 ⊢
      split at h2
      · rename_i hin
        have hq : t ∈ queued w.n.c x := (NftStaked.queued_split w.n.c b' x t).2 (Or.inl hin)
        have hxa : x = a := hi.uniq _ _ _ (Or.inr hq) h1
        subst hxa
        have hm' : m = .claimNfts := by
          cases m <;> simp only [Msg.shared, Option.some.injEq, reduceCtorEq] at hm; rfl
        rw [if_pos hin]
        exact ⟨rfl, Or.inl ⟨by rw [hm'], hq⟩⟩
      · exact absurd hown h2
    | admin => exact absurd hown h2
  | transfer x d y ho ha =>
    exfalso
    simp only [AMap.get_set] at h2
    split at h2
    · rename_i hy; subst hy; rw [ho] at hown; exact ha (Option.some.inj hown)
    · exact h2 hown
  | mint d y ho hl =>
    exfalso
    simp only [AMap.get_set] at h2
    split at h2
    · rename_i hy; subst hy; rw [ho] at hown; cases hown
    · exact h2 hown
  | burn x y ho ha =>
    exfalso
    simp only [AMap.get_erase] at h2
    split at h2
    · rename_i hy; subst hy; rw [ho] at hown; exact ha (Option.some.inj hown)
    · exact h2 hown

/-- **C74.** Unstaking, in every history: the sender names different tokens listed as staked by them. Their
power and the total drop by their number; the tokens are returned at once, or they wait for the period. -/
theorem C74_unstake {w w' : World} {b b' : Block} {log : List Event} {a : Addr}
    {ts : List Tok} {out : Out} (h : sys.Reach w b log)
    (hs : sys.step w b' (.exec a (.unstake ts)) = .ok (w', out)) :
    ts ≠ [] ∧ ts.Nodup ∧ (∀ t ∈ ts, t ∈ stakedNfts w a) ∧
    (∀ q t, t ∈ stakedNfts w' q ↔ t ∈ stakedNfts w q ∧ ¬ (q = a ∧ t ∈ ts)) ∧
    w'.n.c.balanceOf a + ts.length = w.n.c.balanceOf a ∧ w'.n.c.total + ts.length = w.n.c.total ∧
    (match w.n.c.unstakingDuration with
      | none => (∀ t ∈ ts, owner w' t = some a) ∧ w'.n.c.claims = w.n.c.claims
      | some d => w'.n.owners = w.n.owners ∧
          w'.n.c.claims.of a = w.n.c.claims.of a ++ ts.map (fun t => ⟨t, d.after b'⟩)) := by
  have hi := basic_reach h
  simp only [stakedNfts, mem_staked]
  have hs' : step w b' (.exec a (.unstake ts)) = .ok (w', out) := hs
  cases step_effect hs' with
  | shared _ _ m' n _ hm ha he hx =>
    simp only [Msg.shared, Option.some.injEq] at hm
    subst hm
    cases he with
    | payout _ _ m o _ hx hts hm hd ht hba ho hh hsend =>
      have hr := NftStaked.removeAll_inv hi.wf hm
      obtain ⟨g1, g2, g3, g4⟩ := NftStaked.giveBack_inv ha ho
      have e1 : (afterUnstake w.n.c b' a ts.length m).balanceOf a = w.n.c.balanceOf a - ts.length :=
        (NftStaked.bal_save w.n.c a a _ _).trans (by simp)
      have e2 : (afterUnstake w.n.c b' a ts.length m).total = w.n.c.total - ts.length :=
        NftStaked.total_save _ _ _
      refine ⟨hts, hr.nodup, hr.had, ?_, by rw [e1]; omega, by rw [e2]; omega, ?_⟩
      · intro q t
        show m.get (q, t) = some () ↔ _
        rw [hr.get]
        by_cases hq : q = a ∧ t ∈ ts <;> simp [hq]
      · rw [hd]
        refine ⟨?_, rfl⟩
        intro t ht
        simp only [owner, g2, ht, if_true]
    | unbond _ _ m d _ hx hts hm hd hlen ht hba hh hsend =>
      have hr := NftStaked.removeAll_inv hi.wf hm
      have e1 : NftStaked.State.balanceOf { afterUnstake w.n.c b' a ts.length m with
          claims := w.n.c.claims.create a ts (d.after b') } a = w.n.c.balanceOf a - ts.length :=
        (NftStaked.bal_save w.n.c a a _ _).trans (by simp)
      have e2 : NftStaked.State.total { afterUnstake w.n.c b' a ts.length m with
          claims := w.n.c.claims.create a ts (d.after b') } = w.n.c.total - ts.length :=
        NftStaked.total_save _ _ _
      refine ⟨hts, hr.nodup, hr.had, ?_, by rw [e1]; omega, by rw [e2]; omega, ?_⟩
      · intro q t
        show m.get (q, t) = some () ↔ _
        rw [hr.get]
        by_cases hq : q = a ∧ t ∈ ts <;> simp [hq]
      · rw [hd]
        refine ⟨rfl, ?_⟩
        unfold NftClaims.create
        rw [NftClaims.of_set, if_pos rfl]
    | admin _ c hsm hm => exact absurd rfl (hm.1 ts)

/-- **C74**, while the DAO spares what is kept: a staker can always unstake any non-empty list of different
tokens they staked, as long as at most 70 of their tokens wait. -/
theorem C74_unstakeable_partial {w : World} {b b' : Block} {log : List Event}
    (h : sys.Reach w b log) (hsp : ∀ e ∈ log, Spares e) {a : Addr} (ha : a ≠ w.n.self) {ts : List Tok}
    (hts : ts ≠ []) (hn : ts.Nodup) (hst : ∀ t ∈ ts, t ∈ stakedNfts w a)
    (hlen : w.n.c.unstakingDuration = none ∨ (waiting w a).length + ts.length ≤ 70) :
    ∃ w' out, sys.step w b' (.exec a (.unstake ts)) = .ok (w', out) := by
  obtain ⟨c, out, o, hx, ho⟩ := NftStaked.unstake_exec (good_reach h hsp).inv b' hts hn hst hlen
  have hsnd : decide (a ≠ w.n.self) = true := decide_eq_true ha
  refine ⟨{ w with n := { w.n with c := c, owners := o } }, out, ?_⟩
  simp only [sys, step, hsnd, require, if_true, ok_bind, exec, execShared, hx, ho]

/-- **C74**, while the DAO spares what is kept: once a claim is mature its owner can take it, with all other
mature ones; those not yet mature stay. -/
theorem C74_claimable_partial {w : World} {b b' : Block} {log : List Event}
    (h : sys.Reach w b log) (hsp : ∀ e ∈ log, Spares e) {a : Addr} (ha : a ≠ w.n.self) {cl : NftClaim}
    (hcl : cl ∈ w.n.c.claims.of a) (hm : cl.releaseAt.isExpired b' = true) :
    ∃ w' out, sys.step w b' (.exec a .claimNfts) = .ok (w', out) ∧
      (∀ x ∈ w.n.c.claims.of a, x.releaseAt.isExpired b' = true → owner w' x.token = some a) ∧
      w'.n.c.claims.of a = (w.n.c.claims.of a).filter (fun x => !x.releaseAt.isExpired b') := by
  obtain ⟨o, hx, ho⟩ := NftStaked.claim_exec (good_reach h hsp).inv hcl hm
  obtain ⟨g1, g2, g3, g4⟩ := NftStaked.giveBack_inv ha ho
  have hsnd : decide (a ≠ w.n.self) = true := decide_eq_true ha
  refine ⟨{ w with n := { w.n with
      c := { w.n.c with claims := AMap.set w.n.c.claims a (remaining w.n.c b' a) }, owners := o } },
    { send := (matured w.n.c b' a).map (fun t => (a, t)) }, ?_, ?_, ?_⟩
  · simp only [sys, step, hsnd, require, if_true, ok_bind, exec, execShared, hx, ho]
  · intro x hx he
    have : x.token ∈ matured w.n.c b' a := List.mem_map.2 ⟨x, List.mem_filter.2 ⟨hx, he⟩, rfl⟩
    simp only [owner, g2, this, if_true]
  · simp only [NftClaims.of_set, if_true]; rfl

/-- **C74.** A claim takes exactly the mature tokens of the sender and nothing before its time, in every
history. -/
theorem C74_claim {w w' : World} {b' : Block} {a : Addr} {out : Out}
    (hs : sys.step w b' (.exec a .claimNfts) = .ok (w', out)) :
    (∀ t, owner w' t = if ∃ x ∈ w.n.c.claims.of a, x.token = t ∧ x.releaseAt.isExpired b' = true then some a
      else owner w t) ∧
    (∃ x ∈ w.n.c.claims.of a, x.releaseAt.isExpired b' = true) ∧
    w'.n.c.claims.of a = (w.n.c.claims.of a).filter (fun x => !x.releaseAt.isExpired b') := by
  have hs' : step w b' (.exec a .claimNfts) = .ok (w', out) := hs
  cases step_effect hs' with
  | shared _ _ m' n _ hm ha he hx =>
    simp only [Msg.shared, Option.some.injEq] at hm
    subst hm
    cases he with
    | claim _ o hx hm ho =>
      obtain ⟨g1, g2, g3, g4⟩ := NftStaked.giveBack_inv ha ho
      refine ⟨?_, ?_, ?_⟩
      · intro t
        simp only [owner, g2]
        have e : t ∈ matured w.n.c b' a ↔
            ∃ x ∈ w.n.c.claims.of a, x.token = t ∧ x.releaseAt.isExpired b' = true := by
          unfold matured
          simp only [List.mem_map, List.mem_filter]
          constructor
          · rintro ⟨x, ⟨h1, h2⟩, h3⟩; exact ⟨x, h1, h3, h2⟩
          · rintro ⟨x, h1, h3, h2⟩; exact ⟨x, ⟨h1, h2⟩, h3⟩
        simp only [e]
      · obtain ⟨t, ht⟩ := List.exists_mem_of_ne_nil _ hm
        unfold matured at ht
        simp only [List.mem_map, List.mem_filter] at ht
        obtain ⟨x, ⟨h1, h2⟩, _⟩ := ht
        exact ⟨x, h1, h2⟩
      · simp only [NftClaims.of_set, if_true]; rfl
    | admin _ c hsm hm => exact absurd rfl hm.2.1

/-- **C74.** Nobody else touches what an address has staked or waits for, in any history: the lists and the
power change only by its own calls that confirm, unstake or claim. -/
theorem C74_others {w w' : World} {b b' : Block} {log : List Event} {call : Call}
    {out : Out} (h : sys.Reach w b log) (hs : sys.step w b' call = .ok (w', out)) {a : Addr}
    (h1 : ∀ ts, call ≠ .exec a (.unstake ts)) (h2 : call ≠ .exec a .claimNfts)
    (h3 : ∀ ts, call ≠ .exec a (.confirmStake ts)) :
    w'.n.c.claims.of a = w.n.c.claims.of a ∧ (∀ t, t ∈ stakedNfts w' a ↔ t ∈ stakedNfts w a) ∧
      w'.n.c.balanceOf a = w.n.c.balanceOf a := by
  have hi := basic_reach h
  simp only [stakedNfts, mem_staked]
  cases step_effect hs with
  | prepare => exact ⟨rfl, fun _ => Iff.rfl, rfl⟩
  | confirm x ts hx hp hsm =>
    have hne : x ≠ a := by rintro rfl; exact h3 ts rfl
    refine ⟨rfl, fun t => ?_, (NftStaked.bal_save w.n.c x a _ _).trans (if_neg hne)⟩
    simp [afterConfirm, get_stakeAll, Ne.symm hne]
  | cancel => exact ⟨rfl, fun _ => Iff.rfl, rfl⟩
  | shared x m m' n _ hm hx he hx' =>
    cases he with
    | payout _ ts mm o _ _ hts hrm hd ht hba ho hh hsend =>
      have hne : x ≠ a := by
        rintro rfl
        cases m <;> simp only [Msg.shared, Option.some.injEq, reduceCtorEq, NftStaked.Msg.unstake.injEq] at hm
        exact h1 _ rfl
      refine ⟨rfl, fun t => ?_, (NftStaked.bal_save w.n.c x a _ _).trans (if_neg hne)⟩
      show mm.get (a, t) = some () ↔ _
      rw [(NftStaked.removeAll_inv hi.wf hrm).get]; simp [Ne.symm hne]
    | unbond _ ts mm d _ _ hts hrm hd hlen ht hba hh hsend =>
      have hne : x ≠ a := by
        rintro rfl
        cases m <;> simp only [Msg.shared, Option.some.injEq, reduceCtorEq, NftStaked.Msg.unstake.injEq] at hm
        exact h1 _ rfl
      refine ⟨?_, fun t => ?_, (NftStaked.bal_save w.n.c x a _ _).trans (if_neg hne)⟩
      · show NftClaims.of (NftClaims.create _ _ _ _) a = _
        unfold NftClaims.create; rw [NftClaims.of_set, if_neg hne]
      · show mm.get (a, t) = some () ↔ _
        rw [(NftStaked.removeAll_inv hi.wf hrm).get]; simp [Ne.symm hne]
    | claim _ o _ hmat ho =>
      have hne : x ≠ a := by
        rintro rfl
        cases m <;> simp only [Msg.shared, Option.some.injEq, reduceCtorEq] at hm
        exact h2 rfl
      exact ⟨by simp only [NftClaims.of_set, hne, if_false], fun t => Iff.rfl, rfl⟩
    | admin _ c hsm hmm =>
      exact ⟨by simp only [hsm.claims], fun t => by simp only [hsm.staked],
        by simp only [NftStaked.State.balanceOf, hsm.balances]⟩
  | transfer => exact ⟨rfl, fun _ => Iff.rfl, rfl⟩
  | mint => exact ⟨rfl, fun _ => Iff.rfl, rfl⟩
  | burn => exact ⟨rfl, fun _ => Iff.rfl, rfl⟩

/-- **C74.** The DAO, the waiting time, the threshold and the hooks change only by the DAO's own calls;
the collection never changes. -/
theorem C74_admin {w w' : World} {b : Block} {call : Call} {out : Out}
    (hs : sys.step w b call = .ok (w', out)) :
    w'.n.c.nft = w.n.c.nft ∧ w'.n.c.dao = w.n.c.dao ∧ w'.n.self = w.n.self ∧
    ((∃ m, call = .exec w.n.c.dao m) ∨ (w'.n.c.unstakingDuration = w.n.c.unstakingDuration ∧
      w'.n.c.threshold = w.n.c.threshold ∧ w'.n.c.hooks = w.n.c.hooks)) := by
  cases step_effect hs with
  | shared x m m' n _ hm hx he hx' =>
    cases he with
    | admin _ c hsm hmm => exact ⟨hsm.nft, hsm.dao, rfl, Or.inl ⟨m, rfl⟩⟩
    | _ => exact ⟨rfl, rfl, rfl, Or.inr ⟨rfl, rfl, rfl⟩⟩
  | _ => exact ⟨rfl, rfl, rfl, Or.inr ⟨rfl, rfl, rfl⟩⟩

theorem hookMsgs_eq (l : Hooks.HookList) (i : Bool) (a : Addr) (ts : List Tok) :
    NftStaked.hookMsgs l i a ts = (l.getD []).map (fun k => (⟨k, i, a, ts⟩ : HookMsg)) := by
  unfold NftStaked.hookMsgs Hooks.prepareHooks
  rw [show (fun p : Addr × Nat => (⟨p.1, i, a, ts⟩ : HookMsg)) = (fun k => ⟨k, i, a, ts⟩) ∘ Prod.fst from rfl,
    ← List.map_map, List.zipIdx_map_fst]
  rfl

/-- **C74.** Every hook is told of every NFT staked and of every unstake: by whom, and which tokens; nobody
is told anything else. -/
theorem C74_hooks {w w' : World} {b : Block} {call : Call} {out : Out}
    (hs : sys.step w b call = .ok (w', out)) :
    (∀ a ts, call = .exec a (.confirmStake ts) → ∀ m, m ∈ out.hooks ↔
      ∃ k ∈ w.n.c.hooks.getD [], ∃ t ∈ ts, m = ⟨k, true, a, [t]⟩) ∧
    (∀ a ts, call = .exec a (.unstake ts) →
      out.hooks = (w.n.c.hooks.getD []).map (fun k => ⟨k, false, a, ts⟩)) ∧
    ((∀ a ts, call ≠ .exec a (.confirmStake ts)) → (∀ a ts, call ≠ .exec a (.unstake ts)) →
      out.hooks = []) := by
  cases step_effect hs with
  | confirm x ts hx hp hsm =>
    refine ⟨?_, ?_, ?_⟩
    · intro a us h m
      cases h
      simp only [List.mem_flatten, List.mem_map, hookMsgs_eq]
      constructor
      · rintro ⟨_, ⟨t, ht, rfl⟩, hm⟩
        obtain ⟨k, hk, rfl⟩ := List.mem_map.1 hm
        exact ⟨k, hk, t, mem_sortDedup.1 ht, rfl⟩
      · rintro ⟨k, hk, t, ht, rfl⟩
        exact ⟨_, ⟨t, mem_sortDedup.2 ht, rfl⟩, List.mem_map.2 ⟨k, hk, rfl⟩⟩
    · intro a ts h; cases h
    · intro h; exact absurd rfl (h x ts)
  | shared x m m' n _ hm hx he hx' =>
    have hc : ∀ a ts, Call.exec x m ≠ .exec a (.confirmStake ts) := by
      intro a ts h; cases h; simp only [Msg.shared] at hm; cases hm
    refine ⟨fun a ts h => absurd h (hc a ts), ?_, ?_⟩
    · intro a ts h
      cases h
      simp only [Msg.shared, Option.some.injEq] at hm
      subst hm
      cases he with
      | payout _ _ mm o _ _ hts hrm hd ht hba ho hh hsend => rw [hh]; exact hookMsgs_eq _ _ _ _
      | unbond _ _ mm d _ _ hts hrm hd hlen ht hba hh hsend => rw [hh]; exact hookMsgs_eq _ _ _ _
      | admin _ c hsm hmm => exact absurd rfl (hmm.1 ts)
    · intro _ h2
      have hu : ∀ ts, m' = .unstake ts → False := by
        rintro ts rfl
        cases m <;> simp only [Msg.shared, Option.some.injEq, reduceCtorEq] at hm
        exact h2 _ _ rfl
      cases he with
      | payout _ ts => exact absurd rfl (hu ts)
      | unbond _ ts => exact absurd rfl (hu ts)
      | claim => rfl
      | admin => rfl
  | prepare => exact ⟨fun _ _ h => (by cases h), fun _ _ h => (by cases h), fun _ _ => rfl⟩
  | cancel => exact ⟨fun _ _ h => (by cases h), fun _ _ h => (by cases h), fun _ _ => rfl⟩
  | transfer => exact ⟨fun _ _ h => (by cases h), fun _ _ h => (by cases h), fun _ _ => rfl⟩
  | mint => exact ⟨fun _ _ h => (by cases h), fun _ _ h => (by cases h), fun _ _ => rfl⟩
  | burn => exact ⟨fun _ _ h => (by cases h), fun _ _ h => (by cases h), fun _ _ => rfl⟩

/-! ## C75 -/

/-- **C75.** Preparing: everybody but the contract can, for NFTs that they own, all of them; and it changes
nothing but the record of who prepared. -/
theorem C75_prepare (w : World) (b : Block) (a : Addr) (ts : List Tok) :
    ((∃ w' out, sys.step w b (.exec a (.prepareStake ts)) = .ok (w', out)) ↔
      a ≠ w.n.self ∧ ∀ t ∈ ts, owner w t = some a) ∧
    (∀ w' out, sys.step w b (.exec a (.prepareStake ts)) = .ok (w', out) → w'.n = w.n) := by
  refine ⟨⟨?_, ?_⟩, ?_⟩
  · rintro ⟨w', out, hs⟩
    have hs' : step w b (.exec a (.prepareStake ts)) = .ok (w', out) := hs
    cases step_effect hs' with
    | prepare _ _ ha ho => exact ⟨ha, ho⟩
    | shared _ _ m' n _ hm => simp only [Msg.shared] at hm; cases hm
  · rintro ⟨ha, ho⟩
    have hq := queryOwners_exists (o := w.n.owners) (ts := ts) (fun t ht => by rw [show w.n.owners.get t = some a from ho t ht]; rfl)
    have hall : (ts.map (fun t => (w.n.owners.get t).getD 0)).all (fun o => decide (o = a)) = true := by
      rw [List.all_eq_true]
      intro x hx
      obtain ⟨t, ht, rfl⟩ := List.mem_map.1 hx
      rw [show w.n.owners.get t = some a from ho t ht]; simp
    have hsnd : decide (a ≠ w.n.self) = true := decide_eq_true ha
    refine ⟨{ w with prepared := prepareAll w.prepared a ts }, {}, ?_⟩
    simp only [sys, step, hsnd, require, if_true, ok_bind, exec, execPrepare, hq, hall, giveBack]
  · intro w' out hs
    have hs' : step w b (.exec a (.prepareStake ts)) = .ok (w', out) := hs
    cases step_effect hs' with
    | prepare _ _ ha ho => rfl
    | shared _ _ m' n _ hm => simp only [Msg.shared] at hm; cases hm

/-- **C75.** Confirming, in every history: every NFT named was last prepared by the sender, neither confirmed
nor cancelled since, and the contract owns it now. The sender's power and the total rise by the number of
different NFTs named (`ids`: the same NFTs, each once), exactly these are added to the sender's list, no NFT
moves, and nothing else changes. -/
theorem C75_confirm {w w' : World} {b b' : Block} {log : List Event} {a : Addr} {ts ids : List Tok} {out : Out}
    (h : sys.Reach w b log) (hs : sys.step w b' (.exec a (.confirmStake ts)) = .ok (w', out))
    (hn : ids.Nodup) (hids : ∀ t, t ∈ ids ↔ t ∈ ts) :
    (∀ t ∈ ts, preparedBy t log = some a ∧ owner w t = some w.n.self) ∧
    w'.n.c.balanceOf a = w.n.c.balanceOf a + ids.length ∧ w'.n.c.total = w.n.c.total + ids.length ∧
    (∀ q t, t ∈ stakedNfts w' q ↔ t ∈ stakedNfts w q ∨ (q = a ∧ t ∈ ts)) ∧
    w'.n.owners = w.n.owners ∧ w'.n.c.claims = w.n.c.claims := by
  have hlen : (sortDedup ts).length = ids.length :=
    List.Perm.length_eq ((List.perm_ext_iff_of_nodup (sortDedup_nodup ts) hn).2
      (fun t => mem_sortDedup.trans (hids t).symm))
  have hs' : step w b' (.exec a (.confirmStake ts)) = .ok (w', out) := hs
  cases step_effect hs' with
  | confirm _ _ ha hp hsm =>
    refine ⟨?_, ?_, ?_, ?_, rfl, rfl⟩
    · intro t ht
      rw [← (prepared_reach h t).1]; exact hp t ht
    · refine (NftStaked.bal_save w.n.c a a _ _).trans ?_
      rw [if_pos rfl, hlen]
    · refine (NftStaked.total_save _ _ _).trans ?_
      rw [hlen]
    · intro q t
      simp only [stakedNfts, mem_staked, afterConfirm, get_stakeAll, mem_sortDedup]
      by_cases hq : q = a ∧ t ∈ ts <;> simp [hq]
  | shared _ _ m' n _ hm => simp only [Msg.shared] at hm; cases hm

/-- **C75.** Whoever prepared NFTs that the contract owns now can confirm, in every history, as long as the
total fits its 128 bits. -/
theorem C75_confirmable {w : World} {b b' : Block} {log : List Event} {a : Addr} {ts : List Tok}
    (h : sys.Reach w b log) (hp : ∀ t ∈ ts, preparedBy t log = some a ∧ owner w t = some w.n.self)
    (ha : a ≠ w.n.self) (hlt : w.n.c.total + ts.length < U128) :
    ∃ w' out, sys.step w b' (.exec a (.confirmStake ts)) = .ok (w', out) := by
  have hi := basic_reach h
  have hle : (sortDedup ts).length ≤ ts.length :=
    (List.Nodup.subperm (sortDedup_nodup ts) (fun t ht => mem_sortDedup.1 ht)).length_le
  have hble : w.n.c.balanceOf a ≤ w.n.c.total := by
    rw [hi.sum, NftStaked.balanceOf_cur]; exact getD0_le_total _ _
  have e1 : add128 (w.n.c.balanceOf a) (sortDedup ts).length =
      .ok (w.n.c.balanceOf a + (sortDedup ts).length) := by
    rw [add128_ok]; exact ⟨by omega, rfl⟩
  have e2 : add128 w.n.c.total (sortDedup ts).length = .ok (w.n.c.total + (sortDedup ts).length) := by
    rw [add128_ok]; exact ⟨by omega, rfl⟩
  have hp' : ∀ t ∈ sortDedup ts, w.prepared.get t = some a ∧ w.n.owners.get t = some w.n.self := by
    intro t ht
    have := hp t (mem_sortDedup.1 ht)
    rw [← (prepared_reach h t).1] at this; exact this
  have hq := queryOwners_exists (o := w.n.owners) (ts := sortDedup ts)
    (fun t ht => by rw [(hp' t ht).2]; rfl)
  have hall : ((sortDedup ts).all (fun t => decide (w.prepared.get t = some a)) &&
      ((sortDedup ts).map (fun t => (w.n.owners.get t).getD 0)).all (fun o => decide (o = w.n.self))) = true := by
    rw [Bool.and_eq_true, List.all_eq_true, List.all_eq_true]
    refine ⟨fun t ht => decide_eq_true (hp' t ht).1, ?_⟩
    intro x hx
    obtain ⟨t, ht, rfl⟩ := List.mem_map.1 hx
    rw [(hp' t ht).2]; simp
  have hsnd : decide (a ≠ w.n.self) = true := decide_eq_true ha
  refine ⟨{ n := { w.n with c := afterConfirm w.n.c b' a (sortDedup ts) }
            prepared := unprepareAll w.prepared (sortDedup ts) },
    { hooks := ((sortDedup ts).map (fun t => NftStaked.hookMsgs w.n.c.hooks true a [t])).flatten }, ?_⟩
  simp only [sys, step, hsnd, require, if_true, ok_bind, exec, execConfirm, hq, hall, registerStaked, e1, e2,
    giveBack]
  rfl

/-- **C75.** Somebody's power rises only by their own confirming call. -/
theorem C75_rise {w w' : World} {b b' : Block} {log : List Event} {call : Call}
    {out : Out} (h : sys.Reach w b log) (hs : sys.step w b' call = .ok (w', out)) {a : Addr}
    (hlt : w.n.c.balanceOf a < w'.n.c.balanceOf a) : ∃ ts, call = .exec a (.confirmStake ts) ∧ ts ≠ [] := by
  by_cases h1 : ∃ ts, call = .exec a (.unstake ts)
  · obtain ⟨ts, rfl⟩ := h1
    have := (C74_unstake h hs).2.2.2.2.1
    omega
  by_cases h2 : call = .exec a .claimNfts
  · subst h2
    exfalso
    have hs' : step w b' (.exec a .claimNfts) = .ok (w', out) := hs
    cases step_effect hs' with
    | shared _ _ m' n _ hm ha he hx =>
      simp only [Msg.shared, Option.some.injEq] at hm
      subst hm
      cases he with
      | claim => exact Nat.lt_irrefl _ hlt
      | admin _ c hsm hm => exact absurd rfl hm.2.1
  by_cases h3 : ∃ ts, call = .exec a (.confirmStake ts)
  · obtain ⟨ts, rfl⟩ := h3
    refine ⟨ts, rfl, ?_⟩
    rintro rfl
    have := (C75_confirm (ids := []) h hs List.nodup_nil (by simp)).2.1
    simp at this; omega
  · have := (C74_others h hs (fun ts e => h1 ⟨ts, e⟩) h2 (fun ts e => h3 ⟨ts, e⟩)).2.2
    omega

/-- **C75.** Cancelling, in every history. Only the DAO can cancel for others: everybody else names NFTs that
they own or prepared last. Every NFT named that the contract owns goes back: from the DAO's call to the
recipient it names or else to who prepared it, from anybody else's call to the sender. No other NFT moves, the
lists and powers stay, also those of an NFT that the DAO takes. -/
theorem C75_cancel {w w' : World} {b b' : Block} {log : List Event} {a : Addr} {ts : List Tok}
    {r : Option Addr} {out : Out} (h : sys.Reach w b log)
    (hs : sys.step w b' (.exec a (.cancelStake ts r)) = .ok (w', out)) :
    (a ≠ w.n.c.dao → ∀ t ∈ ts, owner w t = some a ∨ preparedBy t log = some a) ∧
    (∀ t, owner w' t = if t ∈ ts ∧ owner w t = some w.n.self
      then (if a = w.n.c.dao then r.or (preparedBy t log) else some a) else owner w t) ∧
    (∀ t, (owner w' t).isSome = (owner w t).isSome) ∧ w'.n.c = w.n.c := by
  have hs' : step w b' (.exec a (.cancelStake ts r)) = .ok (w', out) := hs
  cases step_effect hs' with
  | cancel _ _ _ f p o ha hp hex ho hf =>
    obtain ⟨g1, g2, g3, g4⟩ := giveBack_fun ho
    refine ⟨?_, ?_, ?_, rfl⟩
    · intro hne t ht
      rcases hf with ⟨e, _⟩ | ⟨_, _, h3⟩
      · exact absurd e hne
      · rw [← (prepared_reach h t).1]; exact h3 t ht
    · intro t
      unfold owner
      simp only [g2, mem_ours]
      split
      · rename_i hin
        rcases hf with ⟨e, h2⟩ | ⟨e, h2, _⟩
        · rw [if_pos e, ← (prepared_reach h t).1]; exact h2 t (mem_ours.2 hin)
        · rw [if_neg e, h2]
      · rfl
    · intro t
      unfold owner
      simp only [g2, mem_ours]
      split
      · rename_i hin; rw [hin.2]; rfl
      · rfl
  | shared _ _ m' n _ hm => simp only [Msg.shared] at hm; cases hm

/-- **C75.** An NFT leaves the contract only in one of these ways, in every history: the DAO cancels; the one
who prepared it last cancels, and gets it; somebody unstakes it who it is listed for, and gets it; or somebody
claims who waits for it, and gets it. -/
theorem C75_leaves {w w' : World} {b b' : Block} {log : List Event} {call : Call} {out : Out}
    (h : sys.Reach w b log) (hs : sys.step w b' call = .ok (w', out)) {t : Tok}
    (h1 : owner w t = some w.n.self) (h2 : owner w' t ≠ some w'.n.self) :
    (∃ ts r, call = .exec w.n.c.dao (.cancelStake ts r) ∧ t ∈ ts ∧ owner w' t = r.or (preparedBy t log)) ∨
    (∃ a, owner w' t = some a ∧
      ((∃ ts r, call = .exec a (.cancelStake ts r) ∧ t ∈ ts ∧ preparedBy t log = some a) ∨
       (∃ ts, call = .exec a (.unstake ts) ∧ t ∈ ts ∧ t ∈ stakedNfts w a ∧ w.n.c.unstakingDuration = none) ∨
       (call = .exec a .claimNfts ∧ t ∈ waiting w a))) := by
  have hb := basic_reach h
  have h0 := hs
  unfold owner at h1 h2
  cases step_effect hs with
  | prepare => exact absurd h1 h2
  | confirm => exact absurd h1 h2
  | cancel x ts r f p o ha hp hex ho hf =>
    obtain ⟨g1, g2, g3, g4⟩ := giveBack_fun ho
    have hin : t ∈ ts := by
      simp only [g2, mem_ours] at h2
      split at h2
      · rename_i hin; exact hin.1
      · exact absurd h1 h2
    obtain ⟨c1, c2, _, _⟩ := C75_cancel h h0
    have e := c2 t
    rw [if_pos ⟨hin, h1⟩] at e
    by_cases hd : x = w.n.c.dao
    · rw [if_pos hd] at e
      exact Or.inl ⟨ts, r, by rw [hd], hin, e⟩
    · rw [if_neg hd] at e
      refine Or.inr ⟨x, e, Or.inl ⟨ts, r, rfl, hin, ?_⟩⟩
      rcases c1 hd t hin with hh | hh
      · unfold owner at hh; rw [h1] at hh; exact absurd (Option.some.inj hh).symm ha
      · exact hh
  | shared x m m' n out hm ha he hx =>
    cases he with
    | payout _ ts mm o _ ha' hts hrm hd ht hba ho hh hsend =>
      obtain ⟨g1, g2, g3, g4⟩ := NftStaked.giveBack_inv ha ho
      have hr := NftStaked.removeAll_inv hb.wf hrm
      simp only [g2] at h2
      split at h2
      · rename_i hin
        have hm' : m = .unstake ts := by
          cases m <;> simp only [Msg.shared, Option.some.injEq, reduceCtorEq, NftStaked.Msg.unstake.injEq] at hm
          rw [hm]
        refine Or.inr ⟨x, ?_, Or.inr (Or.inl ⟨ts, by rw [hm'], hin, mem_staked.2 (hr.had t hin), hd⟩)⟩
        simp only [owner, g2, hin, if_true]
      · exact absurd h1 h2
    | unbond => exact absurd h1 h2
    | claim _ o ha' hmat ho =>
      obtain ⟨g1, g2, g3, g4⟩ := NftStaked.giveBack_inv ha ho
      simp only [g2] at h2
      split at h2
      · rename_i hin
        have hq : t ∈ queued w.n.c x := (NftStaked.queued_split w.n.c b' x t).2 (Or.inl hin)
        have hm' : m = .claimNfts := by
          cases m <;> simp only [Msg.shared, Option.some.injEq, reduceCtorEq] at hm; rfl
        refine Or.inr ⟨x, ?_, Or.inr (Or.inr ⟨by rw [hm'], hq⟩)⟩
        simp only [owner, g2, hin, if_true]
      · exact absurd h1 h2
    | admin => exact absurd h1 h2
  | transfer x d y ho ha =>
    exfalso
    simp only [AMap.get_set] at h2
    split at h2
    · rename_i hy; subst hy; rw [ho] at h1; exact ha (Option.some.inj h1)
    · exact h2 h1
  | mint d y ho hl =>
    exfalso
    simp only [AMap.get_set] at h2
    split at h2
    · rename_i hy; subst hy; rw [ho] at h1; cases h1
    · exact h2 h1
  | burn x y ho ha =>
    exfalso
    simp only [AMap.get_erase] at h2
    split at h2
    · rename_i hy; subst hy; rw [ho] at h1; exact ha (Option.some.inj h1)
    · exact h2 h1

/-- **C75.** An NFT that was transferred but not confirmed is not lost: in every history the one who prepared
it last can have it back at once. -/
theorem C75_recover {w : World} {b b' : Block} {log : List Event} (h : sys.Reach w b log) {a : Addr} {t : Tok}
    (hp : preparedBy t log = some a) (ho : owner w t = some w.n.self) :
    ∃ w' out, sys.step w b' (.exec a (.cancelStake [t] none)) = .ok (w', out) ∧ owner w' t = some a := by
  obtain ⟨e, hne⟩ := prepared_reach h t
  rw [hp] at e hne
  have ha : a ≠ w.n.self := fun e => hne (by rw [e])
  have ho' : w.n.owners.get t = some w.n.self := ho
  have hsnd : decide (a ≠ w.n.self) = true := decide_eq_true ha
  have hq : queryOwners w.n.owners [t] = .ok [w.n.self] := by
    have := queryOwners_exists (o := w.n.owners) (ts := [t]) (by simp [ho'])
    rw [this]; simp [ho']
  have hg : giveBack w.n.owners w.n.self [(a, t)] = .ok (w.n.owners.set t a) := by
    simp only [giveBack, ho', decide_true, require, if_true, ok_bind]
  refine ⟨{ n := { w.n with owners := w.n.owners.set t a }, prepared := w.prepared.erase t },
    { send := [(a, t)] }, ?_, by simp [owner]⟩
  by_cases hd : a = w.n.c.dao
  · simp only [sys, step, hsnd, require, if_true, ok_bind, exec, execCancel, hq, if_pos hd, withPreparers, e,
      cancelByDao, Option.none_or, orErr, Option.isSome_some, hg]
  · simp only [sys, step, hsnd, require, if_true, ok_bind, exec, execCancel, hq, if_neg hd, withPreparers, e,
      cancelByUser, or_true, decide_true, orErr, hg]

/-- **C75.** The DAO can send any NFT that the contract owns to anybody, in every history. -/
theorem C75_dao {w : World} {b' : Block} (hd : w.n.c.dao ≠ w.n.self) {t : Tok}
    (ho : owner w t = some w.n.self) (r : Addr) :
    ∃ w' out, sys.step w b' (.exec w.n.c.dao (.cancelStake [t] (some r))) = .ok (w', out) ∧
      owner w' t = some r := by
  have ho' : w.n.owners.get t = some w.n.self := ho
  have hsnd : decide (w.n.c.dao ≠ w.n.self) = true := decide_eq_true hd
  have hq : queryOwners w.n.owners [t] = .ok [w.n.self] := by
    have := queryOwners_exists (o := w.n.owners) (ts := [t]) (by simp [ho'])
    rw [this]; simp [ho']
  have hg : giveBack w.n.owners w.n.self [(r, t)] = .ok (w.n.owners.set t r) := by
    simp only [giveBack, ho', decide_true, require, if_true, ok_bind]
  refine ⟨{ n := { w.n with owners := w.n.owners.set t r }
            prepared := if (w.prepared.get t).isSome then w.prepared.erase t else w.prepared },
    { send := [(r, t)] }, ?_, by simp [owner]⟩
  simp only [sys, step, hsnd, require, if_true, ok_bind, exec, execCancel, hq, withPreparers,
    cancelByDao, Option.some_or, orErr, hg]

/-! ## C32, C73 -/

/-- A stored percentage is valid. -/
theorem threshold_valid {w : World} {b : Block} {log : List Event}
    (h : sys.Reach w b log) {p : Nat} (hp : w.n.c.threshold = some (.percentage p)) :
    assertValidPercentage p = .ok () := by
  refine Sys.Reach.induct (M := sys) (P := fun w _ _ => ∀ p, w.n.c.threshold = some (.percentage p) →
    assertValidPercentage p = .ok ()) ?_ ?_ h p hp
  · intro b w hi p hp
    obtain ⟨_, _, _, dao, nft, d, t, hi⟩ := hi
    simp only [NftStaked.instantiate, bind_ok, Except.ok.injEq] at hi
    obtain ⟨_, _, _, hc, hi⟩ := hi
    rw [← hi] at hp
    simp only at hp
    subst hp
    exact hc
  · intro w b l env call out w' _ ih hb hs p hp
    cases step_effect hs with
    | shared x m m' n _ hm hx he hx' =>
      cases he with
      | admin _ c hsm hmm =>
        simp only at hx'
        cases m' with
        | receiveNft x t => exact absurd rfl (hmm.2.2 x t)
        | unstake ts => exact absurd rfl (hmm.1 ts)
        | claimNfts => exact absurd rfl hmm.2.1
        | updateConfig d =>
          simp only [NftStaked.exec, bind_ok, Except.ok.injEq, Prod.mk.injEq] at hx'
          obtain ⟨_, _, _, _, rfl, _⟩ := hx'
          exact ih p hp
        | addHook d =>
          simp only [NftStaked.exec, bind_ok, Except.ok.injEq, Prod.mk.injEq] at hx'
          obtain ⟨_, _, _, _, rfl, _⟩ := hx'
          exact ih p hp
        | removeHook d =>
          simp only [NftStaked.exec, bind_ok, Except.ok.injEq, Prod.mk.injEq] at hx'
          obtain ⟨_, _, _, _, rfl, _⟩ := hx'
          exact ih p hp
        | updateActiveThreshold t =>
          simp only [NftStaked.exec, bind_ok, Except.ok.injEq, Prod.mk.injEq] at hx'
          obtain ⟨_, _, _, hc, rfl, _⟩ := hx'
          simp only at hp
          subst hp
          exact hc
      | _ => exact ih p hp
    | _ => exact ih p hp

/-- **C32.** In every reachable state the query answers, and answers as documented: true without a
threshold, that the count is staked, or that something and the fraction of the supply is staked. What is
staked is what was staked when the block began. -/
theorem C32_onft_active {w : World} {b now : Block} {log : List Event} (h : sys.Reach w b log) :
    ∃ r, active w now = .ok r ∧
      (r = true ↔ match w.n.c.threshold with
        | none => True
        | some (.absolute n) => n ≤ (totalPower w now none).1
        | some (.percentage p) => 0 < (totalPower w now none).1 ∧
          fraction p * (w.n.owners.length : ℚ) < ((totalPower w now none).1 : ℚ) + 1 / 10 ^ 9) := by
  have hsup : w.n.owners.length < U128 := Nat.lt_trans (basic_reach h).small NftStaked.U64_lt_U128
  unfold active
  cases ht : w.n.c.threshold with
  | none => exact ⟨true, rfl, by simp⟩
  | some t =>
    cases t with
    | absolute n => exact ⟨decide (n ≤ (totalPower w now none).1), rfl, by simp⟩
    | percentage p => exact C32_nft hsup (threshold_valid h ht)

/-- **C73.** dao-voting-onft-staked: with all NFTs of a collection staked before the block, the DAO is active,
whatever percentage is set, and whatever count that is at most the number of NFTs. -/
theorem C73_onft_full {w : World} {b now : Block} {log : List Event}
    (h : sys.Reach w b log) (hall : w.n.c.total = w.n.owners.length) (h0 : 0 < w.n.c.total)
    (ht : ∀ n, w.n.c.threshold = some (.absolute n) → n ≤ w.n.owners.length) (hb : b.height < now.height) :
    active w now = .ok true := by
  have hpow : (totalPower w now none).1 = w.n.owners.length := by
    rw [((C70_onft h .refl (by simp) 0).2.2 hb).2]; exact hall
  have hsup : w.n.owners.length < U128 := Nat.lt_trans (basic_reach h).small NftStaked.U64_lt_U128
  have hre := Active.C32_reachable hsup
  unfold active
  rw [hpow]
  cases e : w.n.c.threshold with
  | none => rfl
  | some t =>
    cases t with
    | absolute n =>
      show Except.ok _ = _
      rw [decide_eq_true (ht n e)]
    | percentage p =>
      have := hre.1 p (threshold_valid h e)
      simp only [Active.isActiveNft, if_neg (show ¬ w.n.owners.length = 0 by omega)]
      exact this

/-! ## Concrete histories

Contract 9 of DAO 1, collection 8, unstaking at once, active at 40 percent. -/

def exW : World :=
  { n := ⟨match NftStaked.instantiate ⟨1, 1⟩ 1 8 (some 4) none (some (.percentage 400000000000000000)) with
      | .ok c => c
      | .error _ => ⟨0, 0, none, [], Snap.empty, Snap.empty, [], none, none⟩, 9,
     [(4, 2), (5, 2), (6, 3), (7, 3)]⟩
    prepared := [] }

theorem exW_init : sys.init ⟨1, 1⟩ exW :=
  ⟨rfl, by unfold AMap.WF; decide +kernel, by decide +kernel, 1, 8, none,
    some (.percentage 400000000000000000), by decide +kernel⟩

/-- Who cancels. -/
def canceller : Call → Addr
  | .exec a (.cancelStake _ _) => a
  | _ => 0

/-- A case of C74 and C75 in which the DAO spares what is kept: address 2 prepares 5 and 4, transfers them and
confirms (naming 4 twice); address 3 prepares and transfers 6, and cancels; 2 unstakes 4. In between the
module reports what it should. -/
theorem C74_example : ∃ w b log, sys.Reach w b log ∧ (∀ e ∈ log, Spares e) ∧
    stakedNfts w 2 = [5] ∧ owner w 5 = some 9 ∧ owner w 4 = some 2 ∧ owner w 6 = some 3 ∧
    power w ⟨4, 4⟩ 2 none = (2, 4) ∧ power w ⟨9, 9⟩ 2 none = (1, 9) ∧ active w ⟨4, 4⟩ = .ok true ∧
    active w ⟨9, 9⟩ = .ok false ∧ preparedBy 7 log = some 3 := by
  obtain ⟨w, b, log, hr, hp⟩ := Sys.check_run (M := sys) (s := exW) (b := ⟨1, 1⟩)
    (cs := [(⟨2, 2⟩, .exec 2 (.prepareStake [5, 4])), (⟨2, 2⟩, .transfer 2 9 4), (⟨2, 2⟩, .transfer 2 9 5),
      (⟨3, 3⟩, .exec 2 (.confirmStake [4, 5, 4])), (⟨4, 4⟩, .exec 3 (.prepareStake [6, 7])),
      (⟨4, 4⟩, .transfer 3 9 6), (⟨5, 5⟩, .exec 3 (.cancelStake [6] none)), (⟨6, 6⟩, .exec 2 (.unstake [4]))])
    (p := fun w _ log => decide (
      log.map (fun e => (e.pre.n.c.dao, canceller e.call)) = [(1, 0), (1, 3), (1, 0), (1, 0), (1, 0), (1, 0), (1, 0), (1, 0)] ∧
      stakedNfts w 2 = [5] ∧ owner w 5 = some 9 ∧ owner w 4 = some 2 ∧ owner w 6 = some 3 ∧
      power w ⟨4, 4⟩ 2 none = (2, 4) ∧ power w ⟨9, 9⟩ 2 none = (1, 9) ∧ active w ⟨4, 4⟩ = .ok true ∧
      active w ⟨9, 9⟩ = .ok false ∧ preparedBy 7 log = some 3))
    (by decide +kernel)
  obtain ⟨hm, hp⟩ := of_decide_eq_true hp
  refine ⟨w, b, log, ⟨_, _, exW_init, hr⟩, ?_, hp⟩
  intro e he ts r hc t ht a
  exfalso
  have hin := List.mem_map_of_mem (f := fun e : Event => (e.pre.n.c.dao, canceller e.call)) he
  rw [hm, hc] at hin
  simp only [canceller, List.mem_cons, Prod.mk.injEq, List.not_mem_nil, or_false] at hin
  revert hin
  generalize e.pre.n.c.dao = d
  intro hin
  rcases hin with ⟨rfl, h⟩ | ⟨rfl, h⟩ | ⟨rfl, h⟩ | ⟨rfl, h⟩ | ⟨rfl, h⟩ | ⟨rfl, h⟩ | ⟨rfl, h⟩ | ⟨rfl, h⟩ <;>
    exact absurd h (by decide)

/-- **C74**, why not in every history: address 2 stakes NFT 4; the DAO cancels that stake, which sends the
NFT to address 3 and leaves the stake; address 3 stakes it again. The one NFT counts for both, and both lists
name it. When address 2 unstakes, they get the NFT; address 3 keeps the power, and cannot unstake. -/
theorem C74_double_witness : ∃ w b log, sys.Reach w b log ∧
    stakedNfts w 2 = [4] ∧ stakedNfts w 3 = [4] ∧ power w ⟨9, 9⟩ 2 none = (1, 9) ∧
    power w ⟨9, 9⟩ 3 none = (1, 9) ∧ totalPower w ⟨9, 9⟩ none = (2, 9) ∧
    ∃ w' out, sys.step w ⟨9, 9⟩ (.exec 2 (.unstake [4])) = .ok (w', out) ∧ owner w' 4 = some 2 ∧
      power w' ⟨10, 10⟩ 3 none = (1, 10) ∧
      ∀ b', ¬ ∃ w'' out, sys.step w' b' (.exec 3 (.unstake [4])) = .ok (w'', out) := by
  obtain ⟨w, b, log, hr, hp⟩ := Sys.check_run (M := sys) (s := exW) (b := ⟨1, 1⟩)
    (cs := [(⟨2, 2⟩, .exec 2 (.prepareStake [4])), (⟨2, 2⟩, .transfer 2 9 4),
      (⟨3, 3⟩, .exec 2 (.confirmStake [4])), (⟨4, 4⟩, .exec 1 (.cancelStake [4] (some 3))),
      (⟨4, 4⟩, .exec 3 (.prepareStake [4])), (⟨4, 4⟩, .transfer 3 9 4), (⟨5, 5⟩, .exec 3 (.confirmStake [4]))])
    (p := fun w _ _ => decide (
      stakedNfts w 2 = [4] ∧ stakedNfts w 3 = [4] ∧ power w ⟨9, 9⟩ 2 none = (1, 9) ∧
      power w ⟨9, 9⟩ 3 none = (1, 9) ∧ totalPower w ⟨9, 9⟩ none = (2, 9)) &&
      (match sys.step w ⟨9, 9⟩ (.exec 2 (.unstake [4])) with
        | .ok (w', _) => decide (owner w' 4 = some 2 ∧ power w' ⟨10, 10⟩ 3 none = (1, 10) ∧
            w'.n.c.unstakingDuration = none ∧ w'.n.self = 9)
        | .error _ => false))
    (by decide +kernel)
  rw [Bool.and_eq_true] at hp
  obtain ⟨h1, h2⟩ := hp
  obtain ⟨c1, c2, c3, c4, c5⟩ := of_decide_eq_true h1
  have hreach : sys.Reach w b log := ⟨_, _, exW_init, hr⟩
  refine ⟨w, b, log, hreach, c1, c2, c3, c4, c5, ?_⟩
  split at h2
  · rename_i w' out hs
    obtain ⟨d1, d2, d3, d4⟩ := of_decide_eq_true h2
    refine ⟨w', out, hs, d1, d2, ?_⟩
    rintro b' ⟨w'', out', hs'⟩
    have hs'' : step w' b' (.exec 3 (.unstake [4])) = .ok (w'', out') := hs'
    have key : ∀ x n, x ≠ w'.n.self → NftStaked.Effect w'.n b' (.exec x (.unstake [4])) n out' → False := by
      intro x n ha he
      cases he with
      | payout _ _ mm o _ _ hts hrm hd ht hba ho hh hsend =>
        have := (NftStaked.giveBack_inv ha ho).1 4 (by simp)
        rw [show w'.n.owners.get 4 = some 2 from d1, d4] at this
        cases this
      | unbond _ _ mm d _ _ hts hrm hd => rw [d3] at hd; cases hd
      | admin _ c hsm hmm => exact absurd rfl (hmm.1 [4])
    cases step_effect hs'' with
    | shared _ _ m' n _ hm ha he hx =>
      simp only [Msg.shared, Option.some.injEq] at hm
      subst hm
      exact key _ _ ha he
  · cases h2

/-- **C75**, what the contract does not check: address 2 prepares NFT 4 and gives it to address 3, who
transfers it to the contract without preparing it. Address 2 confirms, and has the stake and then the NFT. -/
theorem C75_stale_witness : ∃ w b log, sys.Reach w b log ∧
    (log.map (fun e => e.call) = [.exec 2 (.unstake [4]), .exec 2 (.confirmStake [4]), .transfer 3 9 4,
      .transfer 2 3 4, .exec 2 (.prepareStake [4])]) ∧ owner w 4 = some 2 := by
  obtain ⟨w, b, log, hr, hp⟩ := Sys.check_run (M := sys) (s := exW) (b := ⟨1, 1⟩)
    (cs := [(⟨2, 2⟩, .exec 2 (.prepareStake [4])), (⟨2, 2⟩, .transfer 2 3 4), (⟨3, 3⟩, .transfer 3 9 4),
      (⟨4, 4⟩, .exec 2 (.confirmStake [4])), (⟨5, 5⟩, .exec 2 (.unstake [4]))])
    (p := fun w _ log => decide ((log.map (fun e => e.call) = [.exec 2 (.unstake [4]),
      .exec 2 (.confirmStake [4]), .transfer 3 9 4, .transfer 2 3 4, .exec 2 (.prepareStake [4])]) ∧
      owner w 4 = some 2))
    (by decide +kernel)
  exact ⟨w, b, log, ⟨_, _, exW_init, hr⟩, of_decide_eq_true hp⟩

/-- **C73**, a case: all four NFTs staked; active at 40 percent. -/
theorem C73_onft_example : ∃ w b log, sys.Reach w b log ∧ w.n.c.total = w.n.owners.length ∧ 0 < w.n.c.total ∧
    b.height < 9 ∧ active w ⟨9, 9⟩ = .ok true := by
  obtain ⟨w, b, log, hr, hp⟩ := Sys.check_run (M := sys) (s := exW) (b := ⟨1, 1⟩)
    (cs := [(⟨2, 2⟩, .exec 2 (.prepareStake [4, 5])), (⟨2, 2⟩, .transfer 2 9 4), (⟨2, 2⟩, .transfer 2 9 5),
      (⟨2, 2⟩, .exec 3 (.prepareStake [6, 7])), (⟨2, 2⟩, .transfer 3 9 6), (⟨2, 2⟩, .transfer 3 9 7),
      (⟨3, 3⟩, .exec 2 (.confirmStake [4, 5])), (⟨3, 3⟩, .exec 3 (.confirmStake [7, 6]))])
    (p := fun w b _ => decide (w.n.c.total = w.n.owners.length ∧ 0 < w.n.c.total ∧
      b.height < 9 ∧ active w ⟨9, 9⟩ = .ok true))
    (by decide +kernel)
  exact ⟨w, b, log, ⟨_, _, exW_init, hr⟩, of_decide_eq_true hp⟩

end Verif.OnftStaked
