import Verif.Spec.NftStaked
import Verif.Base.SnapHistory
import Mathlib.Data.List.Nodup
/-!
# Lemmas about dao-voting-cw721-staked
-/

namespace Verif

namespace NftClaims

theorem of_set (c : NftClaims) (a q : Addr) (l : List NftClaim) :
    NftClaims.of (AMap.set c a l) q = if a = q then l else NftClaims.of c q := by
  unfold of; rw [AMap.get_set]; split <;> rfl

end NftClaims

namespace AMap
variable {K V : Type} [DecidableEq K]

omit [DecidableEq K] in
theorem length_eq (m : AMap K V) : m.length = sum (fun _ _ => 1) m := by
  induction m with
  | nil => rfl
  | cons a m ih => obtain ⟨k, v⟩ := a; simp [sum, ih]; omega

theorem length_set (m : AMap K V) (k : K) (v : V) :
    (m.set k v).length = m.length + if m.get k = none then 1 else 0 := by
  have h := sum_set (fun _ _ => 1) m k v
  rw [length_eq, length_eq]
  cases hk : m.get k with
  | none => simp only [at?, hk] at h; simp; omega
  | some x => simp only [at?, hk] at h; simp; omega

theorem length_erase {m : AMap K V} (hm : m.WF) (k : K) :
    (m.erase k).length + (if m.get k = none then 0 else 1) = m.length := by
  have h := sum_erase (fun _ _ => 1) hm k
  rw [length_eq, length_eq]
  cases hk : m.get k with
  | none => simp only [at?, hk] at h; simp; omega
  | some x => simp only [at?, hk] at h; simp; omega

end AMap

namespace NftStaked
open Verif.Active Verif.Spec.NftStaked
open Verif.Cw20Stake (validateDuration)

/-- The number of tokens recorded for `a`. -/
def count (m : AMap (Addr × Tok) Unit) (a : Addr) : Nat :=
  AMap.sum (fun k _ => if k.1 = a then 1 else 0) m

theorem count_eq (s : State) (a : Addr) : count s.staked a = (s.stakedNfts a).length := by
  unfold count State.stakedNfts
  rw [List.length_map]
  induction s.staked with
  | nil => rfl
  | cons e m ih =>
    obtain ⟨⟨x, t⟩, u⟩ := e
    simp only [AMap.sum, ih, List.filter_cons]
    by_cases hx : x = a
    · simp [hx]; omega
    · simp [hx]

theorem count_set {m : AMap (Addr × Tok) Unit} {a : Addr} {t : Tok} (h : m.get (a, t) = none) (q : Addr) :
    count (m.set (a, t) ()) q = count m q + if a = q then 1 else 0 := by
  have e := AMap.sum_set (fun (k : Addr × Tok) (_ : Unit) => if k.1 = q then 1 else 0) m (a, t) ()
  simp only [AMap.at?, h] at e
  unfold count; omega

theorem count_erase {m : AMap (Addr × Tok) Unit} (hm : m.WF) {a : Addr} {t : Tok}
    (h : m.get (a, t) = some ()) (q : Addr) :
    count (m.erase (a, t)) q + (if a = q then 1 else 0) = count m q := by
  have e := AMap.sum_erase (fun (k : Addr × Tok) (_ : Unit) => if k.1 = q then 1 else 0) hm (a, t)
  simp only [AMap.at?, h] at e
  unfold count; omega

/-- What the loop over the tokens does. -/
structure Removed (m : AMap (Addr × Tok) Unit) (a : Addr) (ts : List Tok) (m' : AMap (Addr × Tok) Unit) :
    Prop where
  nodup : ts.Nodup
  had : ∀ t ∈ ts, m.get (a, t) = some ()
  get : ∀ q, m'.get q = if q.1 = a ∧ q.2 ∈ ts then none else m.get q
  wf : m'.WF
  count : ∀ q, count m' q + (if a = q then ts.length else 0) = count m q
  len : m'.length + ts.length = m.length

theorem removeAll_inv {m m' : AMap (Addr × Tok) Unit} {a : Addr} {ts : List Tok} (hm : m.WF)
    (h : removeAll m a ts = .ok m') : Removed m a ts m' := by
  induction ts generalizing m with
  | nil =>
    simp only [removeAll, Except.ok.injEq] at h
    subst h
    exact ⟨List.nodup_nil, by simp, by simp, hm, by simp, by simp⟩
  | cons t ts ih =>
    simp only [removeAll] at h
    split at h
    · rename_i u hg
      have hr := ih (AMap.WF_erase hm _) h
      have hnt : t ∉ ts := by
        intro ht
        have := hr.had t ht
        rw [AMap.get_erase, if_pos rfl] at this; cases this
      refine ⟨List.nodup_cons.2 ⟨hnt, hr.nodup⟩, ?_, ?_, hr.wf, ?_, ?_⟩
      · intro x hx
        rcases List.mem_cons.1 hx with rfl | hx
        · exact hg
        · have := hr.had x hx
          rw [AMap.get_erase] at this
          split at this
          · cases this
          · exact this
      · rintro ⟨q1, q2⟩
        rw [hr.get, AMap.get_erase]
        simp only [List.mem_cons, Prod.mk.injEq]
        by_cases h1 : q1 = a
        · subst h1
          by_cases h2 : q2 = t
          · subst h2; simp
          · simp [h2, Ne.symm h2]
        · simp [h1, Ne.symm h1]
      · intro q
        have e1 := hr.count q
        have e2 := count_erase hm hg q
        by_cases hq : a = q
        · simp only [hq, if_true, List.length_cons] at e1 e2 ⊢; omega
        · simp only [hq, if_false] at e1 e2 ⊢; omega
      · have e1 := hr.len
        have e2 := AMap.length_erase hm (a, t)
        rw [hg] at e2
        simp only [List.length_cons] at e2 ⊢
        simp at e2; omega
    · cases h

theorem removeAll_ok {m : AMap (Addr × Tok) Unit} {a : Addr} {ts : List Tok} (hn : ts.Nodup)
    (h : ∀ t ∈ ts, m.get (a, t) = some ()) : ∃ m', removeAll m a ts = .ok m' := by
  induction ts generalizing m with
  | nil => exact ⟨m, rfl⟩
  | cons t ts ih =>
    simp only [List.nodup_cons] at hn
    simp only [removeAll, h t (by simp)]
    apply ih hn.2
    intro x hx
    rw [AMap.get_erase, if_neg]
    · exact h x (List.mem_cons_of_mem _ hx)
    · intro he
      cases he
      exact hn.1 hx

/-- What returning tokens does. -/
theorem giveBack_inv {o o' : AMap Tok Addr} {self a : Addr} {ts : List Tok} (ha : a ≠ self)
    (h : giveBack o self (ts.map (fun t => (a, t))) = .ok o') :
    (∀ t ∈ ts, o.get t = some self) ∧ (∀ t, o'.get t = if t ∈ ts then some a else o.get t) ∧
      o'.length = o.length ∧ (o.WF → AMap.WF o') := by
  induction ts generalizing o with
  | nil =>
    simp only [List.map_nil, giveBack, Except.ok.injEq] at h
    subst h; simp
  | cons t ts ih =>
    simp only [List.map_cons, giveBack, bind_ok, require_ok, decide_eq_true_eq] at h
    obtain ⟨_, ho, h⟩ := h
    obtain ⟨h1, h2, h3, h4⟩ := ih h
    refine ⟨?_, ?_, ?_, fun hw => h4 (AMap.WF_set hw _ _)⟩
    · intro x hx
      rcases List.mem_cons.1 hx with rfl | hx
      · exact ho
      · have := h1 x hx
        rw [AMap.get_set] at this
        split at this
        · simp only [Option.some.injEq] at this; exact absurd this ha
        · exact this
    · intro x
      rw [h2, AMap.get_set]
      simp only [List.mem_cons]
      by_cases hx : x ∈ ts
      · simp [hx]
      · by_cases hxt : x = t
        · simp [hxt]
        · simp [hx, hxt, Ne.symm hxt]
    · rw [h3, AMap.length_set, ho]; simp

theorem giveBack_ok {o : AMap Tok Addr} {self a : Addr} {ts : List Tok} (hn : ts.Nodup)
    (h : ∀ t ∈ ts, o.get t = some self) : ∃ o', giveBack o self (ts.map (fun t => (a, t))) = .ok o' := by
  induction ts generalizing o with
  | nil => exact ⟨o, rfl⟩
  | cons t ts ih =>
    simp only [List.nodup_cons] at hn
    have hd : decide (o.get t = some self) = true := decide_eq_true (h t (by simp))
    obtain ⟨o', ho'⟩ := ih (o := o.set t a) hn.2 (by
      intro x hx
      rw [AMap.get_set_ne]
      · exact h x (List.mem_cons_of_mem _ hx)
      · rintro rfl; exact hn.1 hx)
    refine ⟨o', ?_⟩
    simp only [List.map_cons, giveBack, hd, require, if_true, ok_bind]
    exact ho'

/-! ## Effects -/

/-- The records after staking. -/
def afterStake (s : State) (b : Block) (a : Addr) (t : Tok) : State :=
  { s with staked := s.staked.set (a, t) ()
           balances := s.balances.save a (s.balanceOf a + 1) b.height
           totalStaked := s.totalStaked.save () (s.total + 1) b.height }

/-- The records after unstaking. -/
def afterUnstake (s : State) (b : Block) (a : Addr) (n : Nat) (m : AMap (Addr × Tok) Unit) : State :=
  { s with staked := m
           balances := s.balances.save a (s.balanceOf a - n) b.height
           totalStaked := s.totalStaked.save () (s.total - n) b.height }

theorem stake_inv {s s' : State} {b : Block} {c a : Addr} {t : Tok} {out : Out}
    (h : execStake s b c a t = .ok (s', out)) :
    c = s.nft ∧ s' = afterStake s b a t ∧ out = { hooks := hookMsgs s.hooks true a [t] } := by
  simp only [execStake, registerStaked, bind_ok, require_ok, decide_eq_true_eq, add128_ok,
    Except.ok.injEq, Prod.mk.injEq] at h
  obtain ⟨_, h0, _, ⟨_, ⟨_, rfl⟩, _, ⟨_, rfl⟩, rfl⟩, rfl, rfl⟩ := h
  exact ⟨h0, rfl, rfl⟩

theorem unstake_inv {s s' : State} {b : Block} {a : Addr} {ts : List Tok} {out : Out}
    (h : execUnstake s b a ts = .ok (s', out)) :
    ts ≠ [] ∧ out.hooks = hookMsgs s.hooks false a ts ∧ ts.length ≤ s.total ∧ ts.length ≤ s.balanceOf a ∧
    ∃ m, removeAll s.staked a ts = .ok m ∧
      ((s.unstakingDuration = none ∧ s' = afterUnstake s b a ts.length m ∧
          out.send = ts.map (fun t => (a, t))) ∨
       (∃ d, s.unstakingDuration = some d ∧ (s.claims.of a).length + ts.length ≤ MAX_CLAIMS ∧
          s' = { afterUnstake s b a ts.length m with claims := s.claims.create a ts (d.after b) } ∧
          out.send = [])) := by
  simp only [execUnstake, registerUnstaked, bind_ok, require_ok, decide_eq_true_eq, orErr_ok, sub128_ok,
    Except.ok.injEq] at h
  obtain ⟨_, h0, s1, ⟨m, hm, ot, hot, _, ⟨h1, rfl⟩, ob, hob, _, ⟨h2, rfl⟩, rfl⟩, h⟩ := h
  have et : s.total = ot := by unfold State.total; rw [hot]; rfl
  have eb : s.balanceOf a = ob := by unfold State.balanceOf; rw [hob]; rfl
  subst et
  subst eb
  unfold release at h
  simp only at h
  split at h
  · rename_i hd
    simp only [Except.ok.injEq, Prod.mk.injEq] at h
    obtain ⟨rfl, rfl⟩ := h
    exact ⟨h0, rfl, h1, h2, m, hm, Or.inl ⟨hd, rfl, rfl⟩⟩
  · rename_i d hd
    split at h
    · cases h
    · rename_i hc
      simp only [Except.ok.injEq, Prod.mk.injEq] at h
      obtain ⟨rfl, rfl⟩ := h
      exact ⟨h0, rfl, h1, h2, m, hm, Or.inr ⟨d, hd, by omega, rfl, rfl⟩⟩

/-- The tokens of `a` whose waiting time is over. -/
def matured (s : State) (b : Block) (a : Addr) : List Tok :=
  ((s.claims.of a).filter (fun x => x.releaseAt.isExpired b)).map NftClaim.token

/-- The claims of `a` that remain. -/
def remaining (s : State) (b : Block) (a : Addr) : List NftClaim :=
  (s.claims.of a).filter (fun x => !x.releaseAt.isExpired b)

theorem claim_inv {s s' : State} {b : Block} {a : Addr} {out : Out}
    (h : execClaim s b a = .ok (s', out)) :
    matured s b a ≠ [] ∧ s' = { s with claims := AMap.set s.claims a (remaining s b a) } ∧
      out = { send := (matured s b a).map (fun t => (a, t)) } := by
  simp only [execClaim, bind_ok, require_ok, decide_eq_true_eq, Except.ok.injEq, Prod.mk.injEq] at h
  obtain ⟨_, h0, rfl, rfl⟩ := h
  exact ⟨h0, rfl, rfl⟩

/-- The state parts that the administrative messages do not touch. -/
structure SameNfts (s s' : State) : Prop where
  staked : s'.staked = s.staked
  balances : s'.balances = s.balances
  total : s'.totalStaked = s.totalStaked
  claims : s'.claims = s.claims
  nft : s'.nft = s.nft
  dao : s'.dao = s.dao

theorem canTouch_iff {w : World} {a : Addr} {t : Tok} :
    canTouch w a t = true ↔ ∃ o, w.owners.get t = some o ∧ o ≠ w.self ∧ a ≠ w.self := by
  unfold canTouch
  split
  · rename_i o ho; simp [ho]
  · rename_i ho; simp [ho]

/-- The successful transactions, with their effects. -/
inductive Effect (w : World) (b : Block) : Call → World → Out → Prop where
  | stake (a : Addr) (t : Tok) (o : Addr) (ho : w.owners.get t = some o) (hos : o ≠ w.self)
      (ha : a ≠ w.self) :
      Effect w b (.send a t) { w with c := afterStake w.c b a t, owners := w.owners.set t w.self }
        { hooks := hookMsgs w.c.hooks true a [t] }
  | payout (a : Addr) (ts : List Tok) (m : AMap (Addr × Tok) Unit) (o : AMap Tok Addr) (out : Out)
      (ha : a ≠ w.self) (hts : ts ≠ []) (hm : removeAll w.c.staked a ts = .ok m)
      (hd : w.c.unstakingDuration = none) (ht : ts.length ≤ w.c.total) (hba : ts.length ≤ w.c.balanceOf a)
      (ho : giveBack w.owners w.self (ts.map (fun t => (a, t))) = .ok o)
      (hh : out.hooks = hookMsgs w.c.hooks false a ts) (hsend : out.send = ts.map (fun t => (a, t))) :
      Effect w b (.exec a (.unstake ts)) { w with c := afterUnstake w.c b a ts.length m, owners := o } out
  | unbond (a : Addr) (ts : List Tok) (m : AMap (Addr × Tok) Unit) (d : Duration) (out : Out)
      (ha : a ≠ w.self) (hts : ts ≠ []) (hm : removeAll w.c.staked a ts = .ok m)
      (hd : w.c.unstakingDuration = some d) (hlen : (w.c.claims.of a).length + ts.length ≤ MAX_CLAIMS)
      (ht : ts.length ≤ w.c.total) (hba : ts.length ≤ w.c.balanceOf a)
      (hh : out.hooks = hookMsgs w.c.hooks false a ts) (hsend : out.send = []) :
      Effect w b (.exec a (.unstake ts))
        { w with c := { afterUnstake w.c b a ts.length m with
                          claims := w.c.claims.create a ts (d.after b) } } out
  | claim (a : Addr) (o : AMap Tok Addr) (ha : a ≠ w.self) (hm : matured w.c b a ≠ [])
      (ho : giveBack w.owners w.self ((matured w.c b a).map (fun t => (a, t))) = .ok o) :
      Effect w b (.exec a .claimNfts)
        { w with c := { w.c with claims := AMap.set w.c.claims a (remaining w.c b a) }, owners := o }
        { send := (matured w.c b a).map (fun t => (a, t)) }
  | admin (m : Msg) (c : State) (hs : SameNfts w.c c)
      (hm : (∀ ts, m ≠ .unstake ts) ∧ m ≠ .claimNfts ∧ ∀ a t, m ≠ .receiveNft a t) :
      Effect w b (.exec w.c.dao m) { w with c := c } {}
  | transfer (a d : Addr) (t : Tok) (o : Addr) (ho : w.owners.get t = some o) (hos : o ≠ w.self) :
      Effect w b (.transfer a d t) { w with owners := w.owners.set t d } {}
  | mint (d : Addr) (t : Tok) (ho : w.owners.get t = none) (hl : w.owners.length + 1 < U64) :
      Effect w b (.mint d t) { w with owners := w.owners.set t d } {}
  | burn (a : Addr) (t : Tok) (o : Addr) (ho : w.owners.get t = some o) (hos : o ≠ w.self) :
      Effect w b (.burn a t) { w with owners := w.owners.erase t } {}

/-- The same, for the calls other than `ReceiveNft`. -/
theorem exec_effect {w : World} {b : Block} {a : Addr} {m : Msg} {c : State} {o : Out} {ow : AMap Tok Addr}
    (hm : ∀ x t, m ≠ .receiveNft x t) (hself : a ≠ w.self)
    (he : exec w.c b w.owners.length a m = .ok (c, o)) (hg : giveBack w.owners w.self o.send = .ok ow) :
    Effect w b (.exec a m) { w with c := c, owners := ow } o := by
  cases m with
  | receiveNft x t =>
    exact absurd rfl (hm x t)
  | unstake ts =>
    simp only [exec] at he
    obtain ⟨hts, hh, h1, h2, m, hm, he⟩ := unstake_inv he
    rcases he with ⟨hd, rfl, ho⟩ | ⟨d, hd, hlen, rfl, ho⟩
    · exact .payout a ts m ow o hself hts hm hd h1 h2 (ho ▸ hg) hh ho
    · rw [ho] at hg
      simp only [giveBack, Except.ok.injEq] at hg
      subst hg
      exact .unbond a ts m d o hself hts hm hd hlen h1 h2 hh ho
  | claimNfts =>
    simp only [exec] at he
    obtain ⟨hm, rfl, rfl⟩ := claim_inv he
    exact .claim a ow hself hm hg
  | updateConfig d =>
    simp only [exec, bind_ok, require_ok, decide_eq_true_eq, Except.ok.injEq, Prod.mk.injEq] at he
    obtain ⟨_, rfl, _, _, rfl, rfl⟩ := he
    simp only [giveBack, Except.ok.injEq] at hg; subst hg
    exact .admin _ _ ⟨rfl, rfl, rfl, rfl, rfl, rfl⟩ (by simp)
  | updateActiveThreshold d =>
    simp only [exec, bind_ok, require_ok, decide_eq_true_eq, Except.ok.injEq, Prod.mk.injEq] at he
    obtain ⟨_, rfl, _, _, rfl, rfl⟩ := he
    simp only [giveBack, Except.ok.injEq] at hg; subst hg
    exact .admin _ _ ⟨rfl, rfl, rfl, rfl, rfl, rfl⟩ (by simp)
  | addHook x =>
    simp only [exec, bind_ok, require_ok, decide_eq_true_eq, Except.ok.injEq, Prod.mk.injEq] at he
    obtain ⟨_, rfl, _, _, rfl, rfl⟩ := he
    simp only [giveBack, Except.ok.injEq] at hg; subst hg
    exact .admin _ _ ⟨rfl, rfl, rfl, rfl, rfl, rfl⟩ (by simp)
  | removeHook x =>
    simp only [exec, bind_ok, require_ok, decide_eq_true_eq, Except.ok.injEq, Prod.mk.injEq] at he
    obtain ⟨_, rfl, _, _, rfl, rfl⟩ := he
    simp only [giveBack, Except.ok.injEq] at hg; subst hg
    exact .admin _ _ ⟨rfl, rfl, rfl, rfl, rfl, rfl⟩ (by simp)

theorem step_effect {w w' : World} {b : Block} {call : Call} {out : Out}
    (h : step w b call = .ok (w', out)) : Effect w b call w' out := by
  cases call with
  | exec a m =>
    simp only [step, bind_ok, require_ok, decide_eq_true_eq] at h
    obtain ⟨_, ⟨hself, hnft⟩, ⟨c, o⟩, he, h⟩ := h
    simp only [bind_ok, Except.ok.injEq, Prod.mk.injEq] at h
    obtain ⟨ow, hg, rfl, rfl⟩ := h
    refine exec_effect ?_ hself he hg
    rintro x t rfl
    simp only [exec] at he
    exact absurd (stake_inv he).1 hnft
  | send a t =>
    simp only [step, bind_ok, require_ok, canTouch_iff] at h
    obtain ⟨_, ⟨o, ho, hos, ha⟩, ⟨c, o'⟩, he, h⟩ := h
    simp only [Except.ok.injEq, Prod.mk.injEq] at h
    obtain ⟨rfl, rfl⟩ := h
    simp only [exec] at he
    obtain ⟨_, rfl, rfl⟩ := stake_inv he
    exact .stake a t o ho hos ha
  | transfer a d t =>
    simp only [step, bind_ok, require_ok, canTouch_iff, Except.ok.injEq, Prod.mk.injEq] at h
    obtain ⟨_, ⟨o, ho, hos, _⟩, rfl, rfl⟩ := h
    exact .transfer a d t o ho hos
  | mint d t =>
    simp only [step, bind_ok, require_ok, decide_eq_true_eq, Except.ok.injEq, Prod.mk.injEq] at h
    obtain ⟨_, ⟨ho, hl⟩, rfl, rfl⟩ := h
    exact .mint d t ho hl
  | burn a t =>
    simp only [step, bind_ok, require_ok, canTouch_iff, Except.ok.injEq, Prod.mk.injEq] at h
    obtain ⟨_, ⟨o, ho, hos, _⟩, rfl, rfl⟩ := h
    exact .burn a t o ho hos

theorem init_shape {b : Block} {w : World} (h : sys.init b w) :
    w.c.staked = [] ∧ w.c.balances = Snap.empty ∧ w.c.totalStaked = Snap.empty.save () 0 b.height ∧
      w.c.claims = [] ∧ w.owners.WF ∧ w.owners.length < U64 := by
  obtain ⟨dao, nft, sup, d, t, hi, _, hw, hl⟩ := h
  simp only [instantiate, bind_ok, Except.ok.injEq] at hi
  obtain ⟨_, _, _, _, hi⟩ := hi
  rw [← hi]; exact ⟨rfl, rfl, rfl, rfl, hw, hl⟩

/-- The balances and the total are written only at the current height. -/
theorem snapshotted :
    sys.Snapshotted (fun w => w.c.balances) ∧ sys.Snapshotted (fun w => w.c.totalStaked) := by
  refine ⟨⟨?_, ?_⟩, ⟨?_, ?_⟩⟩
  · intro b s h; rw [(init_shape h).2.1]; exact Snap.upTo_empty _
  · intro s env call s' out h
    cases step_effect h with
    | stake => exact Snap.Writes.one _ _ _ _
    | payout => exact Snap.Writes.one _ _ _ _
    | unbond => exact Snap.Writes.one _ _ _ _
    | admin m c hsm hm => exact Snap.Writes.of_eq hsm.balances
    | claim => exact .refl
    | transfer => exact .refl
    | mint => exact .refl
    | burn => exact .refl
  · intro b s h; rw [(init_shape h).2.2.1]; exact Snap.upTo_save (Snap.upTo_empty b.height) (Nat.le_refl _)
  · intro s env call s' out h
    cases step_effect h with
    | stake => exact Snap.Writes.one _ _ _ _
    | payout => exact Snap.Writes.one _ _ _ _
    | unbond => exact Snap.Writes.one _ _ _ _
    | admin m c hsm hm => exact Snap.Writes.of_eq hsm.total
    | claim => exact .refl
    | transfer => exact .refl
    | mint => exact .refl
    | burn => exact .refl

/-! ## Who a token is held for -/

/-- The tokens `a` waits for. -/
def queued (c : State) (a : Addr) : List Tok := (c.claims.of a).map NftClaim.token

/-- The contract's records say that it holds `t` for `a`. -/
def Holds (c : State) (a : Addr) (t : Tok) : Prop := c.staked.get (a, t) = some () ∨ t ∈ queued c a

theorem holds_stake (c : State) (b : Block) (a : Addr) (t : Tok) (q : Addr) (x : Tok) :
    Holds (afterStake c b a t) q x ↔ Holds c q x ∨ (q = a ∧ x = t) := by
  unfold Holds queued afterStake
  simp only [AMap.get_set, Prod.mk.injEq]
  by_cases h : a = q ∧ t = x
  · simp [h]
  · have h' : ¬ (q = a ∧ x = t) := fun hh => h ⟨hh.1.symm, hh.2.symm⟩
    simp [h, h']

theorem queued_set (c : State) (a q : Addr) (l : List NftClaim) :
    queued { c with claims := AMap.set c.claims a l } q =
      if a = q then l.map NftClaim.token else queued c q := by
  unfold queued; simp only [NftClaims.of_set]; split <;> rfl

theorem queued_create (c : State) (a q : Addr) (ts : List Tok) (e : Expiration) :
    queued { c with claims := c.claims.create a ts e } q =
      if a = q then queued c a ++ ts else queued c q := by
  unfold NftClaims.create
  rw [queued_set]
  split
  · simp only [queued, List.map_append, List.map_map]
    congr 1
    rw [show NftClaim.token ∘ (fun t => (⟨t, e⟩ : NftClaim)) = id from rfl, List.map_id]
  · rfl

theorem queued_split (c : State) (b : Block) (a : Addr) (t : Tok) :
    t ∈ queued c a ↔ t ∈ matured c b a ∨ t ∈ (remaining c b a).map NftClaim.token := by
  unfold queued matured remaining
  simp only [List.mem_map, List.mem_filter]
  constructor
  · rintro ⟨x, hx, rfl⟩
    cases he : x.releaseAt.isExpired b
    · exact Or.inr ⟨x, ⟨hx, by simp [he]⟩, rfl⟩
    · exact Or.inl ⟨x, ⟨hx, he⟩, rfl⟩
  · rintro (⟨x, ⟨hx, _⟩, rfl⟩ | ⟨x, ⟨hx, _⟩, rfl⟩) <;> exact ⟨x, hx, rfl⟩

theorem queued_disj {c : State} {b : Block} {a : Addr} {t : Tok} (hn : (queued c a).Nodup)
    (h1 : t ∈ matured c b a) (h2 : t ∈ (remaining c b a).map NftClaim.token) : False := by
  unfold matured at h1
  unfold remaining at h2
  unfold queued at hn
  simp only [List.mem_map, List.mem_filter] at h1 h2
  obtain ⟨x, ⟨hx, hx'⟩, rfl⟩ := h1
  obtain ⟨y, ⟨hy, hy'⟩, hxy⟩ := h2
  have := List.inj_on_of_nodup_map hn hy hx hxy
  subst this
  simp [hx'] at hy'

theorem matured_nodup {c : State} (b : Block) {a : Addr} (hn : (queued c a).Nodup) :
    (matured c b a).Nodup :=
  (List.Nodup.sublist (List.Sublist.map _ List.filter_sublist) hn)

/-- The facts every reachable state has. -/
structure Inv (w : World) : Prop where
  own : ∀ a t, Holds w.c a t → w.owners.get t = some w.self
  uniq : ∀ a a' t, Holds w.c a t → Holds w.c a' t → a = a'
  disj : ∀ a t, w.c.staked.get (a, t) = some () → t ∉ queued w.c a
  nodup : ∀ a, (queued w.c a).Nodup
  wf : w.c.staked.WF
  wfb : w.c.balances.cur.WF
  wfo : w.owners.WF
  bal : ∀ a, w.c.balanceOf a = count w.c.staked a
  sum : w.c.total = Verif.total w.c.balances.cur
  len : w.c.total = w.c.staked.length
  tot : w.c.totalStaked.get () ≠ none
  small : w.owners.length < U64

theorem balanceOf_cur (s : State) (a : Addr) : s.balanceOf a = getD0 s.balances.cur a := rfl

theorem holds_unstake {c : State} {b : Block} {a : Addr} {ts : List Tok} {m : AMap (Addr × Tok) Unit}
    (hr : Removed c.staked a ts m) (hd : ∀ t, c.staked.get (a, t) = some () → t ∉ queued c a)
    (q : Addr) (x : Tok) :
    Holds (afterUnstake c b a ts.length m) q x ↔ Holds c q x ∧ ¬ (q = a ∧ x ∈ ts) := by
  unfold Holds
  show (m.get (q, x) = some () ∨ x ∈ queued c q) ↔ _
  rw [hr.get]
  by_cases h : q = a ∧ x ∈ ts
  · simp only [h, and_self, if_true, not_true, and_false, iff_false]
    rintro (h' | h')
    · cases h'
    · exact hd x (hr.had x h.2) h'
  · simp [h]

theorem holds_unbond {c : State} {b : Block} {a : Addr} {ts : List Tok} {m : AMap (Addr × Tok) Unit}
    {e : Expiration} (hr : Removed c.staked a ts m) (q : Addr) (x : Tok) :
    Holds { afterUnstake c b a ts.length m with claims := c.claims.create a ts e } q x ↔ Holds c q x := by
  unfold Holds
  have e1 : queued { afterUnstake c b a ts.length m with claims := c.claims.create a ts e } q =
    if a = q then queued c a ++ ts else queued c q := queued_create c a q ts e
  rw [e1]
  show (m.get (q, x) = some () ∨ _) ↔ _
  rw [hr.get]
  by_cases hq : q = a
  · subst hq
    by_cases hx : x ∈ ts
    · simp [hx, hr.had x hx]
    · simp [hx]
  · simp [hq, Ne.symm hq]

theorem holds_claim {w : World} {b : Block} {a : Addr} (hi : Inv w) (q : Addr) (x : Tok) :
    Holds { w.c with claims := AMap.set w.c.claims a (remaining w.c b a) } q x ↔
      Holds w.c q x ∧ ¬ (q = a ∧ x ∈ matured w.c b a) := by
  unfold Holds
  rw [queued_set]
  by_cases hq : a = q
  · subst hq
    simp only [if_true, true_and]
    rw [queued_split w.c b a x]
    constructor
    · rintro (h | h)
      · exact ⟨Or.inl h, fun hm => hi.disj a x h ((queued_split w.c b a x).2 (Or.inl hm))⟩
      · exact ⟨Or.inr (Or.inr h), fun hm => queued_disj (hi.nodup a) hm h⟩
    · rintro ⟨h | h | h, hn⟩
      · exact Or.inl h
      · exact absurd h hn
      · exact Or.inr h
  · simp [hq, Ne.symm hq]

theorem holds_admin {c c' : State} (h : SameNfts c c') (q : Addr) (x : Tok) :
    Holds c' q x ↔ Holds c q x := by
  unfold Holds queued; rw [h.staked, h.claims]

theorem total_save (x : Snap Unit Nat) (t h : Nat) : ((x.save () t h).get ()).getD 0 = t := by
  simp [Snap.get_save]

theorem tot_save (x : Snap Unit Nat) (t h : Nat) : (x.save () t h).get () ≠ none := by
  simp [Snap.get_save]

theorem bal_save (c : State) (a q : Addr) (v h : Nat) :
    ((c.balances.save a v h).get q).getD 0 = if a = q then v else c.balanceOf q := by
  rw [Snap.get_save]; split <;> rfl

theorem sum_set {s : State} {x : Nat} (hs : s.total = Verif.total s.balances.cur) (a : Addr) :
    Verif.total (s.balances.cur.set a x) + s.balanceOf a = s.total + x := by
  have e := total_set s.balances.cur a x
  rw [hs]
  have := getD0_le_total s.balances.cur a
  rw [balanceOf_cur]; omega

theorem inv_effect {w w' : World} {b : Block} {call : Call} {out : Out} (hi : Inv w)
    (hs : Effect w b call w' out) : Inv w' ∧ w'.self = w.self := by
  cases hs with
  | stake a t o ho hos ha =>
    have hfree : ∀ q, ¬ Holds w.c q t := by
      intro q hq
      have := hi.own q t hq
      rw [ho] at this; exact hos (Option.some.inj this)
    have hnone : w.c.staked.get (a, t) = none := by
      cases hg : w.c.staked.get (a, t) with
      | none => rfl
      | some u => exact absurd (Or.inl hg) (hfree a)
    refine ⟨⟨?_, ?_, ?_, hi.nodup, AMap.WF_set hi.wf _ _, AMap.WF_set hi.wfb _ _, AMap.WF_set hi.wfo _ _,
      ?_, (total_save _ _ _).trans ?_, (total_save _ _ _).trans ?_, tot_save _ _ _, ?_⟩, rfl⟩
    · intro q x hq
      simp only [AMap.get_set]
      split
      · rfl
      · rename_i hne
        rcases (holds_stake ..).1 hq with h | h
        · exact hi.own q x h
        · exact absurd h.2.symm hne
    · intro q q' x hq hq'
      rcases (holds_stake ..).1 hq with h | h <;> rcases (holds_stake ..).1 hq' with h' | h'
      · exact hi.uniq _ _ _ h h'
      · exact absurd (h'.2 ▸ h) (hfree q)
      · exact absurd (h.2 ▸ h') (hfree q')
      · rw [h.1, h'.1]
    · intro q x hq hx
      simp only [afterStake, AMap.get_set] at hq
      split at hq
      · rename_i he
        cases he
        exact hfree a (Or.inr hx)
      · exact hi.disj q x hq hx
    · intro q
      refine (bal_save w.c a q _ _).trans ?_
      show _ = count (w.c.staked.set (a, t) ()) q
      rw [count_set hnone]
      by_cases hq : a = q
      · subst hq; simp [hi.bal]
      · simp [hq, hi.bal]
    · have e := sum_set (x := w.c.balanceOf a + 1) hi.sum a
      show _ = Verif.total (w.c.balances.cur.set a (w.c.balanceOf a + 1))
      omega
    · show _ = (w.c.staked.set (a, t) ()).length
      rw [AMap.length_set, hnone, hi.len]; rfl
    · show (w.owners.set t w.self).length < U64
      rw [AMap.length_set, ho]; exact hi.small
  | payout a ts m o _ ha hts hm hd ht hba ho hh hsend =>
    have hr := removeAll_inv hi.wf hm
    obtain ⟨g1, g2, g3, g4⟩ := giveBack_inv ha ho
    have hh := fun q x => (holds_unstake (b := b) hr (fun t => hi.disj a t) q x)
    refine ⟨⟨?_, ?_, ?_, hi.nodup, hr.wf, AMap.WF_set hi.wfb _ _, g4 hi.wfo, ?_,
      (total_save _ _ _).trans ?_, (total_save _ _ _).trans ?_, tot_save _ _ _, ?_⟩, rfl⟩
    · intro q x hq
      obtain ⟨h1, h2⟩ := (hh q x).1 hq
      have h3 := hi.own q x h1
      show AMap.get o x = some w.self
      rw [g2, if_neg]
      · exact h3
      · intro hx
        have : q = a := hi.uniq _ _ _ h1 (Or.inl (hr.had x hx))
        exact h2 ⟨this, hx⟩
    · intro q q' x hq hq'
      exact hi.uniq _ _ _ ((hh q x).1 hq).1 ((hh q' x).1 hq').1
    · intro q x hq hx
      have hq : m.get (q, x) = some () := hq
      rw [hr.get] at hq
      split at hq
      · cases hq
      · exact hi.disj q x hq hx
    · intro q
      refine (bal_save w.c a q _ _).trans ?_
      show _ = count m q
      have e := hr.count q
      by_cases hq : a = q
      · subst hq; simp only [if_true] at e ⊢; have := hi.bal a; omega
      · simp only [hq, if_false] at e ⊢; have := hi.bal q; omega
    · have e := sum_set (x := w.c.balanceOf a - ts.length) hi.sum a
      show _ = Verif.total (w.c.balances.cur.set a (w.c.balanceOf a - ts.length))
      omega
    · show _ = m.length
      have := hr.len; have := hi.len; omega
    · show o.length < U64
      rw [g3]; exact hi.small
  | unbond a ts m d _ ha hts hm hd hlen ht hba hh hsend =>
    have hr := removeAll_inv hi.wf hm
    have hh := fun q x => (holds_unbond (b := b) (e := d.after b) hr q x)
    have hqd : ∀ q, queued { afterUnstake w.c b a ts.length m with
        claims := w.c.claims.create a ts (d.after b) } q =
        if a = q then queued w.c a ++ ts else queued w.c q := fun q => queued_create w.c a q ts _
    refine ⟨⟨?_, ?_, ?_, ?_, hr.wf, AMap.WF_set hi.wfb _ _, hi.wfo, ?_,
      (total_save _ _ _).trans ?_, (total_save _ _ _).trans ?_, tot_save _ _ _, hi.small⟩, rfl⟩
    · intro q x hq
      exact hi.own q x ((hh q x).1 hq)
    · intro q q' x hq hq'
      exact hi.uniq _ _ _ ((hh q x).1 hq) ((hh q' x).1 hq')
    · intro q x hq hx
      have hq : m.get (q, x) = some () := hq
      rw [hqd] at hx
      rw [hr.get] at hq
      split at hq
      · cases hq
      · rename_i hne
        split at hx
        · rename_i haq
          subst haq
          rcases List.mem_append.1 hx with hx | hx
          · exact hi.disj a x hq hx
          · exact hne ⟨rfl, hx⟩
        · exact hi.disj q x hq hx
    · intro q
      rw [hqd]
      split
      · rename_i haq
        subst haq
        rw [List.nodup_append]
        refine ⟨hi.nodup a, hr.nodup, ?_⟩
        intro x hx y hy hxy
        subst hxy
        exact hi.disj a x (hr.had x hy) hx
      · exact hi.nodup q
    · intro q
      refine (bal_save w.c a q _ _).trans ?_
      show _ = count m q
      have e := hr.count q
      by_cases hq : a = q
      · subst hq; simp only [if_true] at e ⊢; have := hi.bal a; omega
      · simp only [hq, if_false] at e ⊢; have := hi.bal q; omega
    · have e := sum_set (x := w.c.balanceOf a - ts.length) hi.sum a
      show _ = Verif.total (w.c.balances.cur.set a (w.c.balanceOf a - ts.length))
      omega
    · show _ = m.length
      have := hr.len; have := hi.len; omega
  | claim a o ha hm ho =>
    obtain ⟨g1, g2, g3, g4⟩ := giveBack_inv ha ho
    have hh := fun q x => holds_claim (b := b) (a := a) hi q x
    refine ⟨⟨?_, ?_, ?_, ?_, hi.wf, hi.wfb, g4 hi.wfo, hi.bal, hi.sum, hi.len, hi.tot, ?_⟩, rfl⟩
    · intro q x hq
      obtain ⟨h1, h2⟩ := (hh q x).1 hq
      have h3 := hi.own q x h1
      show AMap.get o x = some w.self
      rw [g2, if_neg]
      · exact h3
      · intro hx
        have : q = a := hi.uniq _ _ _ h1 (Or.inr ((queued_split w.c b a x).2 (Or.inl hx)))
        exact h2 ⟨this, hx⟩
    · intro q q' x hq hq'
      exact hi.uniq _ _ _ ((hh q x).1 hq).1 ((hh q' x).1 hq').1
    · intro q x hq hx
      rw [queued_set] at hx
      split at hx
      · rename_i haq
        subst haq
        exact hi.disj a x hq ((queued_split w.c b a x).2 (Or.inr hx))
      · exact hi.disj q x hq hx
    · intro q
      rw [queued_set]
      split
      · rename_i haq
        subst haq
        exact List.Nodup.sublist (List.Sublist.map _ List.filter_sublist) (hi.nodup a)
      · exact hi.nodup q
    · show o.length < U64
      rw [g3]; exact hi.small
  | admin m c hsm hm =>
    have hh := holds_admin hsm
    have hq : ∀ a, queued c a = queued w.c a := by intro a; unfold queued; rw [hsm.claims]
    refine ⟨⟨?_, ?_, ?_, ?_, ?_, ?_, hi.wfo, ?_, ?_, ?_, ?_, hi.small⟩, rfl⟩
    · intro a t h; exact hi.own a t ((hh a t).1 h)
    · intro a a' t h h'; exact hi.uniq _ _ _ ((hh a t).1 h) ((hh a' t).1 h')
    · intro a t h; simp only [hq, hsm.staked] at h ⊢; exact hi.disj a t h
    · intro a; simp only [hq]; exact hi.nodup a
    · simp only [hsm.staked]; exact hi.wf
    · simp only [hsm.balances]; exact hi.wfb
    · intro a
      simp only [State.balanceOf, hsm.balances, hsm.staked]; exact hi.bal a
    · simp only [State.total, hsm.total, hsm.balances]; exact hi.sum
    · simp only [State.total, hsm.total, hsm.staked]; exact hi.len
    · simp only [hsm.total]; exact hi.tot
  | transfer a d t o ho hos =>
    refine ⟨⟨?_, hi.uniq, hi.disj, hi.nodup, hi.wf, hi.wfb, AMap.WF_set hi.wfo _ _, hi.bal, hi.sum,
      hi.len, hi.tot, ?_⟩, rfl⟩
    · intro q x hq
      have h := hi.own q x hq
      show (w.owners.set t d).get x = some w.self
      rw [AMap.get_set, if_neg]
      · exact h
      · rintro rfl; rw [ho] at h; exact hos (Option.some.inj h)
    · show (w.owners.set t d).length < U64
      rw [AMap.length_set, ho]; exact hi.small
  | mint d t ho hl =>
    refine ⟨⟨?_, hi.uniq, hi.disj, hi.nodup, hi.wf, hi.wfb, AMap.WF_set hi.wfo _ _, hi.bal, hi.sum,
      hi.len, hi.tot, ?_⟩, rfl⟩
    · intro q x hq
      have h := hi.own q x hq
      show (w.owners.set t d).get x = some w.self
      rw [AMap.get_set, if_neg]
      · exact h
      · rintro rfl; rw [ho] at h; cases h
    · show (w.owners.set t d).length < U64
      rw [AMap.length_set, ho]; exact hl
  | burn a t o ho hos =>
    refine ⟨⟨?_, hi.uniq, hi.disj, hi.nodup, hi.wf, hi.wfb, AMap.WF_erase hi.wfo _, hi.bal, hi.sum,
      hi.len, hi.tot, ?_⟩, rfl⟩
    · intro q x hq
      have h := hi.own q x hq
      show (w.owners.erase t).get x = some w.self
      rw [AMap.get_erase, if_neg]
      · exact h
      · rintro rfl; rw [ho] at h; exact hos (Option.some.inj h)
    · show (w.owners.erase t).length < U64
      have := AMap.length_erase hi.wfo t
      have := hi.small
      omega

theorem inv_step {w w' : World} {b : Block} {call : Call} {out : Out} (hi : Inv w)
    (hs : step w b call = .ok (w', out)) : Inv w' ∧ w'.self = w.self := inv_effect hi (step_effect hs)

theorem inv_reach {w : World} {b : Block} {log : List (Ev World Block Call Out)}
    (h : sys.Reach w b log) : Inv w := by
  refine Sys.Reach.induct (P := fun w _ _ => Inv w) (fun b s hi => ?_) ?_ h
  · obtain ⟨h1, h2, h3, h4, h5, h6⟩ := init_shape hi
    have hq : ∀ a, queued s.c a = [] := by intro a; unfold queued; rw [h4]; rfl
    have hh : ∀ a t, ¬ Holds s.c a t := by
      intro a t h; unfold Holds at h; rw [hq, h1] at h; simp [AMap.get] at h
    have ht : s.c.total = 0 := by unfold State.total; rw [h3]; exact total_save _ _ _
    refine ⟨fun a t h => absurd h (hh a t), fun a _ t h _ => absurd h (hh a t), ?_, ?_, ?_, ?_, h5, ?_, ?_, ?_,
      ?_, h6⟩
    · intro a t h; exact absurd (Or.inl h) (hh a t)
    · intro a; rw [hq]; exact List.nodup_nil
    · rw [h1]; exact AMap.WF_nil
    · rw [h2]; exact AMap.WF_nil
    · intro a; unfold State.balanceOf; rw [h1, h2]; rfl
    · rw [ht, h2]; rfl
    · rw [ht, h1]; rfl
    · rw [h3]; exact tot_save _ _ _
  · intro s b l env call out s' _ hi hb hs
    exact (inv_step hi hs).1

end NftStaked
end Verif
