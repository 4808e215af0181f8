import Verif.Base.Core
import Verif.Base.Map
import Mathlib.Tactic.ByContra
/-!
# Claims

`cw_controllers::Claims` (external crate, version 1.1; what is assumed of it is written here): a list of
claims per address; creating appends; claiming without a cap removes the matured claims and returns their
sum.
-/

namespace Verif

/-- `cw_controllers::Claim`. -/
structure Claim where
  amount : Nat
  releaseAt : Expiration
  deriving DecidableEq, Repr

/-- Sum of the amounts. -/
def claimSum (l : List Claim) : Nat := (l.map Claim.amount).sum

/-- `Claims`: the stored lists. -/
abbrev Claims := AMap Addr (List Claim)

namespace Claims

/-- `Claims::query_claims`. -/
def of (c : Claims) (a : Addr) : List Claim := (c.get a).getD []

/-- `Claims::create_claim`. -/
def create (c : Claims) (a : Addr) (amount : Nat) (e : Expiration) : Claims :=
  c.set a (c.of a ++ [⟨amount, e⟩])

/-- `to_send += c.amount` over the matured claims; panics on overflow. -/
def sumMatured (b : Block) : List Claim → Nat → Res Nat
  | [], acc => .ok acc
  | c :: cs, acc =>
    if c.releaseAt.isExpired b then do
      let acc' ← add128 acc c.amount
      sumMatured b cs acc'
    else sumMatured b cs acc

/-- `Claims::claim_tokens` with no cap. -/
def claimTokens (c : Claims) (a : Addr) (b : Block) : Res (Claims × Nat) := do
  let n ← sumMatured b (c.of a) 0
  .ok (c.set a ((c.of a).filter (fun cl => !cl.releaseAt.isExpired b)), n)

/-- Sum of all claims of all addresses. -/
def owed (c : Claims) : Nat := AMap.sum (fun _ l => claimSum l) c

theorem claimSum_append (l l' : List Claim) : claimSum (l ++ l') = claimSum l + claimSum l' := by
  simp [claimSum, List.sum_append]

theorem claimSum_partition (p : Claim → Bool) (l : List Claim) :
    claimSum (l.filter p) + claimSum (l.filter (fun c => !p c)) = claimSum l := by
  induction l with
  | nil => simp [claimSum]
  | cons c l ih =>
    simp only [claimSum] at ih ⊢
    cases h : p c <;> simp [h] <;> omega

theorem sumMatured_spec {b : Block} {l : List Claim} {acc n : Nat} (h : sumMatured b l acc = .ok n) :
    n = acc + claimSum (l.filter (fun c => c.releaseAt.isExpired b)) := by
  induction l generalizing acc with
  | nil => simp only [sumMatured, Except.ok.injEq] at h; simp [claimSum, h]
  | cons c l ih =>
    simp only [sumMatured] at h
    split at h
    · rename_i he
      simp only [bind_ok, add128_ok] at h
      obtain ⟨_, ⟨_, rfl⟩, h⟩ := h
      rw [ih h]; simp [claimSum, he]; omega
    · rename_i he
      rw [ih h]; simp [claimSum, he]

theorem sumMatured_total {b : Block} {l : List Claim} {acc : Nat}
    (h : acc + claimSum (l.filter (fun c => c.releaseAt.isExpired b)) < U128) :
    sumMatured b l acc = .ok (acc + claimSum (l.filter (fun c => c.releaseAt.isExpired b))) := by
  induction l generalizing acc with
  | nil => simp [sumMatured, claimSum]
  | cons c l ih =>
    simp only [sumMatured]
    split
    · rename_i he
      simp only [claimSum, List.filter_cons, he, if_true, List.map_cons, List.sum_cons] at h ⊢
      have h1 : add128 acc c.amount = .ok (acc + c.amount) := by
        rw [add128_ok]; exact ⟨by omega, rfl⟩
      rw [h1, ok_bind, ih (by simp only [claimSum]; omega)]
      simp only [claimSum, Except.ok.injEq]; omega
    · rename_i he
      simp only [List.filter_cons, he] at h ⊢
      exact ih h

theorem claim_spec {c c' : Claims} {a : Addr} {b : Block} {n : Nat}
    (h : c.claimTokens a b = .ok (c', n)) :
    n = claimSum ((c.of a).filter (fun cl => cl.releaseAt.isExpired b)) ∧
    c' = c.set a ((c.of a).filter (fun cl => !cl.releaseAt.isExpired b)) := by
  simp only [claimTokens, bind_ok, Except.ok.injEq, Prod.mk.injEq] at h
  obtain ⟨m, hm, rfl, rfl⟩ := h
  have := sumMatured_spec hm
  exact ⟨by omega, rfl⟩

theorem of_set (c : Claims) (a q : Addr) (l : List Claim) :
    Claims.of (AMap.set c a l) q = if a = q then l else c.of q := by
  unfold of; rw [AMap.get_set]; split <;> rfl

theorem at_of (c : Claims) (a : Addr) :
    AMap.at? (fun _ l => claimSum l) c a = claimSum (c.of a) := by
  unfold AMap.at? of; cases c.get a <;> simp [claimSum]

theorem owed_set (c : Claims) (a : Addr) (l : List Claim) :
    owed (AMap.set c a l) + claimSum (c.of a) = owed c + claimSum l := by
  unfold owed; rw [← at_of]; exact AMap.sum_set _ _ _ _

theorem owed_create (c : Claims) (a : Addr) (n : Nat) (e : Expiration) :
    owed (c.create a n e) = owed c + n := by
  have := owed_set c a (c.of a ++ [⟨n, e⟩])
  rw [claimSum_append] at this
  have h1 : claimSum [⟨n, e⟩] = n := by simp [claimSum]
  unfold create; omega

theorem owed_claim {c c' : Claims} {a : Addr} {b : Block} {n : Nat}
    (h : c.claimTokens a b = .ok (c', n)) : owed c' + n = owed c := by
  obtain ⟨rfl, rfl⟩ := claim_spec h
  have := owed_set c a ((c.of a).filter (fun cl => !cl.releaseAt.isExpired b))
  have := claimSum_partition (fun cl => cl.releaseAt.isExpired b) (c.of a)
  omega

theorem of_le_owed (c : Claims) (a : Addr) : claimSum (c.of a) ≤ owed c := by
  rw [← at_of]; exact AMap.at_le_sum _ _ _

end Claims
end Verif
