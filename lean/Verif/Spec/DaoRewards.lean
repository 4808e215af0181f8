import Verif.Model.DaoRewards
/-!
# Specification vocabulary for dao-rewards-distributor
-/

namespace Verif.Spec.DaoRewards
open Verif.DaoRewards

/-- One transaction of a history. -/
abbrev Event := Ev World Block Call (List Pay)

/-- The distribution a funding is for: the one named, or the latest. -/
def target (w : World) (id : Option Nat) : Nat := id.getD w.c.count

/-- How many coins come with a message. -/
def coinCount (coins : List (Nat × Nat)) : Nat := (coins.map Prod.snd).sum

/-- How much is paid out. -/
def paidOut (ps : List Pay) : Nat := (ps.map Pay.amount).sum

/-- What a transaction adds to the funds of a distribution. -/
def fundedIn (id : Nat) (e : Event) : Nat :=
  match e.call with
  | .exec _ coins (.fund i) => if target e.pre i = id then coinCount coins else 0
  | .exec _ coins (.create ..) => if e.pre.c.count + 1 = id then coinCount coins else 0
  | .send _ _ n i => if target e.pre i = id then n else 0
  | _ => 0

/-- What a transaction pays to a member who claims from a distribution. -/
def claimedIn (id : Nat) (e : Event) : Nat :=
  match e.call with
  | .exec _ _ (.claim i) => if i = id then paidOut e.out else 0
  | _ => 0

/-- What a transaction claws back from a distribution. -/
def clawedIn (id : Nat) (e : Event) : Nat :=
  match e.call with
  | .exec _ _ (.withdraw i) => if i = id then paidOut e.out else 0
  | _ => 0

/-- All that was funded. -/
def fundedTotal (id : Nat) (log : List Event) : Nat := (log.map (fundedIn id)).sum
/-- All that was claimed. -/
def claimedTotal (id : Nat) (log : List Event) : Nat := (log.map (claimedIn id)).sum
/-- All that was clawed back. -/
def clawedTotal (id : Nat) (log : List Event) : Nat := (log.map (clawedIn id)).sum

/-- Every change of power in the voting contract of the distribution is announced by its hook caller. -/
def Announced (id : Nat) (log : List Event) : Prop :=
  ∀ e ∈ log, ∀ vp diffs via, e.call = .change vp diffs via →
    ∀ d, e.pre.c.dists.get id = some d → d.vp = vp → d.hookCaller ∈ via

/-- The owner never gives the distribution another voting contract. -/
def SameVotes (id : Nat) (log : List Event) : Prop :=
  ∀ e ∈ log, ∀ a coins rate vp hook o dest, e.call ≠ .exec a coins (.update id rate (some vp) hook o dest)

/-- A transaction hands out funds of the distribution at once, to those who have power in this block: it funds an
immediate distribution or one that is continuous and has run out, or changes the rate to immediate. -/
def AtOnce (id : Nat) (e : Event) (d : Dist) : Prop :=
  match e.call with
  | .exec _ _ (.fund i) => target e.pre i = id ∧ atOnceRate e d
  | .send _ _ _ i => target e.pre i = id ∧ atOnceRate e d
  | .exec _ _ (.update i (some .immediate) ..) => i = id
  | _ => False
where
  /-- The distribution hands out new funds at once. -/
  atOnceRate (e : Event) (d : Dist) : Prop :=
    match d.epoch.rate with
    | .immediate => True
    | .linear _ _ continuous => continuous = true ∧ d.epoch.ends.isExpired e.env = true
    | .paused => False

/-- Nothing is handed out at once in a block in which power has already changed. -/
def Calm (id : Nat) (log : List Event) : Prop :=
  ∀ e ∈ log,
    (∀ d, e.pre.c.dists.get id = some d → AtOnce id e d → (e.pre.vote d.vp).since < e.env.height) ∧
    (∀ a coins token vp hook o dest, e.call = .exec a coins (.create token .immediate vp hook o dest) →
      e.pre.c.count + 1 = id → coins ≠ [] → (e.pre.vote vp).since < e.env.height)

/-- What a member can claim from a distribution in a block. -/
def claimable (w : World) (b : Block) (id : Nat) (a : Addr) : Nat :=
  match queryPending w.c b (w.answers b) a id with
  | .ok n => n
  | .error _ => 0

/-- The contract can answer what a member can claim from a distribution in a block. -/
def Shows (w : World) (b : Block) (id : Nat) (a : Addr) : Prop := ∃ n, queryPending w.c b (w.answers b) a id = .ok n

/-- The whole blocks or seconds a linear distribution has run in a block, since rewards were last updated. -/
def ran (d : Dist) (b : Block) : Nat :=
  match d.epoch.updated, d.epoch.ends with
  | .atHeight u, .atHeight x => min b.height x - u
  | .atTime u, .atTime x => min b.time x / NANOS - u / NANOS
  | _, _ => 0

/-- The blocks or seconds of a duration. -/
def units : Duration → Nat
  | .height n => n
  | .time n => n

/-- A transaction is not about the distribution: it does not fund it, change it, take funds back, claim for the member
or change power in its voting contract. Hooks and claims of others are allowed. -/
def Leaves (id : Nat) (a : Addr) (e : Event) : Prop :=
  match e.call with
  | .exec _ _ (.fund i) => target e.pre i ≠ id
  | .send _ _ _ i => target e.pre i ≠ id
  | .exec _ _ (.update i ..) => i ≠ id
  | .exec _ _ (.withdraw i) => i ≠ id
  | .exec s _ (.claim i) => ¬ (s = a ∧ i = id)
  | .change vp _ _ => ∀ d, e.pre.c.dists.get id = some d → d.vp ≠ vp
  | _ => True

/-- Whenever a transaction updates a linear distribution, a whole number of periods has passed. -/
def OnPeriods (id : Nat) (log : List Event) : Prop :=
  ∀ e ∈ log, e.post.c.dists.get id ≠ e.pre.c.dists.get id →
    ∀ d amount dur c, e.pre.c.dists.get id = some d → d.epoch.rate = .linear amount dur c →
      units dur ∣ ran d e.env

/-- A transaction claims from the distribution for the member. -/
def Claims (id : Nat) (a : Addr) (e : Event) : Prop := ∃ coins, e.call = .exec a coins (.claim id)

/-- A transaction funds a continuous distribution that has run out. -/
def Revives (id : Nat) (e : Event) : Prop :=
  ∃ d amount dur, e.pre.c.dists.get id = some d ∧ d.epoch.rate = .linear amount dur true ∧
    d.epoch.ends.isExpired e.env = true ∧
    match e.call with
    | .exec _ _ (.fund i) => target e.pre i = id
    | .send _ _ _ i => target e.pre i = id
    | _ => False

/-- What the owner sets: the token, the rate, the voting contract, the hook caller, whether others may fund, and who gets
what is clawed back. -/
def settings (d : Dist) : Token × Rate × Addr × Addr × Bool × Addr :=
  (d.token, d.epoch.rate, d.vp, d.hookCaller, d.openFunding, d.dest)

/-- The whole blocks or seconds from the start of a linear distribution to its end. -/
def lasts (d : Dist) : Nat :=
  match d.epoch.started, d.epoch.ends with
  | .atHeight s, .atHeight x => x - s
  | .atTime s, .atTime x => x / NANOS - s / NANOS
  | _, _ => 0

/-- A block, as the heights or times in which a duration is counted. -/
def clock (b : Block) : Duration → Expiration
  | .height _ => .atHeight b.height
  | .time _ => .atTime b.time

/-- A linear distribution has nothing left to hand out in a block that funding could prolong: it never was funded, or it
is not continuous and has ended. -/
def Over (d : Dist) (b : Block) (continuous : Bool) : Prop :=
  d.funded = 0 ∨ (continuous = false ∧ d.epoch.ends.isExpired b = true)

instance (d : Dist) (b : Block) (c : Bool) : Decidable (Over d b c) := by unfold Over; infer_instance

end Verif.Spec.DaoRewards
