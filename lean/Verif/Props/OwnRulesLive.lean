import Verif.Props.OwnRules
import Verif.Props.OwnedDaoLive
import Verif.Props.SoundConfig
import Verif.Props.Roles
/-! C125: the members of a DAO can always change its rules and its membership. -/

namespace Verif.OwnRules
open Verif Verif.WholeDao Verif.Spec.OwnRules
open Verif.Spec.WholeDao (Lawful Steady Sole Authorised)
open Verif.Spec.OwnedDao (Majority)

variable {S E C O : Type} {V : VotingModule S E C O} {decode : Nat → DaoCore.CosmosMsg} {caller : E → C → Option Addr}
  {toCall : Nat → Option (Said C)}

theorem fromList_cons {e : Event S E C} {log : List (Event S E C)} (h : FromList caller toCall log)
    (he : ∀ x, said e.call = some x → speaker caller e.env e.call = some e.pre.core.core.me →
      ∃ e' rest r n tl, log = e' :: rest ∧ e'.call = .core (.deliver r) ∧
        e'.pre.core.stack = .send (.other n) :: tl ∧ toCall n = some x) : FromList caller toCall (e :: log) := by
  intro later before e1 x hl hx hs
  rcases later with _ | ⟨e0, later⟩
  · simp only [List.nil_append, List.cons.injEq] at hl
    obtain ⟨rfl, rfl⟩ := hl
    exact he x hx hs
  · simp only [List.cons_append, List.cons.injEq] at hl
    exact h later before e1 x hl.2 hx hs

theorem fromList_others {l log : List (Event S E C)} (h : FromList caller toCall log)
    (hl : ∀ e ∈ l, ∃ c, e.call = .prop c ∧ e.env.sender ≠ e.pre.core.core.me) : FromList caller toCall (l ++ log) := by
  induction l with
  | nil => exact h
  | cons e l ih =>
    refine fromList_cons (ih (fun e' h' => hl e' (List.mem_cons_of_mem _ h'))) (fun x hx hs => ?_)
    exfalso
    obtain ⟨c, hc, hne⟩ := hl e List.mem_cons_self
    rw [hc] at hs
    simp only [speaker] at hs
    split at hs
    · cases hs
    · injection hs with hs; exact hne hs

/-- Up to the delivery of the message. -/
theorem delivered (hV : Lawful V) {w0 w : World S} {b0 b : Block} {log : List (Event S E C)}
    (h : History V decode caller toCall w0 w b0 b log) {ys : List Addr} {e f : Env} (hm : Majority V w b ys e f)
    (hout : e.sender ≠ w.core.core.me ∧ f.sender ≠ w.core.core.me ∧ w.core.core.me ∉ ys)
    {n j : Nat} (hn : decode n = .other j) (content : Nat) :
    ∃ y log', (sys V decode).Run w b log' y f.block ∧ FromList caller toCall (log' ++ log) ∧
      log'.map (fun ev => (ev.env, ev.call)) =
        (f, .core (.deliver ⟨0, []⟩)) :: script w.prop.count ys e f n content ∧
      (∃ e' rest, log' = e' :: rest ∧ e'.call = .core (.deliver ⟨0, []⟩) ∧
        e'.pre.core.stack = .send (.other j) :: w.core.stack) ∧
      y.vote = w.vote ∧ y.core.stack = w.core.stack ∧ y.core.core.me = w.core.core.me ∧ y.prop.config = w.prop.config := by
  obtain ⟨x, lx, hrun, hcalls, hhead, hstack⟩ := C87_majority_acts (decode := decode) hV ⟨b0, w0, h.init, h.run⟩ h.steady hm.now
    hm.policy hm.veto hm.count hm.total hm.le hm.later hm.active hm.opens hm.nodup
    hm.stake hm.win hm.block hm.ends hm.member hm.pause hm.enabled content [n]
  simp only [List.map_cons, List.map_nil, hn, List.cons_append, List.nil_append] at hstack
  have henv : ∀ ev ∈ lx, (∃ c, ev.call = .prop c) ∧ ev.env.sender ≠ w.core.core.me := by
    intro ev hev
    have : (ev.env, ev.call) ∈ lx.map (fun ev => (ev.env, ev.call)) := List.mem_map.2 ⟨ev, hev, rfl⟩
    rw [hcalls] at this
    simp only [List.mem_cons, List.mem_append, List.mem_map, List.mem_reverse, List.not_mem_nil, or_false, Prod.mk.injEq] at this
    rcases this with ⟨h1, h2⟩ | ⟨a, ha, h1, h2⟩ | ⟨h1, h2⟩
    · rw [h1, h2]; exact ⟨⟨_, rfl⟩, hout.2.1⟩
    · rw [← h1, ← h2]; exact ⟨⟨_, rfl⟩, fun hc => hout.2.2 (by rw [← hc]; exact ha)⟩
    · rw [h1, h2]; exact ⟨⟨_, rfl⟩, hout.1⟩
  have hkeep : x.vote = w.vote ∧ x.prop.config = w.prop.config ∧ x.core.core.me = w.core.core.me := by
    clear hcalls hstack hhead
    have hr := hrun
    generalize f.block = b' at hr
    clear hrun
    induction hr with
    | refl => exact ⟨rfl, rfl, rfl⟩
    | @step s1 s2 b3 l env call out hr hb3 hs ih =>
      obtain ⟨h1, h2, h3⟩ := ih (fun ev hev => henv ev (List.mem_cons_of_mem _ hev))
      obtain ⟨⟨c, hc⟩, hne⟩ := henv _ List.mem_cons_self
      simp only at hc hne
      subst hc
      have hs' : step V decode s1 env (.prop c) = .ok (s2, out) := hs
      obtain ⟨⟨o, _, hp⟩, hv, _⟩ := prop_effect hs'
      have := (Single.C15_only_dao hp (by rw [h2, hm.now.2]; exact hne)).1
      exact ⟨hv.trans h1, this.trans h2, (stack_step hs').1.trans h3⟩
  have hme : ∀ ev ∈ lx, ev.pre.core.core.me = w.core.core.me := fun ev hev => me_event hrun hev
  have hd : step V decode x f (.core (.deliver ⟨0, []⟩)) = .ok ({ x with core := ⟨x.core.core, w.core.stack⟩ }, ⟨none, []⟩) := by
    simp only [step, notBy, require, if_true, ok_bind, DaoCore.step, hstack]
  refine ⟨{ x with core := ⟨x.core.core, w.core.stack⟩ }, _, .step (M := sys V decode) (env := f)
    (call := .core (.deliver ⟨0, []⟩)) hrun (Block.le_refl _) hd, ?_, ?_, ⟨_, _, rfl, rfl, hstack⟩, hkeep.1, rfl, hkeep.2.2,
    hkeep.2.1⟩
  · refine fromList_cons (fromList_others h.fromList (fun ev hev => ?_)) (fun _ hx _ => by simp [said] at hx)
    obtain ⟨⟨c, hc⟩, hne⟩ := henv ev hev
    exact ⟨c, hc, by rw [hme ev hev]; exact hne⟩
  · rw [List.map_cons, hcalls]; rfl

/-- **C125.** The members can always have their DAO call its voting module, or a contract behind it: in any state the DAO can
reach, members with sufficient stakes can propose any such call, vote for it, and have it executed when the voting period is
over; if it is accepted from the DAO, it is then carried out. All these transactions succeed. -/
theorem C125_voting (hV : Lawful V) {w0 w : World S} {b0 b : Block} {log : List (Event S E C)}
    (h : History V decode caller toCall w0 w b0 b log) {ys : List Addr} {e f : Env} (hm : Majority V w b ys e f)
    (hout : e.sender ≠ w.core.core.me ∧ f.sender ≠ w.core.core.me ∧ w.core.core.me ∉ ys)
    {n j : Nat} {k : C} (hn : decode n = .other j) (hj : toCall j = some (.vote k)) {g : E} (hg : V.sys.block g = f.block)
    {v : S} {o : O} (hx : V.sys.step w.vote g k = .ok (v, o)) (content : Nat) :
    ∃ w' log', (sys V decode).Run w b log' w' f.block ∧ FromList caller toCall (log' ++ log) ∧
      log'.map (fun ev => (ev.env, ev.call)) =
        (f, .vote g k) :: (f, .core (.deliver ⟨0, []⟩)) :: script w.prop.count ys e f n content ∧
      w'.vote = v ∧ w'.core.stack = w.core.stack ∧ w'.prop.config = w.prop.config := by
  obtain ⟨y, l, hr, hf, hl, ⟨e', rest, rfl, he', hs'⟩, hv, hst, hme, hcfg⟩ := delivered hV h hm hout hn content
  have hs : step V decode y f (.vote g k) = .ok ({ y with vote := v }, ⟨none, []⟩) := by
    rw [← hv] at hx
    simp only [step, hg, decide_true, require, if_true, ok_bind, hx]
  refine ⟨{ y with vote := v }, _, .step (M := sys V decode) (env := f) (call := .vote g k) hr (Block.le_refl _) hs, ?_, ?_,
    rfl, hst, hcfg⟩
  · refine fromList_cons hf (fun x hx _ => ⟨e', _, _, j, _, rfl, he', hs', ?_⟩)
    simp only [said, Option.some.injEq] at hx
    rw [← hx]; exact hj
  · rw [List.map_cons, hl]

/-- **C125.** The members can always change the rules by which they decide, to any sound ones. -/
theorem C125_rules (hV : Lawful V) {w0 w : World S} {b0 b : Block} {log : List (Event S E C)}
    (h : History V decode caller toCall w0 w b0 b log) {ys : List Addr} {e f : Env} (hm : Majority V w b ys e f)
    (hout : e.sender ≠ w.core.core.me ∧ f.sender ≠ w.core.core.me ∧ w.core.core.me ∉ ys)
    {n j : Nat} {c : Single.Config} (hn : decode n = .other j) (hj : toCall j = some (.prop (.updateConfig c)))
    (hc : Single.Sound c) (content : Nat) :
    ∃ w' log', (sys V decode).Run w b log' w' f.block ∧ FromList caller toCall (log' ++ log) ∧
      log'.map (fun ev => (ev.env, ev.call)) =
        ({ f with sender := w.core.core.me }, .prop (.updateConfig c)) :: (f, .core (.deliver ⟨0, []⟩)) ::
          script w.prop.count ys e f n content ∧
      w'.prop.config = c ∧ w'.vote = w.vote ∧ w'.core.stack = w.core.stack := by
  obtain ⟨y, l, hr, hf, hl, ⟨e', rest, rfl, he', hs'⟩, hv, hst, hme, hcfg⟩ := delivered hV h hm hout hn content
  have hs : step V decode y { f with sender := w.core.core.me } (.prop (.updateConfig c)) =
      .ok ({ y with prop := { y.prop with config := c } }, ⟨some { msgs := [] }, []⟩) := by
    have h1 : y.prop.config.dao = w.core.core.me := by rw [hcfg]; exact hm.now.2
    have h2 : Single.validateConfig c = .ok () := Single.sound_ok.2 hc
    simp only [step, Single.step, Single.execUpdateConfig, propEnv, h1, decide_true, require, if_true, ok_bind, h2, passOn,
      daoFails, Bool.false_eq_true, if_false, handOn]
  refine ⟨{ y with prop := { y.prop with config := c } }, _, .step (M := sys V decode)
    (env := { f with sender := w.core.core.me }) (call := .prop (.updateConfig c)) hr (Block.le_refl _) hs, ?_, ?_,
    rfl, hv, hst⟩
  · refine fromList_cons hf (fun x hx _ => ⟨e', _, _, j, _, rfl, he', hs', ?_⟩)
    simp only [said, Spec.isReply, Bool.false_eq_true, if_false, Option.some.injEq] at hx
    rw [← hx]; exact hj
  · rw [List.map_cons, hl]

theorem vote_reach {w0 w : World S} {b0 b : Block} {log : List (Event S E C)} (hi : Init V b0 w0)
    (h : (sys V decode).Run w0 b0 log w b) : ∃ b1 l, V.sys.Reach w.vote b1 l ∧ b1.le b := by
  obtain ⟨_, _, ⟨b1, l, h1, hb⟩, _⟩ := hi
  obtain ⟨l', b2, h2, hb2, _⟩ := vote_run h hb
  exact ⟨b2, _, h1.run h2, hb2⟩

/-- **C125.** dao-voting-cw4, with the DAO as the admin of the group: the members can always admit and expel members and change
weights, as long as no address is listed twice and the weights fit 64 bits; after that everybody has the weight so decided. -/
theorem C125_members_cw4 {toCall : Nat → Option (Said Cw4Voting.VCall)} {w0 w : World Cw4Voting.World} {b0 b : Block}
    {log : List (Event Cw4Voting.World Block Cw4Voting.VCall)}
    (h : History cw4 decode cw4Caller toCall w0 w b0 b log) {ys : List Addr} {e f : Env} (hm : Majority cw4 w b ys e f)
    (hout : e.sender ≠ w.core.core.me ∧ f.sender ≠ w.core.core.me ∧ w.core.core.me ∉ ys)
    (hadm : w.vote.group.admin = some w.core.core.me) {n j : Nat} (hn : decode n = .other j)
    {remove : List Addr} {add : List Cw4Voting.Member}
    (hj : toCall j = some (.vote (.group ⟨w.core.core.me, .updateMembers remove add⟩)))
    (hadd : (add.map (·.1)).Nodup) (hfit : cw4.totalWeight w.vote + (add.map (·.2)).sum < 2 ^ 64) (content : Nat) :
    ∃ w' log', (sys cw4 decode).Run w b log' w' f.block ∧ FromList cw4Caller toCall (log' ++ log) ∧
      log'.map (fun ev => (ev.env, ev.call)) =
        (f, .vote f.block (.group ⟨w.core.core.me, .updateMembers remove add⟩)) :: (f, .core (.deliver ⟨0, []⟩)) ::
          script w.prop.count ys e f n content ∧
      (∀ a ∈ remove, cw4.weight w'.vote a = 0) ∧
      (∀ a m, (a, m) ∈ add → a ∉ remove → cw4.weight w'.vote a = m) ∧
      ∀ a, a ∉ remove → a ∉ add.map (·.1) → cw4.weight w'.vote a = cw4.weight w.vote a := by
  obtain ⟨b1, l1, hreach, _⟩ := vote_reach h.init h.run
  obtain ⟨⟨v, o⟩, hx⟩ := (Cw4Voting.C71_admin_can hreach hadm f.block b).1 remove add hadd hfit
  obtain ⟨w', log', h1, h2, h3, h4, _⟩ := C125_voting (V := cw4) C80_cw4 h hm hout hn hj (g := f.block) rfl hx content
  have hu := fun q => Cw4Voting.C71_update (now := b) hreach hx q
  refine ⟨w', log', h1, h2, h3, fun a ha => ?_, fun a m ha hr => ?_, fun a hr ha => ?_⟩
  · rw [h4]; exact (hu a).1 ha
  · rw [h4]; exact (hu a).2.1 m hr ha
  · rw [h4]
    exact congrArg Prod.fst ((hu a).2.2.1 hr (fun m hm => ha (List.mem_map.2 ⟨_, hm, rfl⟩)))

/-- **C125.** dao-voting-cw721-roles, with the DAO as the owner of the role contract: the members can always give a new role to
anybody, if the weights fit 64 bits, and this adds to the weight of its holder exactly what was decided. -/
theorem C125_members_roles {toCall : Nat → Option (Said Roles.Voting.Call)} {w0 w : World Roles.Voting.World} {b0 b : Block}
    {log : List (Event Roles.Voting.World Roles.Env Roles.Voting.Call)}
    (h : History roles decode rolesCaller toCall w0 w b0 b log) {ys : List Addr} {e f : Env} (hm : Majority roles w b ys e f)
    (hout : e.sender ≠ w.core.core.me ∧ f.sender ≠ w.core.core.me ∧ w.core.core.me ∉ ys)
    (hown : w.vote.roles.ownership.owner = some w.core.core.me) (hself : w.vote.self ≠ w.core.core.me) {n j : Nat}
    (hn : decode n = .other j) {t a k : Nat} {u r : Option Nat} (hj : toCall j = some (.vote (.roles (.mint t a u r k))))
    (hnew : w.vote.roles.tokens.get t = none) (hfit : roles.totalWeight w.vote + k < U64)
    (hcount : w.vote.roles.count + 1 < U64) (content : Nat) :
    ∃ w' log', (sys roles decode).Run w b log' w' f.block ∧ FromList rolesCaller toCall (log' ++ log) ∧
      log'.map (fun ev => (ev.env, ev.call)) =
        (f, .vote ⟨f.block, w.core.core.me⟩ (.roles (.mint t a u r k))) :: (f, .core (.deliver ⟨0, []⟩)) ::
          script w.prop.count ys e f n content ∧
      roles.weight w'.vote a = roles.weight w.vote a + k ∧ ∀ a', a' ≠ a → roles.weight w'.vote a' = roles.weight w.vote a' := by
  obtain ⟨b1, l1, hreach, _⟩ := vote_reach h.init h.run
  obtain ⟨l2, hreach⟩ := reach_roles hreach
  obtain ⟨⟨v, o⟩, hx⟩ := (Roles.C69_mint_iff hreach hown f.block t a u r k).2 ⟨hnew, hfit, hcount⟩
  have hx' : roles.sys.step w.vote ⟨f.block, w.core.core.me⟩ (.roles (.mint t a u r k)) =
      .ok ({ w.vote with roles := v }, o) := by
    simp only [roles, Roles.Voting.sysExisting, Roles.Voting.step, hself.symm, ne_eq, not_false_eq_true, decide_true, require,
      if_true, ok_bind, hx]
  obtain ⟨w', log', h1, h2, h3, h4, _⟩ := C125_voting (V := roles) C80_roles h hm hout hn hj
    (g := ⟨f.block, w.core.core.me⟩) rfl hx' content
  refine ⟨w', log', h1, h2, h3, ?_⟩
  rw [h4]
  have hd := Roles.exec_does hx
  cases hd with
  | mint hT' hTw hn hfree hc hc' =>
    subst hn
    refine ⟨?_, fun a' ha' => ?_⟩
    · simp only [roles, Snap.get_save, if_true, Option.getD_some]
    · simp only [roles, Snap.get_save, ha', ha'.symm, if_false]

end Verif.OwnRules
