import Verif.Spec.DaoCore
/-!
# Proofs about dao-dao-core: what a step does
-/

namespace Verif.DaoCore
open Spec.DaoCore

/-- What a message does when it is accepted. -/
inductive Eff (s : State) (e : Env) (sender : Addr) : Msg → State → List Sub → Prop where
  | admin {msgs : List CosmosMsg} (h : sender = s.admin) :
      Eff s e sender (.executeAdminMsgs msgs) s (msgs.map .send)
  | hook {msgs : List CosmosMsg} {p : Module} (h : s.modules.get sender = some p) (hp : p.enabled = true) :
      Eff s e sender (.executeProposalHook msgs) s (msgs.map .send)
  | pause {d : Duration} (h : sender = s.me) :
      Eff s e sender (.pause d) { s with paused := some (d.after e.block) } []
  | unpause (h : sender = s.admin) : Eff s e sender .unpause { s with paused := none } []
  | receive (h : s.config.autoCw20 = true) : Eff s e sender .receive { s with cw20s := s.cw20s.set sender () } []
  | receiveNot (h : s.config.autoCw20 = false) : Eff s e sender .receive s []
  | receiveNft (h : s.config.autoCw721 = true) :
      Eff s e sender .receiveNft { s with cw721s := s.cw721s.set sender () } []
  | receiveNftNot (h : s.config.autoCw721 = false) : Eff s e sender .receiveNft s []
  | removeItem {k : Nat} (h : sender = s.me) (hk : (s.items.get k).isSome = true) :
      Eff s e sender (.removeItem k) { s with items := s.items.erase k } []
  | setItem {k v : Nat} (h : sender = s.me) :
      Eff s e sender (.setItem k v) { s with items := s.items.set k v } []
  | config {c : Config} (h : sender = s.me) : Eff s e sender (.updateConfig c) { s with config := c } []
  | cw20 {a r : List Addr} {m : AMap Addr Unit} (h : sender = s.me) (hm : updateAddrs e.isCw20 s.cw20s a r = .ok m) :
      Eff s e sender (.updateCw20List a r) { s with cw20s := m } []
  | cw721 {a r : List Addr} {m : AMap Addr Unit} (h : sender = s.me)
      (hm : updateAddrs e.isCw721 s.cw721s a r = .ok m) :
      Eff s e sender (.updateCw721List a r) { s with cw721s := m } []
  | voting {i : Nat} (h : sender = s.me) :
      Eff s e sender (.updateVotingModule i) s [.create .votingModuleUpdate i]
  | modules {a : List Nat} {d : List Addr} {ms : AMap Addr Module} (h : sender = s.me)
      (hd : disableAll s.modules d = .ok ms) (hn : s.active ≤ d.length % U32 → a ≠ [])
      (hu : d.length % U32 ≤ s.active) :
      Eff s e sender (.updateProposalModules a d)
        { s with modules := ms, active := s.active - d.length % U32 } (a.map (Sub.create .proposalModule))
  | nominate {n : Addr} (h : sender = s.admin) (hn : s.nominated = none) :
      Eff s e sender (.nominateAdmin (some n)) { s with nominated := some n } []
  | resign (h : sender = s.admin) (hn : s.nominated = none) :
      Eff s e sender (.nominateAdmin none) { s with admin := s.me } []
  | accept (h : s.nominated = some sender) :
      Eff s e sender .acceptAdminNomination { s with nominated := none, admin := sender } []
  | withdraw (h : sender = s.admin) (hn : s.nominated.isSome = true) :
      Eff s e sender .withdrawAdminNomination { s with nominated := none } []
  | subDaos {a : List (Addr × Option Nat)} {r : List Addr} (h : sender = s.me) :
      Eff s e sender (.updateSubDaos a r) { s with subDaos := addSubDaos (removeAddrs s.subDaos r) a } []

theorem dispatch_eff {s s' : State} {e : Env} {sender : Addr} {m : Msg} {out : List Sub}
    (h : dispatch s e sender m = .ok (s', out)) : Eff s e sender m s' out := by
  cases m <;> simp only [dispatch] at h
  case executeAdminMsgs msgs =>
    simp only [adminMsgs, bind_ok, require_ok, decide_eq_true_eq, Except.ok.injEq, Prod.mk.injEq] at h
    obtain ⟨_, h1, rfl, rfl⟩ := h
    exact .admin h1
  case executeProposalHook msgs =>
    simp only [proposalHook, bind_ok, require_ok, orErr_ok, Except.ok.injEq, Prod.mk.injEq] at h
    obtain ⟨p, h1, _, h2, rfl, rfl⟩ := h
    exact .hook h1 h2
  case pause d =>
    simp only [pause, bind_ok, require_ok, decide_eq_true_eq, Except.ok.injEq, Prod.mk.injEq] at h
    obtain ⟨_, h1, rfl, rfl⟩ := h
    exact .pause h1
  case unpause =>
    simp only [unpause, bind_ok, require_ok, decide_eq_true_eq, Except.ok.injEq, Prod.mk.injEq] at h
    obtain ⟨_, h1, rfl, rfl⟩ := h
    exact .unpause h1
  case receive =>
    unfold receiveCw20 at h
    split at h
    · rename_i hc
      simp only [Except.ok.injEq, Prod.mk.injEq] at h
      obtain ⟨rfl, rfl⟩ := h
      exact .receive hc
    · rename_i hc
      simp only [Except.ok.injEq, Prod.mk.injEq] at h
      obtain ⟨rfl, rfl⟩ := h
      exact .receiveNot (by simpa using hc)
  case receiveNft =>
    unfold receiveCw721 at h
    split at h
    · rename_i hc
      simp only [Except.ok.injEq, Prod.mk.injEq] at h
      obtain ⟨rfl, rfl⟩ := h
      exact .receiveNft hc
    · rename_i hc
      simp only [Except.ok.injEq, Prod.mk.injEq] at h
      obtain ⟨rfl, rfl⟩ := h
      exact .receiveNftNot (by simpa using hc)
  case removeItem k =>
    simp only [removeItem, bind_ok, require_ok, decide_eq_true_eq, Except.ok.injEq, Prod.mk.injEq] at h
    obtain ⟨_, h1, _, h2, rfl, rfl⟩ := h
    exact .removeItem h1.symm h2
  case setItem k v =>
    simp only [setItem, bind_ok, require_ok, decide_eq_true_eq, Except.ok.injEq, Prod.mk.injEq] at h
    obtain ⟨_, h1, rfl, rfl⟩ := h
    exact .setItem h1.symm
  case updateConfig c =>
    simp only [updateConfig, bind_ok, require_ok, decide_eq_true_eq, Except.ok.injEq, Prod.mk.injEq] at h
    obtain ⟨_, h1, rfl, rfl⟩ := h
    exact .config h1
  case updateCw20List a r =>
    simp only [updateCw20s, bind_ok, require_ok, decide_eq_true_eq, Except.ok.injEq, Prod.mk.injEq] at h
    obtain ⟨_, h1, m, h2, rfl, rfl⟩ := h
    exact .cw20 h1.symm h2
  case updateCw721List a r =>
    simp only [updateCw721s, bind_ok, require_ok, decide_eq_true_eq, Except.ok.injEq, Prod.mk.injEq] at h
    obtain ⟨_, h1, m, h2, rfl, rfl⟩ := h
    exact .cw721 h1.symm h2
  case updateVotingModule i =>
    simp only [updateVoting, bind_ok, require_ok, decide_eq_true_eq, Except.ok.injEq, Prod.mk.injEq] at h
    obtain ⟨_, h1, rfl, rfl⟩ := h
    exact .voting h1.symm
  case updateProposalModules a d =>
    simp only [updateModules, bind_ok, require_ok, decide_eq_true_eq, Except.ok.injEq, Prod.mk.injEq] at h
    obtain ⟨_, h1, ms, h2, _, h3, _, h4, rfl, rfl⟩ := h
    refine .modules h1.symm h2 ?_ h4
    intro hle hnil
    subst hnil
    simp [hle] at h3
  case nominateAdmin n =>
    cases n with
    | none =>
      simp only [nominateAdmin, bind_ok, require_ok, decide_eq_true_eq, Except.ok.injEq, Prod.mk.injEq,
        Option.isNone_iff_eq_none] at h
      obtain ⟨_, h1, _, h2, rfl, rfl⟩ := h
      exact .resign h1.symm h2
    | some n =>
      simp only [nominateAdmin, bind_ok, require_ok, decide_eq_true_eq, Except.ok.injEq, Prod.mk.injEq,
        Option.isNone_iff_eq_none] at h
      obtain ⟨_, h1, _, h2, rfl, rfl⟩ := h
      exact .nominate h1.symm h2
  case acceptAdminNomination =>
    simp only [acceptAdmin, bind_ok, require_ok, orErr_ok, decide_eq_true_eq, Except.ok.injEq, Prod.mk.injEq] at h
    obtain ⟨n, h1, _, h2, rfl, rfl⟩ := h
    subst h2
    exact .accept h1
  case withdrawAdminNomination =>
    simp only [withdrawAdmin, bind_ok, require_ok, decide_eq_true_eq, Except.ok.injEq, Prod.mk.injEq] at h
    obtain ⟨_, h1, _, h2, rfl, rfl⟩ := h
    exact .withdraw h1.symm h2
  case updateSubDaos a r =>
    simp only [updateSubDaos, bind_ok, require_ok, decide_eq_true_eq, Except.ok.injEq, Prod.mk.injEq] at h
    obtain ⟨_, h1, rfl, rfl⟩ := h
    exact .subDaos h1.symm

theorem paused_iff (s : State) (b : Block) : isPaused s b = true ↔ Paused s b := by
  unfold isPaused Paused
  cases s.paused <;> simp

theorem execute_eff {s s' : State} {e : Env} {sender : Addr} {m : Msg} {out : List Sub}
    (h : execute s e sender m = .ok (s', out)) :
    (Paused s e.block → sender = s.me ∨ sender = s.admin) ∧ Eff s e sender m s' out := by
  simp only [execute, bind_ok, require_ok] at h
  obtain ⟨_, h1, h2⟩ := h
  refine ⟨?_, dispatch_eff h2⟩
  intro hp
  rw [← paused_iff] at hp
  simp only [hp, Bool.not_true, Bool.false_or, Bool.or_eq_true, decide_eq_true_eq] at h1
  exact h1

/-- What a reply does. -/
inductive Rep (s : State) (c : Created) : Role → State → List Sub → Prop where
  | proposal (ha : s.active + 1 < U32) (ht : s.total + 1 < U32) :
      Rep s c .proposalModule
        { s with
          modules := s.modules.set c.address ⟨c.address, derivePrefix s.total, true⟩
          active := s.active + 1
          total := s.total + 1 } (c.callbacks.map .send)
  | voting (h : s.voting = none) :
      Rep s c .votingModule { s with voting := some c.address } (c.callbacks.map .send)
  | update : Rep s c .votingModuleUpdate { s with voting := some c.address } []

theorem reply_rep {s s' : State} {role : Role} {c : Created} {out : List Sub} (h : reply s role c = .ok (s', out)) :
    Rep s c role s' out := by
  cases role <;> simp only [reply] at h
  · simp only [replyProposal, bind_ok, require_ok, decide_eq_true_eq, Except.ok.injEq, Prod.mk.injEq] at h
    obtain ⟨_, h1, _, h2, rfl, rfl⟩ := h
    exact .proposal h1 h2
  · simp only [replyVoting, bind_ok, require_ok, Except.ok.injEq, Prod.mk.injEq, Option.isNone_iff_eq_none] at h
    obtain ⟨_, h1, rfl, rfl⟩ := h
    exact .voting h1
  · simp only [replyVotingUpdate, Except.ok.injEq, Prod.mk.injEq] at h
    obtain ⟨rfl, rfl⟩ := h
    exact .update

/-- What a step does. -/
inductive Does (ev : Event) : Prop where
  | msg {sender : Addr} {m : Msg} {rest : List Sub} (hh : handled ev = some (sender, m)) (hc : created ev = none)
      (hp : Paused ev.pre.core ev.env.block → sender = ev.pre.core.me ∨ sender = ev.pre.core.admin)
      (he : Eff ev.pre.core ev.env sender m ev.post.core ev.out) (hs : ev.pre.stack = delivered ev ++ rest)
      (hs' : ev.post.stack = ev.out ++ rest)
      (hd : delivered ev = [] ∧ sender ≠ ev.pre.core.me ∨ delivered ev = [.send (.toSelf m)] ∧ sender = ev.pre.core.me)
  | rep {role : Role} {c : Created} {i : Nat} {rest : List Sub} (hh : handled ev = none)
      (hc : created ev = some (role, c)) (hd : delivered ev = [.create role i]) (hme : c.address ≠ ev.pre.core.me)
      (hf : ev.pre.core.modules.get c.address = none) (hr : Rep ev.pre.core c role ev.post.core ev.out)
      (hs : ev.pre.stack = .create role i :: rest) (hs' : ev.post.stack = ev.out ++ rest)
  | other {n : Nat} {rest : List Sub} (hh : handled ev = none) (hc : created ev = none)
      (hd : delivered ev = [.send (.other n)]) (hs : ev.pre.stack = .send (.other n) :: rest)
      (hs' : ev.post.stack = rest) (he : ev.post.core = ev.pre.core) (ho : ev.out = [])

theorem step_does {w w' : World} {e : Env} {c : Call} {out : List Sub} (h : step w e c = .ok (w', out)) :
    Does ⟨w, e, c, out, w'⟩ := by
  cases c with
  | call sender m =>
    simp only [step, bind_ok, require_ok, decide_eq_true_eq] at h
    obtain ⟨_, h1, ⟨s, o⟩, h2, h3⟩ := h
    simp only [Except.ok.injEq, Prod.mk.injEq] at h3
    obtain ⟨rfl, rfl⟩ := h3
    obtain ⟨hp, he⟩ := execute_eff h2
    exact .msg (sender := sender) (m := m) (rest := w.stack) rfl rfl hp he rfl rfl (.inl ⟨rfl, h1⟩)
  | deliver c =>
    obtain ⟨core, stack⟩ := w
    cases stack with
    | nil => simp [step] at h
    | cons d rest =>
      cases d with
      | create role i =>
        simp only [step, bind_ok, require_ok, decide_eq_true_eq, Option.isNone_iff_eq_none] at h
        obtain ⟨_, h1, _, h2, ⟨s, o⟩, h3, h4⟩ := h
        simp only [Except.ok.injEq, Prod.mk.injEq] at h4
        obtain ⟨rfl, rfl⟩ := h4
        exact .rep (role := role) (c := c) (i := i) (rest := rest) rfl rfl rfl h1 h2 (reply_rep h3) rfl rfl
      | send m =>
        cases m with
        | toSelf m =>
          simp only [step, bind_ok] at h
          obtain ⟨⟨s, o⟩, h2, h3⟩ := h
          simp only [Except.ok.injEq, Prod.mk.injEq] at h3
          obtain ⟨rfl, rfl⟩ := h3
          obtain ⟨hp, he⟩ := execute_eff h2
          exact .msg (sender := core.me) (m := m) (rest := rest) rfl rfl hp he rfl rfl (.inr ⟨rfl, rfl⟩)
        | other n =>
          simp only [step, Except.ok.injEq, Prod.mk.injEq] at h
          obtain ⟨rfl, rfl⟩ := h
          exact .other (n := n) (rest := rest) rfl rfl rfl rfl rfl rfl rfl

/-- Every event of a history is such a step. -/
theorem run_does {w0 w : World} {b0 b : Block} {log : List Event} (h : sys.Run w0 b0 log w b) :
    ∀ e ∈ log, Does e := by
  intro e he
  obtain ⟨_, _, _, _, _, _, hs, _⟩ := h.event e he
  exact step_does hs

theorem Eff.me {s s' : State} {e : Env} {sender : Addr} {m : Msg} {out : List Sub} (h : Eff s e sender m s' out) :
    s'.me = s.me := by cases h <;> rfl

theorem Rep.me {s s' : State} {c : Created} {role : Role} {out : List Sub} (h : Rep s c role s' out) :
    s'.me = s.me := by cases h <;> rfl

/-- The DAO's address never changes. -/
theorem does_me {ev : Event} (h : Does ev) : ev.post.core.me = ev.pre.core.me := by
  cases h with
  | msg hh hc hp he hs hs' hd => exact he.me
  | rep hh hc hd hme hf hr hs hs' => exact hr.me
  | other hh hc hd hs hs' he ho => rw [he]

end Verif.DaoCore
