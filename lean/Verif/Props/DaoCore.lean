import Verif.Proofs.DaoCore
/-!
# C47, C50: who makes a DAO act
-/

namespace Verif.DaoCore
open Spec.DaoCore

/-- C47: messages are neither lost nor repeated nor made up: what has been carried out and what is still to be carried
out is, message for message, what was handed out and what the DAO began with. -/
theorem C47_conserved {w0 w : World} {b0 b : Block} {log : List Event} (h : sys.Run w0 b0 log w b) :
    (deliveredAll log ++ w.stack).Perm (handedOut log ++ w0.stack) := by
  induction h with
  | refl => exact List.Perm.refl _
  | step hr hb hs ih =>
    rename_i w1 w2 b1 log env call out
    have key : ∀ rest, w1.stack = delivered ⟨w1, env, call, out, w2⟩ ++ rest → w2.stack = out ++ rest →
        (deliveredAll (⟨w1, env, call, out, w2⟩ :: log) ++ w2.stack).Perm
          (handedOut (⟨w1, env, call, out, w2⟩ :: log) ++ w0.stack) := by
      intro rest h1 h2
      have e1 : deliveredAll (⟨w1, env, call, out, w2⟩ :: log) =
        delivered ⟨w1, env, call, out, w2⟩ ++ deliveredAll log := rfl
      have e2 : handedOut (⟨w1, env, call, out, w2⟩ :: log) = out ++ handedOut log := rfl
      rw [e1, e2, h2]
      rw [h1] at ih
      generalize delivered ⟨w1, env, call, out, w2⟩ = d at *
      -- d ++ D ++ (out ++ rest) ~ out ++ (D ++ (d ++ rest))
      have p1 : (d ++ deliveredAll log ++ (out ++ rest)).Perm (out ++ (deliveredAll log ++ (d ++ rest))) := by
        refine List.Perm.trans (List.perm_append_comm_assoc _ _ _) ?_
        refine List.Perm.append_left _ ?_
        rw [List.append_assoc]
        exact List.perm_append_comm_assoc _ _ _
      refine p1.trans ?_
      rw [List.append_assoc]
      exact List.Perm.append_left _ ih
    cases step_does hs with
    | msg hh hc hp he hs hs' hd => exact key _ hs hs'
    | rep hh hc hd hme hf hr hs hs' => exact key _ (by rw [hd]; exact hs) hs'
    | other hh hc hd hs hs' he ho =>
      refine key _ (by rw [hd]; exact hs) ?_
      have ho : out = [] := ho
      rw [ho]; exact hs'

/-- C47: the DAO hands out a message only for an enabled proposal module, for its admin, for a module it has just
created, or by its own decision to create a module. -/
theorem C47_who {w0 w : World} {b0 b : Block} {log : List Event} (h : sys.Run w0 b0 log w b) :
    ∀ e ∈ log, ∀ d ∈ e.out, MaySend e d := by
  intro e he d hd
  have hdoes := run_does h e he
  obtain ⟨pre, env, call, out, ⟨post, st⟩⟩ := e
  cases hdoes with
  | msg hh hc hp he hs hs' hdd =>
    simp only at he hd hh
    cases he <;> simp only [List.mem_map, List.not_mem_nil, List.mem_singleton] at hd
    case admin msgs h1 =>
      obtain ⟨m, hm, rfl⟩ := hd
      subst h1
      exact .admin hh hm
    case hook msgs p h1 h2 =>
      obtain ⟨m, hm, rfl⟩ := hd
      exact .hook hh ⟨p, h1, h2⟩ hm
    case voting i h1 =>
      subst hd h1
      exact .voting hh
    case modules a d h1 h2 h3 h4 h5 =>
      obtain ⟨i, hi, rfl⟩ := hd
      subst h2
      exact .proposal hh hi
  | rep hh hc hd' hme hf hr hs hs' =>
    simp only at hr hd hc
    cases hr <;> simp only [List.mem_map, List.not_mem_nil] at hd
    case proposal =>
      obtain ⟨m, hm, rfl⟩ := hd
      exact .callback hc (by decide) hm
    case voting =>
      obtain ⟨m, hm, rfl⟩ := hd
      exact .callback hc (by decide) hm
  | other hh hc hd' hs hs' he ho =>
    simp only at ho
    subst ho; cases hd

/-- What a DAO begins with: the creation of its modules, or, for a DAO migrated from the old version, at most the
message to itself to add the migrator. -/
theorem C47_first {b : Block} {w : World} (h : Init b w) :
    ∀ d ∈ w.stack, (∃ role i, d = .create role i ∧ role ≠ .votingModuleUpdate) ∨
      ∃ i, d = .send (.toSelf (.updateProposalModules [i] [])) := by
  intro d hd
  cases h with
  | new h =>
    simp only [instantiate, bind_ok, require_ok, Except.ok.injEq, Prod.mk.injEq] at h
    obtain ⟨_, _, _, _, _, rfl⟩ := h
    left
    rcases List.mem_cons.1 hd with rfl | hd
    · exact ⟨_, _, rfl, by decide⟩
    · obtain ⟨i, _, rfl⟩ := List.mem_map.1 hd
      exact ⟨_, _, rfl, by decide⟩
  | migrated =>
    rename_i old keys params _ _ _ _ _ _ _ _
    right
    cases params with
    | none => cases hd
    | some i => exact ⟨i, List.mem_singleton.1 hd⟩

/-- Whatever waits to be carried out was handed out before. -/
theorem waiting {w0 w : World} {b0 b : Block} {log : List Event} (h : sys.Run w0 b0 log w b) :
    ∀ d ∈ w.stack, d ∈ w0.stack ∨ ∃ e ∈ log, d ∈ e.out := by
  intro d hd
  have : d ∈ handedOut log ++ w0.stack :=
    (C47_conserved h).subset (List.mem_append_right _ hd)
  rcases List.mem_append.1 this with h1 | h1
  · right
    obtain ⟨l, hl, hdl⟩ := List.mem_flatten.1 h1
    obtain ⟨e, he, rfl⟩ := List.mem_map.1 hl
    exact ⟨e, he, hdl⟩
  · exact .inl h1

/-- C47: whenever a message of the DAO is carried out, an earlier event handed it out for someone who may make the DAO
send it, or the DAO began with it. -/
theorem C47_traced {w0 w : World} {b0 b : Block} {log : List Event} (h : sys.Run w0 b0 log w b)
    {later earlier : List Event} {e : Event} (hl : log = later ++ e :: earlier) :
    ∀ d ∈ delivered e, d ∈ w0.stack ∨ ∃ e' ∈ earlier, d ∈ e'.out ∧ MaySend e' d := by
  intro d hd
  have key : ∃ b1, sys.Run w0 b0 earlier e.pre b1 := by
    subst hl
    clear hd
    induction later generalizing w b with
    | nil => cases h with | step hr hb hs => exact ⟨_, hr⟩
    | cons x later ih => cases h with | step hr hb hs => exact ih hr
  obtain ⟨b1, hr⟩ := key
  have hmem : d ∈ e.pre.stack := by
    unfold delivered at hd
    split at hd
    · exact List.mem_of_mem_take hd
    · cases hd
  rcases waiting hr d hmem with h1 | ⟨e', he', hd'⟩
  · exact .inl h1
  · exact .inr ⟨e', he', hd', C47_who hr e' he' d hd'⟩

/-- C47: settings change only when the DAO itself says so. Each of the settings is unchanged by an event unless the DAO
itself called for that change, or one of the stated exceptions holds: the admin ends a pause, a token is put on a list
when it is received and the DAO is configured to do so, a module that was asked for is registered. -/
theorem C47_settings {w0 w : World} {b0 b : Block} {log : List Event} (h : sys.Run w0 b0 log w b) :
    ∀ e ∈ log,
      (e.post.core.config ≠ e.pre.core.config →
        ∃ c, handled e = some (e.pre.core.me, .updateConfig c) ∧ e.post.core.config = c) ∧
      (e.post.core.paused ≠ e.pre.core.paused →
        (∃ d, handled e = some (e.pre.core.me, .pause d) ∧ e.post.core.paused = some (d.after e.env.block)) ∨
        handled e = some (e.pre.core.admin, .unpause) ∧ e.post.core.paused = none) ∧
      (e.post.core.voting ≠ e.pre.core.voting →
        ∃ role c, created e = some (role, c) ∧ role ≠ .proposalModule ∧ e.post.core.voting = some c.address) ∧
      (e.post.core.modules ≠ e.pre.core.modules →
        (∃ add dis, handled e = some (e.pre.core.me, .updateProposalModules add dis)) ∨
        ∃ c, created e = some (.proposalModule, c)) ∧
      (e.post.core.items ≠ e.pre.core.items →
        (∃ k v, handled e = some (e.pre.core.me, .setItem k v)) ∨
        ∃ k, handled e = some (e.pre.core.me, .removeItem k)) ∧
      (e.post.core.cw20s ≠ e.pre.core.cw20s →
        (∃ a r, handled e = some (e.pre.core.me, .updateCw20List a r)) ∨
        ∃ a, handled e = some (a, .receive) ∧ e.pre.core.config.autoCw20 = true) ∧
      (e.post.core.cw721s ≠ e.pre.core.cw721s →
        (∃ a r, handled e = some (e.pre.core.me, .updateCw721List a r)) ∨
        ∃ a, handled e = some (a, .receiveNft) ∧ e.pre.core.config.autoCw721 = true) ∧
      (e.post.core.subDaos ≠ e.pre.core.subDaos →
        ∃ a r, handled e = some (e.pre.core.me, .updateSubDaos a r)) := by
  intro e he
  have hdoes := run_does h e he
  obtain ⟨pre, env, call, out, ⟨post, st⟩⟩ := e
  cases hdoes with
  | msg hh hc hp he hs hs' hdd =>
    simp only at he hh ⊢
    cases he <;> refine ⟨?_, ?_, ?_, ?_, ?_, ?_, ?_, ?_⟩ <;> intro hne <;> first | exact absurd rfl hne | skip
    case pause.refine_2 d h1 => subst h1; exact .inl ⟨d, hh, rfl⟩
    case unpause.refine_2 h1 => subst h1; exact .inr ⟨hh, rfl⟩
    case receive.refine_6 h1 => exact .inr ⟨_, hh, h1⟩
    case receiveNft.refine_7 h1 => exact .inr ⟨_, hh, h1⟩
    case removeItem.refine_5 k h1 h2 => subst h1; exact .inr ⟨k, hh⟩
    case setItem.refine_5 k v h1 => subst h1; exact .inl ⟨k, v, hh⟩
    case config.refine_1 c h1 => subst h1; exact ⟨_, hh, rfl⟩
    case cw20.refine_6 a r m h1 h2 => subst h1; exact .inl ⟨a, r, hh⟩
    case cw721.refine_7 a r m h1 h2 => subst h1; exact .inl ⟨a, r, hh⟩
    case modules.refine_4 a d ms h1 h2 h3 h4 => subst h1; exact .inl ⟨a, d, hh⟩
    case subDaos.refine_8 a r h1 => subst h1; exact ⟨a, r, hh⟩
  | rep hh hc hd' hme hf hr hs hs' =>
    simp only at hr hc ⊢
    cases hr <;> refine ⟨?_, ?_, ?_, ?_, ?_, ?_, ?_, ?_⟩ <;> intro hne <;> first | exact absurd rfl hne | skip
    case proposal.refine_4 => exact .inr ⟨_, hc⟩
    case voting.refine_3 => exact ⟨_, _, hc, by decide, rfl⟩
    case update.refine_3 => exact ⟨_, _, hc, by decide, rfl⟩
  | other hh hc hd' hs hs' he ho =>
    simp only at he ⊢
    subst he
    refine ⟨?_, ?_, ?_, ?_, ?_, ?_, ?_, ?_⟩ <;> intro hne <;> exact absurd rfl hne

/-- C47: a call by anyone else is not made in the DAO's name: the DAO is heard as itself only through a message it has
handed out. -/
theorem C47_itself {w0 w : World} {b0 b : Block} {log : List Event} (h : sys.Run w0 b0 log w b) :
    ∀ e ∈ log, ∀ m, handled e = some (e.pre.core.me, m) → delivered e = [.send (.toSelf m)] := by
  intro e he m hm
  cases run_does h e he with
  | msg hh hc hp he hs hs' hdd =>
    rw [hm] at hh
    simp only [Option.some.injEq, Prod.mk.injEq] at hh
    obtain ⟨rfl, rfl⟩ := hh
    rcases hdd with ⟨_, hne⟩ | ⟨hd, _⟩
    · exact absurd rfl hne
    · exact hd
  | rep hh hc hd' hme hf hr hs hs' => rw [hm] at hh; cases hh
  | other hh hc hd' hs hs' he ho => rw [hm] at hh; cases hh

/-- C47: while the DAO is paused only the DAO itself and its admin are heard. -/
theorem C47_paused {w0 w : World} {b0 b : Block} {log : List Event} (h : sys.Run w0 b0 log w b) :
    ∀ e ∈ log, Paused e.pre.core e.env.block → ∀ sender m, handled e = some (sender, m) →
      sender = e.pre.core.me ∨ sender = e.pre.core.admin := by
  intro e he hp sender m hm
  cases run_does h e he with
  | msg hh hc hp' he hs hs' hdd =>
    rw [hm] at hh
    simp only [Option.some.injEq, Prod.mk.injEq] at hh
    obtain ⟨rfl, rfl⟩ := hh
    exact hp' hp
  | rep hh hc hd' hme hf hr hs hs' => rw [hm] at hh; cases hh
  | other hh hc hd' hs hs' he ho => rw [hm] at hh; cases hh

/-- C50: the admin changes only when the nominee accepts, or when the admin, with no nomination pending, hands the
office to the DAO. -/
theorem C50_change {w0 w : World} {b0 b : Block} {log : List Event} (h : sys.Run w0 b0 log w b) :
    ∀ e ∈ log, e.post.core.admin ≠ e.pre.core.admin →
      (handled e = some (e.post.core.admin, .acceptAdminNomination) ∧
        e.pre.core.nominated = some e.post.core.admin ∧ e.post.core.nominated = none) ∨
      (handled e = some (e.pre.core.admin, .nominateAdmin none) ∧ e.post.core.admin = e.pre.core.me ∧
        e.pre.core.nominated = none) := by
  intro e he
  have hdoes := run_does h e he
  obtain ⟨pre, env, call, out, ⟨post, st⟩⟩ := e
  cases hdoes with
  | msg hh hc hp he hs hs' hdd =>
    simp only at he hh ⊢
    cases he <;> intro hne <;> first | exact absurd rfl hne | skip
    case resign h1 h2 => subst h1; exact .inr ⟨hh, rfl, h2⟩
    case accept h1 => exact .inl ⟨hh, h1, rfl⟩
  | rep hh hc hd' hme hf hr hs hs' =>
    simp only at hr ⊢
    cases hr <;> intro hne <;> exact absurd rfl hne
  | other hh hc hd' hs hs' he ho =>
    simp only at he ⊢
    subst he
    intro hne; exact absurd rfl hne

/-- C50: the nomination changes only by the admin's nomination when there was none, by the nominee's acceptance, or by
the admin's withdrawal. -/
theorem C50_nomination {w0 w : World} {b0 b : Block} {log : List Event} (h : sys.Run w0 b0 log w b) :
    ∀ e ∈ log, e.post.core.nominated ≠ e.pre.core.nominated →
      (∃ n, handled e = some (e.pre.core.admin, .nominateAdmin (some n)) ∧ e.pre.core.nominated = none ∧
        e.post.core.nominated = some n) ∨
      (∃ n, handled e = some (n, .acceptAdminNomination) ∧ e.pre.core.nominated = some n ∧
        e.post.core.nominated = none) ∨
      (handled e = some (e.pre.core.admin, .withdrawAdminNomination) ∧ e.post.core.nominated = none) := by
  intro e he
  have hdoes := run_does h e he
  obtain ⟨pre, env, call, out, ⟨post, st⟩⟩ := e
  cases hdoes with
  | msg hh hc hp he hs hs' hdd =>
    simp only at he hh ⊢
    cases he <;> intro hne <;> first | exact absurd rfl hne | skip
    case nominate n h1 h2 => subst h1; exact .inl ⟨n, hh, h2, rfl⟩
    case accept h1 => exact .inr (.inl ⟨_, hh, h1, rfl⟩)
    case withdraw h1 h2 => subst h1; exact .inr (.inr ⟨hh, rfl⟩)
  | rep hh hc hd' hme hf hr hs hs' =>
    simp only at hr ⊢
    cases hr <;> intro hne <;> exact absurd rfl hne
  | other hh hc hd' hs hs' he ho =>
    simp only at he ⊢
    subst he
    intro hne; exact absurd rfl hne

/-- C50: a pending nomination was made by the one who is admin now, and since then neither the admin nor the nomination
has changed; unless the history began with it. -/
theorem C50_pending {w0 w : World} {b0 b : Block} {log : List Event} (h : sys.Run w0 b0 log w b) {n : Addr}
    (hn : w.core.nominated = some n) :
    (∃ later earlier e, log = later ++ e :: earlier ∧
      handled e = some (w.core.admin, .nominateAdmin (some n)) ∧ e.pre.core.admin = w.core.admin ∧
      e.pre.core.nominated = none ∧
      ∀ e' ∈ later, e'.pre.core.admin = w.core.admin ∧ e'.pre.core.nominated = some n) ∨
    (w0.core.nominated = some n ∧
      ∀ e' ∈ log, e'.pre.core.admin = w.core.admin ∧ e'.pre.core.nominated = some n) := by
  induction h with
  | refl => exact .inr ⟨hn, fun e he => by cases he⟩
  | step hr hb hs ih =>
    rename_i w1 w2 b1 log env call out
    have hrun : sys.Run w0 b0 (⟨w1, env, call, out, w2⟩ :: log) w2 (sys.block env) := .step hr hb hs
    have hc := C50_change hrun ⟨w1, env, call, out, w2⟩ (List.mem_cons_self ..)
    have hno := C50_nomination hrun ⟨w1, env, call, out, w2⟩ (List.mem_cons_self ..)
    simp only at hc hno
    by_cases hsame : w2.core.nominated = w1.core.nominated
    · -- nothing happened to the nomination
      have hadm : w2.core.admin = w1.core.admin := by
        by_cases h0 : w2.core.admin = w1.core.admin
        · exact h0
        · rcases hc h0 with ⟨_, _, h3⟩ | ⟨_, _, h3⟩
          · rw [hn] at h3; cases h3
          · rw [← hsame, hn] at h3; cases h3
      rw [hsame] at hn
      rcases ih hn with ⟨later, earlier, e, h1, h2, h3, h4, h5⟩ | ⟨h1, h2⟩
      · left
        refine ⟨⟨w1, env, call, out, w2⟩ :: later, earlier, e, by rw [h1]; rfl, by rw [hadm]; exact h2,
          by rw [hadm]; exact h3, h4, ?_⟩
        intro e' he'
        rcases List.mem_cons.1 he' with rfl | he'
        · exact ⟨hadm.symm, hn⟩
        · rw [hadm]; exact h5 e' he'
      · right
        refine ⟨h1, ?_⟩
        intro e' he'
        rcases List.mem_cons.1 he' with rfl | he'
        · exact ⟨hadm.symm, hn⟩
        · rw [hadm]; exact h2 e' he'
    · rcases hno hsame with ⟨n', h1, h2, h3⟩ | ⟨n', h1, h2, h3⟩ | ⟨h1, h3⟩
      · rw [hn] at h3
        simp only [Option.some.injEq] at h3
        subst h3
        have hadm : w2.core.admin = w1.core.admin := by
          by_cases h0 : w2.core.admin = w1.core.admin
          · exact h0
          · rcases hc h0 with ⟨_, _, h3⟩ | ⟨h3, _, _⟩
            · rw [hn] at h3; cases h3
            · rw [h1] at h3; simp at h3
        left
        exact ⟨[], log, ⟨w1, env, call, out, w2⟩, rfl, by rw [hadm]; exact h1, hadm.symm, h2, fun e' he' => by cases he'⟩
      · rw [hn] at h3; cases h3
      · rw [hn] at h3; cases h3

/-- C50: whoever becomes admin by accepting was nominated by the admin they replace, and that nomination stood,
with the same admin, all the time in between; unless the history began with it. -/
theorem C50_accepted {w0 w : World} {b0 b : Block} {log later earlier : List Event} {e : Event}
    (h : sys.Run w0 b0 log w b) (hl : log = later ++ e :: earlier) {n : Addr}
    (ha : handled e = some (n, .acceptAdminNomination)) :
    e.post.core.admin = n ∧ e.post.core.nominated = none ∧
    ((∃ between before nom, earlier = between ++ nom :: before ∧
      handled nom = some (e.pre.core.admin, .nominateAdmin (some n)) ∧ nom.pre.core.admin = e.pre.core.admin ∧
      ∀ e' ∈ between, e'.pre.core.admin = e.pre.core.admin ∧ e'.pre.core.nominated = some n) ∨
     (w0.core.nominated = some n ∧
      ∀ e' ∈ earlier, e'.pre.core.admin = e.pre.core.admin ∧ e'.pre.core.nominated = some n)) := by
  have key : ∃ b1, sys.Run w0 b0 earlier e.pre b1 := by
    subst hl
    clear ha
    induction later generalizing w b with
    | nil => cases h with | step hr hb hs => exact ⟨_, hr⟩
    | cons x later ih => cases h with | step hr hb hs => exact ih hr
  obtain ⟨b1, hr⟩ := key
  have hdoes := run_does h e (by rw [hl]; simp)
  obtain ⟨pre, env, call, out, ⟨post, st⟩⟩ := e
  have hx : pre.core.nominated = some n ∧ post.admin = n ∧ post.nominated = none := by
    cases hdoes with
    | msg hh hc hp he hs hs' hdd =>
      rw [ha] at hh
      simp only [Option.some.injEq, Prod.mk.injEq] at hh
      obtain ⟨rfl, rfl⟩ := hh
      simp only at he
      cases he with
      | accept h1 => exact ⟨h1, rfl, rfl⟩
    | rep hh hc hd' hme hf hr hs hs' => rw [ha] at hh; cases hh
    | other hh hc hd' hs hs' he ho => rw [ha] at hh; cases hh
  refine ⟨hx.2.1, hx.2.2, ?_⟩
  rcases C50_pending hr hx.1 with ⟨l2, l1, nom, h1, h2, h3, _, h5⟩ | h1
  · exact .inl ⟨l2, l1, nom, h1, h2, h3, h5⟩
  · exact .inr h1

end Verif.DaoCore
