import Verif.Lemmas.Once
import Verif.Props.Demo
/-! Direct replies: C05. -/
set_option linter.unusedSimpArgs false
namespace Verif.Props
open Verif Spec

variable {H : Type} (o : Oracle H)

/-- C05: with a configuration whose deny actions are all terminal, the host accepts at most one direct
reply during a request. -/
theorem C05_one_reply (parse : Text → Option Expr) (cfg : PluginConfig) (factory : Factory)
    (hf : Factory.tryFrom parse cfg = some factory)
    (hd : ∀ s ∈ cfg.actionSets, ∀ a ∈ s.actions, DeniesTerminal a)
    (host : H) (events : List (Event H)) :
    (Filter.run o factory host events).log.countP isAcceptedReply ≤ 1 := by
  by_cases hb : ∃ p, factory.build o { host := host } = .pipeline p
  · obtain ⟨p, hb⟩ := hb
    have hg := (reply_extra (o := o)).run factory host p hb ?_ events
    · refine hg.log (Q := OneReply) ?_
      rintro q (⟨_, h⟩ | ⟨_, h⟩)
      · exact h.2.one
      · exact h
    · refine ⟨?_, ?_⟩
      · refine built_all (o := o) (R := fun a => ∀ h e, a = .deny h e → h.terminal = true) parse cfg factory
          hf _ p hb ?_ ?_ ?_ ?_
        · intro s hs a ha i t x deps hst hc
          have hev : EveryAction (fun b => ∀ h e, b = .deny h e → h.terminal = true) t := by
            have := hd s hs a ha
            cases hst with
            | typed => exact this
            | legacy _ _ kind => exact this kind
          refine Action.All.withDeps ?_ (hc.all ?_ hev)
          · intro hx h e heq
            cases x <;> simp only [Action.withDeps, Action.deny.injEq, reduceCtorEq] at heq
            rename_i hd _
            obtain ⟨rfl, rfl⟩ := heq
            exact hx hd _ rfl
          · intro id a x hc hq h e heq
            subst heq
            cases hc with
            | deny => exact hq _ _ rfl
        · simp
        · intro a k hr hm id pred e terminal hk
          subst hk
          cases hm with
          | deny head e => exact hr _ _ rfl
        · simp [denyTerminal]
      · obtain ⟨b, _, hbuilt⟩ := build_built o factory _ p hb
        intro e he
        simp only [Pipe.push, Ctx.push, hbuilt.quiet.log, List.nil_append, List.mem_singleton] at he
        subst he; rfl
  · obtain ⟨a, es, hl, hes, ha⟩ := run_idle_log (o := o) factory host events
      (fun p hp => hb ⟨p, hp⟩)
    have h1 : NoReply es := by
      intro e he
      have := hes e he
      cases e <;> simp_all [Effect.isIdle, isAcceptedReply]
    rw [hl]
    refine OneReply.append ?_ h1
    rcases ha with rfl | ⟨accepted, rfl⟩ | rfl
    · simp [OneReply, isAcceptedReply]
    · cases accepted <;> simp [OneReply, isAcceptedReply]
    · simp [OneReply]

/-- C05 is about something: with two calls whose reply actions deny, one reply is sent. -/
example : (Demo.request [Demo.grpc "deny" [Demo.deny], Demo.grpc "deny" [Demo.deny], .typed (Demo.deny "false")]
    [.grpcResponse 2 0 0 0, .grpcResponse 2 1 0 0]).countP isAcceptedReply = 1 ∧
    (Factory.tryFrom Demo.parse (Demo.config [Demo.grpc "deny" [Demo.deny], Demo.grpc "deny" [Demo.deny],
      .typed (Demo.deny "false")])).isSome = true := by
  decide +kernel

/-- The condition on the configuration is needed: a deny action that is not terminal lets the pipeline go
on, so that two replies are sent. -/
theorem C05_terminal_needed :
    ∃ cfg factory events, Factory.tryFrom Demo.parse cfg = some factory ∧
      (Filter.run Demo.world factory 0 events).log.countP isAcceptedReply = 2 := by
  exact ⟨Demo.config [.typed (Demo.deny (terminal := false)), .typed Demo.deny], _, [],
    Demo.factory_eq _ (by decide +kernel), by decide +kernel⟩

end Verif.Props
