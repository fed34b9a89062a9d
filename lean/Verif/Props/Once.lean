import Verif.Lemmas.Restart
import Verif.Props.Order
import Verif.Lemmas.Identity
/-!
C53: every action takes effect at most once.
-/
set_option linter.unusedSimpArgs false
namespace Verif.Props
open Verif Verif.Spec

variable {H : Type} {o : Oracle H}

/-- C53: an action that did something, failed or completed is not started again in the request. (An action is
started again only if it had to wait for data.) -/
theorem C53_not_again (parse : Text → Option Expr) (cfg : PluginConfig) (factory : Factory) (host : H)
    (s : ActionSet) (hs : ServedBy o parse cfg factory host s) (x : Text) (t : TypedAction)
    (hat : At cfg.services s x t) (events : List (Event H)) (pre post : List Effect) (e : Effect)
    (hlog : (Filter.run o factory host events).log = pre ++ .applied x :: e :: post) (he : byAction e = true) :
    .applied x ∉ post := by
  by_cases hb : ∃ p, factory.build o { host := host } = .pipeline p
  · obtain ⟨p, hb⟩ := hb
    obtain ⟨b, hbuilt, hfs⟩ := servedBy_fromSet hs hb
    have hlog0 : (p.push .hits).ctx.log = [.hits] := by simp [Pipe.push, Ctx.push, hbuilt.quiet.log]
    have hns : ∀ pre e post, [Effect.hits] ≠ pre ++ .applied x :: e :: post := by
      intro pre e post h
      have := congrArg List.length h
      simp at this
      omega
    have hg := (settled_extra (o := o) x hat.plainly.teardown).run factory host p hb ?_ events
    · refine hg.log (Q := Settled x) ?_ pre e post hlog he
      rintro q (⟨_, _, _, h⟩ | ⟨_, h⟩) <;> exact h
    · refine ⟨?_, ?_, ?_⟩
      · unfold Pipe.load
        rw [hlog0]
        have := fromSet_load hbuilt hfs hat.plainly
        show 0 + poolCount x (p.tasks []) ≤ 1
        omega
      · rw [hlog0]
        rintro ⟨pre, e, post, h, _⟩
        exact absurd h (hns _ _ _)
      · rw [hlog0]
        intro pre e post h
        exact absurd h (hns _ _ _)
  · have hp := unrelated_run_idle (o := o) factory host events (fun p hp => hb ⟨p, hp⟩)
    have := hp (.applied x) (by rw [hlog]; simp)
    simp [Effect.unrelated] at this

/-- C53: an action is recorded as completed or failed at most once. -/
theorem C53_one_result (parse : Text → Option Expr) (cfg : PluginConfig) (factory : Factory) (host : H)
    (s : ActionSet) (hs : ServedBy o parse cfg factory host s) (x : Text) (t : TypedAction)
    (hat : At cfg.services s x t) (events : List (Event H)) :
    settled x (Filter.run o factory host events).log ≤ 1 := by
  have hset : ∀ log, settled x log = log.countP (settles x) := fun log => rfl
  by_cases hb : ∃ p, factory.build o { host := host } = .pipeline p
  · obtain ⟨p, hb⟩ := hb
    obtain ⟨b, hbuilt, hfs⟩ := servedBy_fromSet hs hb
    have hlog0 : (p.push .hits).ctx.log = [.hits] := by simp [Pipe.push, Ctx.push, hbuilt.quiet.log]
    have hg := (load_extra (o := o) x hat.plainly.teardown 1).run factory host p hb ?_ events
    · refine hg.log (Q := fun log => settled x log ≤ 1) ?_
      intro q hq
      rw [hset]
      rcases hq with ⟨_, h⟩ | ⟨_, h⟩ <;> exact Nat.le_trans (Nat.le_add_right _ _) h
    · unfold Pipe.load
      rw [hlog0]
      have := fromSet_load hbuilt hfs hat.plainly
      show 0 + poolCount x (p.tasks []) ≤ 1
      omega
  · have hp := unrelated_run_idle (o := o) factory host events (fun p hp => hb ⟨p, hp⟩)
    rw [hset, List.countP_eq_zero.2]
    · omega
    · intro e he
      have := hp e he
      cases e <;> simp_all [Effect.unrelated, settles]

/-- C53: an action calls its service at most once. -/
theorem C53_one_call (parse : Text → Option Expr) (cfg : PluginConfig) (factory : Factory) (host : H)
    (s : ActionSet) (hs : ServedBy o parse cfg factory host s) (x : Text) (t : TypedAction)
    (hat : At cfg.services s x t) (events : List (Event H)) :
    callsOf x (Filter.run o factory host events).log ≤ 1 := by
  have hhead : Headed (Filter.run o factory host events).log := by
    by_cases hb : ∃ p, factory.build o { host := host } = .pipeline p
    · obtain ⟨p, hb⟩ := hb
      obtain ⟨b, hbuilt, hfs⟩ := servedBy_fromSet hs hb
      have hlog0 : (p.push .hits).ctx.log = [.hits] := by simp [Pipe.push, Ctx.push, hbuilt.quiet.log]
      refine (headed_inv (o := o) (P := fun _ => True) ⟨by simp, by simp, by simp⟩).run hb ?_ ?_ events
        (Q := Headed) (fun _ h => h)
      · intro t _
        exact core_all_true t.strip
      · rw [hlog0]
        intro pre x g token svc bytes rid post h
        have := congrArg (Effect.dispatch x g token svc bytes rid ∈ ·) h
        simp at this
    · have hp := unrelated_run_idle (o := o) factory host events (fun p hp => hb ⟨p, hp⟩)
      intro pre x g token svc bytes rid post h
      have := hp (.dispatch x g token svc bytes rid) (by rw [h]; simp)
      simp [Effect.unrelated] at this
  refine countP_le_one ?_
  intro a e b hl he
  cases e <;> simp at he
  next x' g token svc bytes rid =>
  subst he
  obtain ⟨a', ha'⟩ := hhead _ _ _ _ _ _ _ _ hl
  rw [ha'] at hl
  have hno := C53_not_again parse cfg factory host s hs x' t hat events a' b _ (by simpa using hl) rfl
  intro y hy
  cases y <;> simp
  next x2 g2 token2 svc2 bytes2 rid2 =>
  rintro rfl
  obtain ⟨b1, b2, rfl⟩ := List.append_of_mem hy
  obtain ⟨p2, hp2⟩ := hhead (a' ++ [.applied x2] ++ .dispatch x2 g token svc bytes rid :: b1) x2 g2 token2 svc2
    bytes2 rid2 b2 (by rw [hl]; simp)
  rcases List.eq_nil_or_concat b1 with rfl | ⟨b1', z, rfl⟩
  · have := List.append_inj' hp2 rfl
    simp at this
  · have h3 : (a' ++ [.applied x2] ++ .dispatch x2 g token svc bytes rid :: b1') ++ [z] = p2 ++ [.applied x2] := by
      rw [← hp2]; simp
    have := (List.append_inj' h3 rfl).2
    simp only [List.cons.injEq, and_true] at this
    subst this
    exact hno (by simp)

/-- A call with two reply actions. -/
def answeredTwice : List ActionConfig := [Demo.grpc "deny" [Demo.headers, Demo.deny "false"]]

/-- A repeated response has no further effect. -/
example : Demo.view (Demo.request answeredTwice [.requestBody 0 3 false, .grpcResponse 1 0 0 0,
      .grpcResponse 1 0 0 0, .requestBody 0 5 true]) =
    ["hits", "start 0", "call 0 guard token 0", "pause", "pause", "response 0 status 0", "completed 0",
      "start 0.0", "headers x=1", "completed 0.0", "start 0.1", "completed 0.1", "resume request",
      "response 0 status 0", "continue"] := by
  decide +kernel

/-- The hypotheses hold of the call and of its reply actions. -/
example : callsOf "0".toList (Demo.request answeredTwice [.grpcResponse 1 0 0 0, .grpcResponse 1 0 0 0]) ≤ 1 ∧
    settled "0.0".toList (Demo.request answeredTwice [.grpcResponse 1 0 0 0, .grpcResponse 1 0 0 0]) ≤ 1 :=
  have hs := demo_served answeredTwice (by decide +kernel) ⟨_, rfl⟩
  ⟨C53_one_call _ _ _ _ _ hs "0".toList _ (.top (i := 0) rfl rfl) _,
    C53_one_result _ _ _ _ _ hs "0.0".toList _ (.reply (j := 0) (.top (i := 0) rfl rfl) rfl) _⟩

/-- An action that waits for data starts again, but not after it failed. -/
example : Demo.view (Demo.request [Demo.grpc "deny" (predicate := "body")]
      [.requestBody 0 0 false, .requestBody 0 0 true, .responseHeaders 0]) =
    ["hits", "start 0", "continue", "start 0", "continue", "start 0", "call failed 0",
      "failed 0", "continue", "allowed", "continue"] := by
  with_unfolding_all rfl

end Verif.Props
