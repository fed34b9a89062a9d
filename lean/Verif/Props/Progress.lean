import Verif.Lemmas.Progress
import Verif.Lemmas.Callback
import Verif.Props.ReplyActions
/-!
C14: a pipeline without failures completes.
-/
set_option linter.unusedSimpArgs false
namespace Verif.Props
open Verif Verif.Spec

variable {H : Type} {o : Oracle H}

theorem run_not_crashed (factory : Factory) (host : H) (p : Pipe H)
    (hb : factory.build o { host := host } = .pipeline p) (events : List (Event H)) :
    (Filter.run o factory host events).crashed = false := by
  cases hc : (Filter.run o factory host events).crashed with
  | false => rfl
  | true =>
    have := run_crashed factory host events hc
    exfalso
    rw [this] at hc
    unfold Filter.start at hc
    dsimp only at hc
    rw [hb] at hc
    dsimp only at hc
    revert hc
    unfold Filter.push Filter.store
    split <;> simp

/-- C14: why a pipeline can still be in progress after a callback although no call is in flight: an action
failed, or an action started in this callback had to wait for data. -/
theorem C14_unfinished (parse : Text → Option Expr) (cfg : PluginConfig) (factory : Factory) (host : H)
    (s : ActionSet) (hs : ServedBy o parse cfg factory host s) (events : List (Event H)) (e : Event H)
    (hfresh : Fresh (Filter.run o factory host (events ++ [e])).log)
    (hidle : inFlight (Filter.run o factory host (events ++ [e])).log = [])
    (hrun : (Filter.run o factory host (events ++ [e])).pipeline.isSome = true) :
    (∃ x, .failed x ∈ (Filter.run o factory host (events ++ [e])).log) ∨
    ∃ new x, (Filter.run o factory host (events ++ [e])).log = (Filter.run o factory host events).log ++ new ∧
      WaitedIn new x := by
  by_cases hb : ∃ p, factory.build o { host := host } = .pipeline p
  · obtain ⟨p, hb⟩ := hb
    obtain ⟨b, hbuilt, hfs⟩ := servedBy_fromSet hs hb
    have hg := placeable_extra.run factory host p hb (fromSet_placeable hbuilt hfs) events
    have := stays_step (o := o) hg e (run_not_crashed factory host p hb events)
    rw [← run_snoc] at this
    rcases this.why hfresh hidle hrun with h | ⟨x, new, h1, h2⟩
    · exact .inl h
    · exact .inr ⟨new, x, h1, h2⟩
  · have := (run_idle (o := o) factory host (events ++ [e]) fun p hp => hb ⟨p, hp⟩).1
    rw [this] at hrun
    simp at hrun

/-- C14: the same for the first callback. -/
theorem C14_unfinished_start (parse : Text → Option Expr) (cfg : PluginConfig) (factory : Factory) (host : H)
    (s : ActionSet) (hs : ServedBy o parse cfg factory host s)
    (hfresh : Fresh (Filter.start o factory host).log) (hidle : inFlight (Filter.start o factory host).log = [])
    (hrun : (Filter.start o factory host).pipeline.isSome = true) :
    (∃ x, .failed x ∈ (Filter.start o factory host).log) ∨ ∃ x, WaitedIn (Filter.start o factory host).log x := by
  by_cases hb : ∃ p, factory.build o { host := host } = .pipeline p
  · obtain ⟨p, hb⟩ := hb
    obtain ⟨b, hbuilt, hfs⟩ := servedBy_fromSet hs hb
    have hlive : Live (p.push .hits) [] := by
      rcases sound_hits hbuilt with h | h
      · exact h
      · have := h.term
        simp [Pipe.push, hbuilt.term] at this
    have h1 := idles_evalPipe (o := o) (.inl ⟨hlive, fromSet_placeable hbuilt hfs⟩)
    have h2 : Stays [] (Filter.start o factory host) := by
      rw [start_pipeline factory host p hb]
      refine stays_push ?_ rfl
      refine stays_before (base := []) (mid := (p.push .hits).ctx.log) ?_
      exact stays_store h1 _
    rcases h2.why hfresh hidle hrun with h | ⟨x, new, h1, h2⟩
    · exact .inl h
    · rw [h1]; exact .inr ⟨x, h2⟩
  · have := (run_idle (o := o) factory host [] fun p hp => hb ⟨p, hp⟩).1
    change (Filter.start o factory host).pipeline = none at this
    rw [this] at hrun
    simp at hrun

/-- C14: when the pipeline of a request is finished and was not ended early, every action has a result. -/
theorem C14_results (parse : Text → Option Expr) (cfg : PluginConfig) (factory : Factory) (host : H)
    (s : ActionSet) (hs : ServedBy o parse cfg factory host s) (events : List (Event H))
    (hhit : .hits ∈ (Filter.run o factory host events).log)
    (hfresh : Fresh (Filter.run o factory host events).log)
    (hend : ¬ Ended (Filter.run o factory host events).log)
    (hdone : (Filter.run o factory host events).pipeline = none) (i : Nat) (hi : i < s.actions.length) :
    .completed (natText i) ∈ (Filter.run o factory host events).log ∨
    .failed (natText i) ∈ (Filter.run o factory host events).log := by
  by_cases hb : ∃ p, factory.build o { host := host } = .pipeline p
  · obtain ⟨p, hb⟩ := hb
    obtain ⟨b, hbuilt, hfs⟩ := servedBy_fromSet hs hb
    have hg := (accounted_extra (o := o) (natText i)).run factory host p hb
      ⟨fun _ => .inr (.inr (.inl (by rw [List.append_nil]; exact fromSet_queued hbuilt hfs hi)))⟩ events
    cases hg with
    | running q hp _ => rw [hdone] at hp; simp at hp
    | finished g hp hq hd hl h =>
      rcases h with ⟨_, h⟩ | ⟨h, _⟩
      · rw [← hl] at hfresh ⊢
        rcases h.has hfresh with h | h | ⟨t, ht, _⟩ | ⟨t, ht, _⟩
        · exact .inl h
        · exact .inr h
        · rw [hq] at ht; simp at ht
        · rw [hd] at ht; simp at ht
      · exact absurd (by rw [← hl]; exact h.ended) hend
  · exfalso
    obtain ⟨a, es, hlog, hes, ha⟩ := run_idle_log (o := o) factory host events fun p hp => hb ⟨p, hp⟩
    rw [hlog, List.mem_append] at hhit
    rcases hhit with h | h
    · rcases ha with rfl | ⟨_, rfl⟩ | rfl <;> simp at h
    · have := hes _ h
      simp [Effect.isIdle] at this

/-- C14: if no action failed, no call is in flight and no action started in the last callback had to wait for
data, then the pipeline is finished, and unless the request was ended early every action is completed. -/
theorem C14_completes (parse : Text → Option Expr) (cfg : PluginConfig) (factory : Factory) (host : H)
    (s : ActionSet) (hs : ServedBy o parse cfg factory host s) (events : List (Event H)) (e : Event H)
    (hhit : .hits ∈ (Filter.run o factory host (events ++ [e])).log)
    (hfresh : Fresh (Filter.run o factory host (events ++ [e])).log)
    (hok : ∀ x, .failed x ∉ (Filter.run o factory host (events ++ [e])).log)
    (hidle : inFlight (Filter.run o factory host (events ++ [e])).log = [])
    (hwait : ∀ new x, (Filter.run o factory host (events ++ [e])).log =
      (Filter.run o factory host events).log ++ new → ¬ WaitedIn new x) :
    (Filter.run o factory host (events ++ [e])).pipeline = none ∧
    (¬ Ended (Filter.run o factory host (events ++ [e])).log → ∀ i < s.actions.length,
      .completed (natText i) ∈ (Filter.run o factory host (events ++ [e])).log) := by
  have hn : (Filter.run o factory host (events ++ [e])).pipeline = none := by
    cases hp : (Filter.run o factory host (events ++ [e])).pipeline with
    | none => rfl
    | some q =>
      rcases C14_unfinished parse cfg factory host s hs events e hfresh hidle (by rw [hp]; rfl) with
        ⟨x, h⟩ | ⟨new, x, h1, h2⟩
      · exact absurd h (hok x)
      · exact absurd h2 (hwait new x h1)
  refine ⟨hn, fun hend i hi => ?_⟩
  rcases C14_results parse cfg factory host s hs _ hhit hfresh hend hn i hi with h | h
  · exact h
  · exact absurd h (hok _)

/-- C14: the same when the pipeline finishes in the first callback. -/
theorem C14_completes_start (parse : Text → Option Expr) (cfg : PluginConfig) (factory : Factory) (host : H)
    (s : ActionSet) (hs : ServedBy o parse cfg factory host s)
    (hhit : .hits ∈ (Filter.start o factory host).log) (hfresh : Fresh (Filter.start o factory host).log)
    (hok : ∀ x, .failed x ∉ (Filter.start o factory host).log)
    (hidle : inFlight (Filter.start o factory host).log = [])
    (hwait : ∀ x, ¬ WaitedIn (Filter.start o factory host).log x) :
    (Filter.start o factory host).pipeline = none ∧
    (¬ Ended (Filter.start o factory host).log → ∀ i < s.actions.length,
      .completed (natText i) ∈ (Filter.start o factory host).log) := by
  have hn : (Filter.start o factory host).pipeline = none := by
    cases hp : (Filter.start o factory host).pipeline with
    | none => rfl
    | some q =>
      rcases C14_unfinished_start parse cfg factory host s hs hfresh hidle (by rw [hp]; rfl) with
        ⟨x, h⟩ | ⟨x, h⟩
      · exact absurd h (hok x)
      · exact absurd h (hwait x)
  refine ⟨hn, fun hend i hi => ?_⟩
  rcases C14_results (o := o) parse cfg factory host s hs [] hhit hfresh hend hn i hi with h | h
  · exact h
  · exact absurd h (hok _)

/-- A check that no action had to wait. -/
def noWait : List Effect → Bool
  | .applied _ :: e :: rest => byAction e && noWait (e :: rest)
  | [.applied _] => false
  | _ :: rest => noWait rest
  | [] => true

theorem noWait_sound (l : List Effect) (h : noWait l = true) (x : Text) : ¬ WaitedIn l x := by
  rintro ⟨pre, post, rfl, hp⟩
  induction pre with
  | nil =>
    cases post with
    | nil => simp [noWait] at h
    | cons e rest =>
      simp only [List.nil_append, noWait, Bool.and_eq_true] at h
      rw [hp e rest rfl] at h
      simp at h
  | cons a pre ih =>
    apply ih
    cases pre with
    | nil =>
      rw [List.cons_append] at h
      cases a <;> simp_all [noWait]
    | cons b pre =>
      rw [List.cons_append, List.cons_append] at h
      cases a <;> simp_all [noWait]

/-- Three actions; the last waits for the call before it. -/
abbrev threeActions : List ActionConfig :=
  [.typed Demo.headers, Demo.grpc "allow", Demo.grpc "auth" (sequential := true)]

/-- The hypotheses of `C14_completes` hold. -/
example : (Filter.run Demo.world (Demo.factory (Demo.config threeActions)) 0
      ([.grpcResponse 1 0 0 0] ++ [.grpcResponse 2 1 0 0])).pipeline = none ∧
    ∀ i < 3, .completed (natText i) ∈ Demo.request threeActions [.grpcResponse 1 0 0 0, .grpcResponse 2 1 0 0] := by
  have := C14_completes (o := Demo.world) Demo.parse (Demo.config threeActions)
    (Demo.factory (Demo.config threeActions)) 0 _ (demo_served threeActions (by decide +kernel) ⟨_, rfl⟩)
    [.grpcResponse 1 0 0 0] (.grpcResponse 2 1 0 0) ?_ ?_ ?_ ?_ ?_
  · exact ⟨this.1, this.2 (not_ended _ (by decide +kernel))⟩
  · have h : (Demo.request threeActions ([.grpcResponse 1 0 0 0] ++ [.grpcResponse 2 1 0 0])).head? = some .hits := by
      with_unfolding_all rfl
    exact List.mem_of_mem_head? h
  · exact fresh_of_check (by decide +kernel)
  · have h : (Demo.request threeActions ([.grpcResponse 1 0 0 0] ++ [.grpcResponse 2 1 0 0])).all
        (fun | .failed _ => false | _ => true) = true := by decide +kernel
    intro x hx
    exact absurd (List.all_eq_true.1 h _ hx) (by simp)
  · decide +kernel
  · intro new x hnew
    refine noWait_sound new ?_ x
    have h2 : new = (Demo.request threeActions ([.grpcResponse 1 0 0 0] ++ [.grpcResponse 2 1 0 0])).drop
        (Demo.request threeActions [.grpcResponse 1 0 0 0]).length := by
      unfold Demo.request
      rw [hnew]; simp
    rw [h2]
    decide +kernel

/-- With a failure the pipeline may never complete: an action fails, the action that depends on it never
starts, so that the authorization service is never called; the request is passed on all the same, and at the
end of the response body the response is held back although no call is in flight whose answer could release
it. -/
theorem C14_failure_blocks :
    Demo.view (Demo.request [.typed (Demo.headers "error"), Demo.grpc "auth" (sequential := true)]
      [.requestBody 0 0 true, .responseHeaders 0, .responseBody 0 3 false, .responseBody 0 3 true]) =
      ["hits", "start 0", "failed 0", "continue", "continue", "allowed", "continue", "continue", "pause"] ∧
    inFlight (Demo.request [.typed (Demo.headers "error"), Demo.grpc "auth" (sequential := true)]
      [.requestBody 0 0 true, .responseHeaders 0, .responseBody 0 3 false, .responseBody 0 3 true]) = [] ∧
    (Filter.run Demo.world (Demo.factory (Demo.config
      [.typed (Demo.headers "error"), Demo.grpc "auth" (sequential := true)])) 0
      [.requestBody 0 0 true, .responseHeaders 0, .responseBody 0 3 false, .responseBody 0 3 true]).pipeline.isSome
      = true := by
  decide +kernel

end Verif.Props
