import Verif.Lemmas.Counters
import Verif.Props.Failure
import Verif.Props.Pipeline
/-! Teardown, responses and the end of requests: C11 to C16. -/
set_option linter.unusedSimpArgs false
namespace Verif.Props
open Verif Spec

variable {H : Type} (o : Oracle H)

theorem torn_run (factory : Factory) (host : H) (p : Pipe H)
    (hb : factory.build o { host := host } = .pipeline p) (events : List (Event H)) :
    Ghost (fun q : Pipe H => Holds (fun q todo => HeldX q todo ∧ Torn p.teardown.length q todo)
      (TornEnd p.teardown.length) q ∧ (q.queue = [] → q.deferred = [] → q.teardown = []))
      (Filter.run o factory host events) := by
  obtain ⟨b, _, hbuilt⟩ := build_built o factory _ p hb
  have hlog0 : (p.push .hits).ctx.log = [.hits] := by simp [Pipe.push, Ctx.push, hbuilt.quiet.log]
  refine run_ghost ((torn_extra (o := o) p.teardown.length).stable.and teardown_stable) factory host p hb
    ⟨.inl ⟨?_, ⟨⟨?_, ?_⟩, fun t _ => Core.all_of (fun _ => trivial) _⟩, ?_, ?_, ?_⟩, ?_⟩ events
  · rcases sound_hits hbuilt with h | h
    · exact h
    · have h1 := h.term
      have h2 := hbuilt.term
      simp [Pipe.push] at h1
      rw [h2] at h1
      simp at h1
  · intro tok x hx
    rw [hlog0] at hx
    exact absurd hx (inFlightFor_hits tok x)
  · rw [hlog0]; exact reacts_hits _ _
  · rw [hlog0]; simp [torn, Pipe.push]
  · rw [hlog0]
    exact tearsLast_inert (a := []) (everywhere_nil _) (by simp [Effect.inert, isPolicy])
  · rw [hlog0]; simp
  · intro hq
    have := build_nonempty (o := o) factory _ p hb
    exact absurd hq this

theorem torn_idle (factory : Factory) (host : H) (events : List (Event H))
    (h : ∀ p, factory.build o { host := host } ≠ .pipeline p) :
    Effect.teardown ∉ (Filter.run o factory host events).log := by
  obtain ⟨a, es, hl, hes, ha⟩ := run_idle_log (o := o) factory host events h
  rw [hl]
  intro hm
  rcases List.mem_append.1 hm with hm | hm
  · rcases ha with rfl | ⟨_, rfl⟩ | rfl <;> simp at hm
  · simpa [Effect.isIdle] using hes _ hm

/-- C11: traces are exported at most once. -/
theorem C11_at_most_once (parse : Text → Option Expr) (cfg : PluginConfig) (factory : Factory)
    (hf : Factory.tryFrom parse cfg = some factory) (host : H) (events : List (Event H)) :
    torn (Filter.run o factory host events).log ≤ if exportsTraces cfg then 1 else 0 := by
  by_cases hb : ∃ p, factory.build o { host := host } = .pipeline p
  · obtain ⟨p, hb⟩ := hb
    rw [← built_teardown hf host p hb]
    refine (torn_run o factory host p hb events).log (Q := fun l => torn l ≤ p.teardown.length) ?_
    rintro q ⟨⟨_, h⟩ | ⟨_, h⟩, _⟩
    · have := h.2.count; omega
    · have := h.count; omega
  · rw [torn_zero (torn_idle o factory host events fun p hp => hb ⟨p, hp⟩)]
    exact Nat.zero_le _

/-- C11: traces are exported when all other work is finished or the request was ended early: no call of an
action is in flight, and no action starts or acts afterwards. -/
theorem C11_after_all_work (factory : Factory) (host : H) (events : List (Event H)) (pre post : List Effect)
    (hlog : (Filter.run o factory host events).log = pre ++ .teardown :: post) :
    (Ended pre ∨ ∀ token id, ¬InFlightFor pre token id) ∧
      ∀ e ∈ post, isPolicy e = false ∧ ∀ id, e ≠ .applied id := by
  by_cases hb : ∃ p, factory.build o { host := host } = .pipeline p
  · obtain ⟨p, hb⟩ := hb
    have : Everywhere TearsLast (Filter.run o factory host events).log := by
      refine (torn_run o factory host p hb events).log (Q := Everywhere TearsLast) ?_
      rintro q ⟨⟨_, h⟩ | ⟨_, h⟩, _⟩
      · exact h.2.evs
      · exact h.evs
    refine ⟨(this pre _ post hlog).1 rfl, ?_⟩
    intro e he
    obtain ⟨u, v, rfl⟩ := List.append_of_mem he
    have h := (this (pre ++ .teardown :: u) e v (by rw [hlog]; simp)).2
    refine ⟨?_, ?_⟩
    · cases hp : isPolicy e with
      | false => rfl
      | true => exact absurd (h (.inl hp)) (by simp)
    · rintro id rfl
      exact absurd (h (.inr ⟨id, rfl⟩)) (by simp)
  · exact absurd (by rw [hlog]; simp) (torn_idle o factory host events fun p hp => hb ⟨p, hp⟩)

/-- C11: when the pipeline of a request that matched an action set has completed or the request was ended
early, the traces have been exported, if the configuration asks for it. -/
theorem C11_exported (parse : Text → Option Expr) (cfg : PluginConfig) (factory : Factory)
    (hf : Factory.tryFrom parse cfg = some factory) (host : H) (events : List (Event H))
    (hx : exportsTraces cfg = true) (hhit : .hits ∈ (Filter.run o factory host events).log)
    (hdone : (Filter.run o factory host events).pipeline = none ∨ Ended (Filter.run o factory host events).log) :
    torn (Filter.run o factory host events).log = 1 := by
  by_cases hb : ∃ p, factory.build o { host := host } = .pipeline p
  · obtain ⟨p, hb⟩ := hb
    have hn := built_teardown hf host p hb
    rw [hx, if_pos rfl] at hn
    have hg := torn_run o factory host p hb events
    rw [hn] at hg
    generalize Filter.run o factory host events = f at hg hdone ⊢
    have key : ∀ q : Pipe H, q.ctx.log = f.log → q.teardown = [] →
        Holds (fun q todo => HeldX q todo ∧ Torn 1 q todo) (TornEnd 1) q → torn f.log = 1 := by
      rintro q hl ht (⟨_, h⟩ | ⟨_, h⟩)
      · have := h.2.count; rw [ht, hl] at this; simpa using this
      · have := h.count; rw [ht, hl] at this; simpa using this
    cases hg with
    | running q hp h =>
      rcases hdone with hdone | hdone
      · rw [hp] at hdone; simp at hdone
      · refine key (f.at q) rfl ?_ h.1
        rcases h.1 with ⟨hl, _⟩ | ⟨hd, _⟩
        · exact absurd hdone hl.ended
        · exact hd.teardown
    | finished g hp hq hd hl h => exact key g hl (h.2 hq hd) h.1
  · have hp := unrelated_run_idle (o := o) factory host events (fun p hp => hb ⟨p, hp⟩)
    obtain ⟨a, es, hl, hes, ha⟩ := run_idle_log (o := o) factory host events (fun p hp => hb ⟨p, hp⟩)
    rw [hl] at hhit
    rcases List.mem_append.1 hhit with hm | hm
    · rcases ha with rfl | ⟨_, rfl⟩ | rfl <;> simp at hm
    · exact absurd (hes _ hm) (by simp [Effect.isIdle])

/-- Traces are exported after the last response, before the stream goes on. -/
example : Demo.view (Demo.request [Demo.grpc "deny"] [.grpcResponse 1 0 0 0] (some "x-id") true) =
    ["hits", "start 0", "call 0 guard token 0", "start kuadrant.devMode", "headers x-id=id",
      "completed kuadrant.devMode", "pause", "response 0 status 0", "completed 0", "teardown",
      "export token 1", "resume request"] ∧
    exportsTraces (Demo.config [Demo.grpc "deny"] (some "x-id") true) = true := by
  decide +kernel

/-- After an early end they are exported although a call is in flight. -/
example : Demo.view (Demo.request [Demo.grpc "allow", Demo.grpc "deny"] [.grpcResponse 2 1 13 0]
      (some "x-id") true) =
    ["hits", "start 0", "call 0 guard token 0", "start 1", "call 1 guard token 1", "start kuadrant.devMode",
      "headers x-id=id", "completed kuadrant.devMode", "pause", "response 1 status 13", "call failed 1",
      "errors", "denied", "reply 500", "ended", "teardown", "export token 2"] := by
  decide +kernel

/-- C12: a response whose token is not in flight causes the same effects as a plain re-evaluation, after
which the stream may go on. -/
theorem C12_unknown_token (factory : Factory) (host : H) (events : List (Event H)) (host' : H)
    (token status size : Nat) (hc : (Filter.run o factory host events).crashed = false)
    (hunknown : token ∉ (inFlight (Filter.run o factory host events).log).map Prod.fst) :
    ∃ resumed,
      ((Filter.run o factory host events).step o (.grpcResponse host' token status size)).log
        = (((Filter.run o factory host events).push (.responded token status size)).evalWith o host' id).log
          ++ resumed ∧
      (resumed = [] ∨ resumed = [resumeEffect (Filter.run o factory host events).log]) ∧
      ((Filter.run o factory host events).step o (.grpcResponse host' token status size)).pipeline
        = (((Filter.run o factory host events).push (.responded token status size)).evalWith o host' id).pipeline := by
  have hk : Ghost Keyed (Filter.run o factory host events) := by
    by_cases hb : ∃ p, factory.build o { host := host } = .pipeline p
    · obtain ⟨p, hb⟩ := hb
      obtain ⟨b, _, hbuilt⟩ := build_built o factory _ p hb
      refine ((keyed_extra (o := o)).run factory host p hb ?_ events).imp ?_
      · intro tok
        simp [Pipe.push, Ctx.push, hbuilt.quiet.log, hbuilt.deferred, flying, inFlight, track]
      · rintro q (⟨_, h⟩ | ⟨_, h⟩) <;> exact h
    · have hp := (run_idle (o := o) factory host events (fun p hp => hb ⟨p, hp⟩)).1
      obtain ⟨a, es, hl, hes, ha⟩ := run_idle_log (o := o) factory host events (fun p hp => hb ⟨p, hp⟩)
      refine .finished ({ ctx := { host := host, log := (Filter.run o factory host events).log } } : Pipe H)
        hp rfl rfl rfl ?_
      intro tok
      refine ⟨by simp, ?_⟩
      intro htok
      exfalso
      have hsent : ∀ l : List Effect, (∀ e ∈ l, sentToken e = none) → tok ∉ flying l := by
        intro l
        induction l using snoc_ind with
        | nil => intro _; simp [flying, inFlight]
        | snoc l e ih =>
          intro h hm
          rcases mem_flying_snoc.1 hm with h1 | ⟨h1, _⟩
          · rw [h e (by simp)] at h1; simp at h1
          · exact ih (fun e he => h e (by simp [he])) h1
      refine hsent _ ?_ htok
      intro e he
      replace he : e ∈ (Filter.run o factory host events).log := he
      rw [hl] at he
      rcases List.mem_append.1 he with he | he
      · rcases ha with rfl | ⟨_, rfl⟩ | rfl <;> simp at he
        · rcases he with rfl | rfl <;> rfl
        · rcases he with rfl | rfl <;> rfl
      · have := hes e he
        cases e <;> simp_all [Effect.isIdle, sentToken]
  have hph := run_phase (o := o) factory host events
  generalize Filter.run o factory host events = f at hc hunknown hk hph ⊢
  have hstep : f.step o (.grpcResponse host' token status size) = f.onGrpcResponse o host' token status size := by
    unfold Filter.step; rw [hc]; rfl
  rw [hstep]
  cases hk with
  | finished g hp hq hd hl h =>
    rw [evalWith_none _ _ _ (by exact hp)]
    simp only [Filter.onGrpcResponse, hp]
    exact ⟨[], by simp, by simp, by simp⟩
  | running q hp h =>
    rw [evalWith_some _ _ _ q (by exact hp), onGrpcResponse_some f host' token status size q hp]
    have hg : mapGet (entered f host' id q).deferred token = none := by
      refine Option.eq_none_iff_forall_ne_some.2 ?_
      intro t ht
      exact hunknown ((h token).1 (List.mem_map.2 ⟨_, mapGet_mem ht, rfl⟩))
    rw [digestPipe_unknown o _ token status size hg]
    have he : entered (f.push (.responded token status size)) host' id q
        = (entered f host' id q).push (.responded token status size) := rfl
    rw [he]
    generalize Pipe.evalPipe o _ = p'
    cases hr : resumes f p' with
    | false => exact ⟨[], by simp [store_log], .inl rfl, by simp [store_pipeline]⟩
    | true =>
      refine ⟨[resumeEffect f.log], ?_, .inr rfl, ?_⟩
      · simp [Filter.resume, Filter.push, store_log, store_inResponse, resumeEffect, hph]
      · simp [Filter.resume, Filter.push, store_pipeline]

/-- C12: after a response, its token is not in flight until the host uses it for a new call. -/
theorem C12_second_delivery (pre post : List Effect) (token status size : Nat)
    (hnew : ∀ e ∈ post, sentToken e ≠ some token) :
    token ∉ (inFlight (pre ++ .responded token status size :: post)).map Prod.fst := by
  show token ∉ flying _
  rw [List.append_cons]
  induction post using snoc_ind with
  | nil =>
    intro hm
    rw [List.append_nil] at hm
    rcases mem_flying_snoc.1 hm with h | ⟨_, h⟩
    · simp [sentToken] at h
    · exact h status size rfl
  | snoc post e ih =>
    intro hm
    rw [← List.append_assoc] at hm
    rcases mem_flying_snoc.1 hm with h | ⟨h, _⟩
    · exact hnew e (by simp) h
    · exact ih (fun e he => hnew e (by simp [he])) h

/-- The second delivery of a token starts nothing again: the action waiting for data is looked at as in any
callback. -/
example : Demo.view (Demo.request [Demo.grpc "deny" (guard := false), Demo.grpc "deny",
      Demo.grpc "deny" (predicate := "body")] [.grpcResponse 2 0 0 0, .grpcResponse 2 0 0 0]) =
    ["hits", "start 0", "call 0 token 0", "start 1", "call 1 guard token 1", "start 2", "pause",
      "response 0 status 0", "completed 0", "start 2", "response 0 status 0", "start 2"] := by
  decide +kernel

/-- C13: between callbacks the slot for the response's status and size is empty, and the response of a
callback is stored. -/
theorem C13_slot (factory : Factory) (host : H) (events : List (Event H)) (q : Pipe H)
    (hq : (Filter.run o factory host events).pipeline = some q) (status size : Nat) :
    q.ctx.grpc = none ∧ (q.setResponse status size).ctx.grpc = some (status, size) := by
  have hn : q.ctx.grpc = none := by
    cases run_sound (o := o) factory host events with
    | finished g hp => rw [hp] at hq; simp at hq
    | running q' hp h =>
      rw [hp] at hq
      cases hq
      rcases h with h | h
      · exact h.slot
      · exact h.slot
  refine ⟨hn, ?_⟩
  unfold Pipe.setResponse
  rw [hn]

/-- C13: every response processor sees the status and size of its own response. If the status is success and
a message of this size can be decoded, the call is completed. (For errors see `C08_error_status` and
`C08_undecodable`.) -/
theorem C13_own_response (parse : Text → Option Expr) (cfg : PluginConfig) (factory : Factory)
    (host : H) (s : ActionSet) (hs : ServedBy o parse cfg factory host s)
    (i : Nat) (a : ActionConfig) (ha : s.actions[i]? = some a) (pred msg : Expr) (svc : Svc)
    (hcallOf : CallOf parse cfg.services pred msg svc a)
    (events : List (Event H)) (pre post : List Effect) (token size : Nat)
    (hlog : (Filter.run o factory host events).log = pre ++ .responded token 0 size :: post)
    (hcall : InFlightFor pre token (natText i)) (hend : ¬Ended pre)
    (hgood : ∀ c : Ctx H, Hearing o factory host events token 0 size c → c.log = pre ++ [.responded token 0 size] →
      (o.response c svc size).1.isSome = true) :
    ∃ rest, post = .completed (natText i) :: rest := by
  by_cases hb : ∃ p, factory.build o { host := host } = .pipeline p
  · obtain ⟨p, hb⟩ := hb
    obtain ⟨b, hbuilt, hfs⟩ := servedBy_fromSet hs hb
    have hlog0 : (p.push .hits).ctx.log = [.hits] := by simp [Pipe.push, Ctx.push, hbuilt.quiet.log]
    have hg := (held_extra (o := o) (theCall_closed _ _ _ _ _)
      (by rintro x a b ⟨rest, rfl⟩; exact ⟨rest ++ b, rfl⟩)
      (answered_key (natText i) pred msg svc (HasReplies a))).run factory host events p hb ?_
    · exact reacts_log hg pre token 0 size post _ hlog ⟨rfl, rfl, hgood⟩ hcall hend
    · refine ⟨⟨?_, ?_⟩, fromSet_theCall hbuilt hfs i a ha pred msg svc hcallOf⟩
      · intro tok x hx
        rw [hlog0] at hx
        exact absurd hx (inFlightFor_hits tok x)
      · rw [hlog0]; exact reacts_hits _ _
  · have hp := unrelated_run_idle (o := o) factory host events (fun p hp => hb ⟨p, hp⟩)
    obtain ⟨u, g, svc, b, rid, v, hx, _⟩ := hcall
    have := hp (.dispatch (natText i) g token svc b rid) (by rw [hlog, hx]; simp)
    simp [Effect.unrelated] at this

/-- Two responses with different statuses: each action sees its own. -/
example : Demo.view (Demo.request [Demo.grpc "allow", Demo.grpc "deny"]
      [.grpcResponse 2 1 0 7, .grpcResponse 2 0 14 0]) =
    ["hits", "start 0", "call 0 guard token 0", "start 1", "call 1 guard token 1", "pause",
      "response 1 status 0", "completed 1", "response 0 status 14", "call failed 0", "errors", "completed 0",
      "resume request"] := by
  decide +kernel

/-- C15: at the end of the response body the filter answers Continue exactly if the pipeline has completed. -/
theorem C15_end_of_body (factory : Factory) (host : H) (events : List (Event H)) (host' : H) (size : Nat)
    (hc : (Filter.run o factory host events).crashed = false) :
    ∃ pre, (Filter.run o factory host (events ++ [.responseBody host' size true])).log
      = pre ++ [.returned (.responseBody true)
          (Filter.run o factory host (events ++ [.responseBody host' size true])).pipeline.isSome] := by
  rw [run_snoc]
  have hs := run_sound (o := o) factory host events
  generalize Filter.run o factory host events = f at hc hs ⊢
  have := step_shape (o := o) f (.responseBody host' size true) hc hs
  generalize f.step o (.responseBody host' size true) = f' at this
  cases this with
  | responseBody _ _ _ g es pause f' hes hlog hp hl hpause hpipe =>
    refine ⟨f.log ++ es, ?_⟩
    rw [hlog, hpause, hpipe]
    cases hq : g.pipeline with
    | none => simp [Filter.shouldPause, hq]
    | some q => simp

/-- C15: the gRPC response that completes the pipeline resumes the response. -/
theorem C15_completion_resumes (factory : Factory) (host : H) (events : List (Event H)) (host' : H)
    (token status size : Nat) (hc : (Filter.run o factory host events).crashed = false)
    (horder : BodyAfterHeaders events) (hbody : ∃ h n, .responseBody h n true ∈ events)
    (hbefore : (Filter.run o factory host events).pipeline.isSome = true)
    (hafter : (Filter.run o factory host (events ++ [.grpcResponse host' token status size])).pipeline = none) :
    ∃ pre, (Filter.run o factory host (events ++ [.grpcResponse host' token status size])).log
      = pre ++ [.resumeResponse] := by
  have hin : (Filter.run o factory host events).inResponse = true := by
    refine (force_phase (o := o) factory host events hc horder).1 ?_
    obtain ⟨h, n, hm⟩ := hbody
    obtain ⟨u, v, heq⟩ := List.append_of_mem hm
    obtain ⟨x, hx⟩ := horder u h n true v heq
    exact ⟨x, by rw [heq]; simp [hx]⟩
  rw [run_snoc] at hafter ⊢
  have hs := run_sound (o := o) factory host events
  generalize Filter.run o factory host events = f at hc hs hbefore hafter hin ⊢
  have := step_shape (o := o) f (.grpcResponse host' token status size) hc hs
  generalize f.step o (.grpcResponse host' token status size) = f' at this hafter
  cases this with
  | late _ _ _ _ f' hn => rw [hn] at hbefore; simp at hbefore
  | response _ _ _ _ q p' es f' hq hes hl hs' hlog hpipe =>
    rw [hpipe] at hafter
    split at hafter
    · rename_i hcond
      refine ⟨f.log ++ [.responded token status size] ++ es, ?_⟩
      rw [hlog]
      simp [resumes, hcond, hin]
    · simp at hafter

/-- The response is held at its end because of a call that is no guard, and resumed by its response. -/
example : Demo.view (Demo.request [Demo.grpc "deny" (guard := false)]
      [.responseHeaders 1, .responseBody 1 0 true, .grpcResponse 1 0 0 0]) =
    ["hits", "start 0", "call 0 token 0", "continue", "allowed", "continue", "pause", "response 0 status 0",
      "completed 0", "resume response"] := by
  decide +kernel

/-- The hold at the end of the response body is not kept: with two calls in flight the first response resumes
the stream although the pipeline has not completed. -/
theorem C15_resumed_before_completion : ∃ (cfg : PluginConfig) (factory : Factory) (events : List (Event Nat)),
    Factory.tryFrom Demo.parse cfg = some factory ∧
    (Filter.run Demo.world factory 0 events).pipeline.isSome = true ∧
    Demo.view (Filter.run Demo.world factory 0 events).log =
      ["hits", "start 0", "call 0 token 0", "start 1", "call 1 token 1", "continue", "allowed", "continue",
        "pause", "response 0 status 0", "completed 0", "resume response"] :=
  ⟨Demo.config [Demo.grpc "deny" (guard := false), Demo.grpc "deny" (guard := false)], _,
    [.responseHeaders 2, .responseBody 2 0 true, .grpcResponse 2 0 0 0],
    Demo.factory_eq _ (by decide +kernel), by decide +kernel, by decide +kernel⟩

/-- The response may hang: an action that failed leaves an action that depends on it in the queue for ever.
At the end of the response body the filter answers Pause although no call is in flight whose response could
resume it. -/
theorem C15_hangs : ∃ (cfg : PluginConfig) (factory : Factory) (events : List (Event Nat)),
    Factory.tryFrom Demo.parse cfg = some factory ∧
    inFlight (Filter.run Demo.world factory 0 events).log = [] ∧
    Demo.view (Filter.run Demo.world factory 0 events).log =
      ["hits", "start 0", "continue", "start 0", "call failed 0", "failed 0", "continue", "allowed", "continue",
        "pause"] :=
  ⟨Demo.config [Demo.grpc "allow" (predicate := "body"), Demo.grpc "allow" (sequential := true)], _,
    [.requestBody 0 0 true, .responseHeaders 0, .responseBody 0 0 true],
    Demo.factory_eq _ (by decide +kernel), by decide +kernel, by decide +kernel⟩

/-- C16: unless building the pipeline panics, the request increments exactly one of hits, misses and errors
when it arrives, and hits and misses never again. -/
theorem C16_counted_once (factory : Factory) (host : H) (events : List (Event H))
    (hp : factory.build o { host := host } ≠ .panic) :
    ∃ e rest, (Filter.run o factory host events).log = e :: rest ∧
      (e = .hits ∨ e = .misses ∨ e = .errors) ∧ .hits ∉ rest ∧ .misses ∉ rest := by
  obtain ⟨es, hl, hes⟩ := run_later (o := o) factory host events
  have hno : ∀ fs : List Effect, (∀ x ∈ fs, x.later = true) → .hits ∉ fs ∧ .misses ∉ fs :=
    fun fs h => ⟨fun hm => by simpa [Effect.later] using h _ hm, fun hm => by simpa [Effect.later] using h _ hm⟩
  rw [hl]
  cases start_shape (o := o) factory host with
  | pipeline g fs pause hfs hlog =>
    refine ⟨.hits, fs ++ [.returned .requestHeaders pause] ++ es, by rw [hlog]; simp, .inl rfl, hno _ ?_⟩
    simp only [List.mem_append, List.mem_singleton]
    rintro x ((hx | rfl) | hx)
    · exact pipe_later hfs x hx
    · rfl
    · exact hes x hx
  | miss hlog =>
    refine ⟨.misses, .returned .requestHeaders false :: es, by rw [hlog]; simp, .inr (.inl rfl), hno _ ?_⟩
    simp only [List.mem_cons]
    rintro x (rfl | hx)
    · rfl
    · exact hes x hx
  | error hlog =>
    refine ⟨.errors, _, by rw [hlog]; simp; rfl, .inr (.inr rfl), hno _ ?_⟩
    simp only [List.mem_cons]
    rintro x (rfl | rfl | hx)
    · rfl
    · rfl
    · exact hes x hx
  | refused hlog hc =>
    refine ⟨.errors, _, by rw [hlog]; simp; rfl, .inr (.inr rfl), hno _ ?_⟩
    simp only [List.mem_cons]
    rintro x (rfl | hx)
    · rfl
    · exact hes x hx
  | panic hlog =>
    exfalso
    unfold Filter.start at hlog
    dsimp only at hlog
    split at hlog
    · rename_i h; exact hp h
    · simp [Filter.push] at hlog
    · simp at hlog
    · split at hlog <;> simp at hlog

/-- C16: a request that matches no action set is counted as a miss and passed through. -/
theorem C16_miss (factory : Factory) (host : H) (events : List (Event H))
    (hsel : (factory.select o { host := host }).1 = .none) :
    ∃ rest, (Filter.run o factory host events).log = .misses :: rest ∧
      ∀ e ∈ rest, passesThrough e = true := by
  obtain ⟨c', hb⟩ := (build_select (o := o) factory { host := host }).1 hsel
  obtain ⟨_, es, hl, hes⟩ := run_idle (o := o) factory host events (fun p h => by rw [hb] at h; simp at h)
  have hbl := (build_log o factory { host := host }).1 c' hb
  refine ⟨.returned .requestHeaders false :: es, ?_, ?_⟩
  · rw [hl]
    unfold Filter.start
    dsimp only
    rw [hb]
    simp [hbl]
  · simp only [List.mem_cons]
    rintro e (rfl | he)
    · rfl
    · have := hes e he
      cases e <;> simp_all [Effect.isIdle, passesThrough]

/-- C16: a request whose routing cannot be evaluated gets a 500 reply and is passed to no policy. -/
theorem C16_routing_error (factory : Factory) (host : H) (events : List (Event H))
    (hsel : (factory.select o { host := host }).1 = .error) :
    ∃ accepted rest, (Filter.run o factory host events).log = .errors ::
        .reply 500 [] (some "Internal Server Error.\n".toList) accepted :: rest ∧
      ∀ e ∈ rest, passesThrough e = true := by
  obtain ⟨c', hb⟩ := (build_select (o := o) factory { host := host }).2.1 hsel
  obtain ⟨_, es, hl, hes⟩ := run_idle (o := o) factory host events (fun p h => by rw [hb] at h; simp at h)
  have hes' : ∀ e ∈ es, passesThrough e = true := by
    intro e he
    have := hes e he
    cases e <;> simp_all [Effect.isIdle, passesThrough]
  have hbl := (build_log o factory { host := host }).2 c' hb
  rw [hl]
  unfold Filter.start
  dsimp only
  rw [hb]
  dsimp only
  split
  · refine ⟨_, .returned .requestHeaders false :: es, by simp [Ctx.push, hbl]; exact ⟨rfl, rfl⟩, ?_⟩
    simp only [List.mem_cons]
    rintro e (rfl | he)
    · rfl
    · exact hes' e he
  · exact ⟨_, es, by simp [Ctx.push, hbl]; exact ⟨rfl, rfl⟩, hes'⟩

/-- C16: a request that matches an action set with actions is a hit, unless the build panics. -/
theorem C16_hit (factory : Factory) (host : H) (events : List (Event H)) (b : Blueprint)
    (hsel : (factory.select o { host := host }).1 = .found b) (hb : b.actions ≠ [])
    (hp : factory.build o { host := host } ≠ .panic) :
    ∃ rest, (Filter.run o factory host events).log = .hits :: rest := by
  rcases (build_select (o := o) factory { host := host }).2.2.1 b hsel hb with h | ⟨p, h⟩
  · exact absurd h hp
  · obtain ⟨es, hl, _⟩ := run_later (o := o) factory host events
    obtain ⟨b', _, hbuilt⟩ := build_built o factory _ p h
    obtain ⟨fs, hfs, _⟩ := evalPipe_grew (o := o) (p.push .hits)
    rw [hl, start_pipeline factory host p h]
    refine ⟨_, by
      simp only [Filter.push, store_log, hfs]
      simp [Pipe.push, Ctx.push, hbuilt.quiet.log]; rfl⟩

/-- A hit, a miss because of the host, and a request whose host cannot be read. -/
example :
    Demo.view (Demo.request [Demo.grpc "deny"] []) = ["hits", "start 0", "call 0 guard token 0", "pause"] ∧
    Demo.view (Filter.run { Demo.world with hostname := fun c => (.available (some "example.org".toList), c.host) }
      (Demo.factory (Demo.config [Demo.grpc "deny"])) 0 [.requestBody 0 3 true, .grpcResponse 0 7 0 0]).log =
      ["misses", "continue", "continue", "response 7 status 0"] ∧
    Demo.view (Filter.run { Demo.world with hostname := fun c => (.available none, c.host) }
      (Demo.factory (Demo.config [Demo.grpc "deny"])) 0 [.requestBody 0 3 true]).log =
      ["errors", "reply 500", "continue", "continue"] := by
  decide +kernel

/-- C16: the denied counter increases by one for each reply the pipeline attempts. -/
theorem C16_denied (factory : Factory) (host : H) (events : List (Event H))
    (hsel : (factory.select o { host := host }).1 ≠ .error) :
    denials (Filter.run o factory host events).log = replies (Filter.run o factory host events).log := by
  by_cases hb : ∃ p, factory.build o { host := host } = .pipeline p
  · obtain ⟨p, hb⟩ := hb
    obtain ⟨b, _, hbuilt⟩ := build_built o factory _ p hb
    have hg := (balanced_extra (o := o)).run factory host p hb (by
      show Balanced (p.push .hits).ctx.log
      rw [show (p.push .hits).ctx.log = [.hits] by simp [Pipe.push, Ctx.push, hbuilt.quiet.log]]; rfl) events
    refine hg.log (Q := Balanced) ?_
    rintro q (⟨_, h⟩ | ⟨_, h⟩) <;> exact h
  · obtain ⟨_, es, hl, hes⟩ := run_idle (o := o) factory host events (fun p hp => hb ⟨p, hp⟩)
    have hzero : ∀ l : List Effect, (∀ e ∈ l, passesThrough e = true ∨ e = .misses) →
        denials l = replies l := by
      intro l h
      simp only [denials, replies]
      rw [List.countP_eq_zero.2, List.countP_eq_zero.2]
      all_goals
        intro e he
        have := h e he
        cases e <;> simp_all [passesThrough]
    refine hzero _ ?_
    rw [hl]
    intro e he
    rcases List.mem_append.1 he with he | he
    · have hbl := build_log o factory { host := host }
      unfold Filter.start at he
      dsimp only at he
      cases hbd : factory.build o { host := host } with
      | pipeline p => exact absurd ⟨p, hbd⟩ hb
      | noMatch c =>
        rw [hbd] at he
        simp [hbl.1 c hbd] at he
        rcases he with rfl | rfl
        · exact .inr rfl
        · exact .inl rfl
      | panic => rw [hbd] at he; simp at he
      | error c =>
        exfalso
        have hsel' := build_select (o := o) factory { host := host }
        cases hch : (factory.select o { host := host }).1 with
        | error => exact hsel hch
        | none =>
          obtain ⟨c', h⟩ := hsel'.1 hch
          rw [hbd] at h; simp at h
        | found b =>
          by_cases hba : b.actions = []
          · obtain ⟨c', h⟩ := hsel'.2.2.2 b hch hba
            rw [hbd] at h; simp at h
          · rcases hsel'.2.2.1 b hch hba with h | ⟨p, h⟩ <;> rw [hbd] at h <;> simp at h
    · have := hes e he
      left
      cases e <;> simp_all [Effect.isIdle, passesThrough]

end Verif.Props
