import Verif.Lemmas.Tracing
/-!
C69: calls carry the trace context of their own request. It holds of requests without tracing and of requests with
tracing that no other request with tracing overlaps. It does not hold of requests that overlap.
-/
namespace Verif.Props

open Spec

variable {R B : Type}

/-- Headers for traces are those the propagator gives that are not empty, in order. -/
theorem C69_headers (sets : List (Text × Text)) :
    headersInjector sets = (sets.filter (fun e => e.2 ≠ [])).map (fun e => (e.1, utf8 e.2)) := by
  have key : ∀ hs, sets.foldl (fun hs e => if e.2 = [] then hs else hs ++ [(e.1, utf8 e.2)]) hs =
      hs ++ (sets.filter (fun e => e.2 ≠ [])).map (fun e => (e.1, utf8 e.2)) := by
    induction sets with
    | nil => intro hs; simp
    | cons e sets ih =>
      intro hs
      rw [List.foldl_cons, ih]
      by_cases h : e.2 = [] <;> simp [h]
  exact key []

/-- What is found of a request without tracing at all times. -/
theorem untraced_calls (lib : Propagator R B) (f : SpanFilter) (before during : List TraceOp) (r : Nat) (hs : Option Headers)
    (hd : ∀ op ∈ during, ∀ hs n, op ≠ .start r hs n) :
    ∀ c ∈ tracedCalls lib f before (.start r hs 0 :: during) r,
      c.1 = (({} : ReqTrace R B).extractTraceContext lib ((Traces.run lib f before).dropped r).tracer hs).otel ∧
        c.2 = headersInjector (lib.inject c.1.remote c.1.spans c.1.baggage) := by
  generalize hc0 : (({} : ReqTrace R B).extractTraceContext lib ((Traces.run lib f before).dropped r).tracer hs).otel = c0
  apply tracedCalls_of lib f (P := fun e => e.2.1 = c0 ∧ e.2.2 = headersInjector (lib.inject e.2.1.remote e.2.1.spans e.2.1.baggage))
  have hn := run_numbered lib f before
  have hrun : Traces.run lib f (before ++ .start r hs 0 :: during) =
      during.foldl (Traces.step lib f) ((Traces.run lib f before).step lib f (.start r hs 0)) := by
    unfold Traces.run; rw [List.foldl_append, List.foldl_cons]
  have key := run_calls lib f (I := fun s => ∀ q, mapGet s.requests r = some q → q.otel = c0 ∧ q.guard = none)
    (P := fun e => e.1 = r → e.2.1 = c0 ∧ e.2.2 = headersInjector (lib.inject e.2.1.remote e.2.1.spans e.2.1.baggage))
    during ?_ ((Traces.run lib f before).step lib f (.start r hs 0)) ?_ (step_numbered lib f hn _)
  · obtain ⟨es, h1, h2⟩ := key
    refine ⟨es, ?_, h2⟩
    rw [hrun, h1, step_start]
    simp [dropped_calls]
  · intro s op hop hi _
    have entry : ∀ (q : ReqTrace R B) t, q.otel = c0 → q.guard = none → (callEntry lib r q t).2.1 = c0 ∧
        (callEntry lib r q t).2.2 = headersInjector (lib.inject (callEntry lib r q t).2.1.remote
          (callEntry lib r q t).2.1.spans (callEntry lib r q t).2.1.baggage) := by
      intro q t h1 h2
      refine ⟨?_, rfl⟩
      show q.sent t = c0
      simp [ReqTrace.sent, h1, h2]
    have dropI : ∀ r', ∀ q, mapGet (s.dropped r').requests r = some q → q.otel = c0 ∧ q.guard = none := by
      intro r' q hq
      unfold Traces.dropped at hq
      split at hq
      · exact hi q hq
      · simp only [mapGet_filter] at hq
        split at hq
        · cases hq
        · exact hi q hq
    cases op with
    | start r' hs' n =>
      have hne : r ≠ r' := fun e => hd _ hop hs' n (by rw [e])
      rw [step_start]
      refine ⟨?_, [], by simp [dropped_calls], by simp⟩
      intro q hq
      simp only [mapGet_mapInsert, if_neg hne] at hq
      exact dropI r' q hq
    | apply r' task calls =>
      cases hq : mapGet s.requests r' with
      | none => rw [(step_gone lib f hq task calls).1]; exact ⟨hi, [], by simp, by simp⟩
      | some q =>
        rw [step_apply lib f hq]
        have hot : (q.ensureSpan f s.tracer task).2.1.otel = q.otel ∧ (q.ensureSpan f s.tracer task).2.1.guard = q.guard := by
          unfold ReqTrace.ensureSpan; split <;> exact ⟨rfl, rfl⟩
        refine ⟨?_, _, rfl, ?_⟩
        · intro p hp
          simp only [mapGet_mapInsert] at hp
          split at hp
          · rename_i e; subst e; cases hp; rw [hot.1, hot.2]; exact hi q hq
          · exact hi p hp
        · intro e he her
          split at he
          · rw [List.mem_singleton] at he; subst he
            have her' : r' = r := her
            subst her'
            exact entry _ _ (hot.1.trans (hi q hq).1) (hot.2.trans (hi q hq).2)
          · simp at he
    | call r' =>
      cases hq : mapGet s.requests r' with
      | none => rw [(step_gone lib f hq 0 true).2.1]; exact ⟨hi, [], by simp, by simp⟩
      | some q =>
        rw [step_call lib f hq]
        refine ⟨hi, _, rfl, ?_⟩
        intro e he her
        rw [List.mem_singleton] at he; subst he
        have her' : r' = r := her
        subst her'
        exact entry _ _ (hi q hq).1 (hi q hq).2
    | finish r' exports =>
      cases hq : mapGet s.requests r' with
      | none => rw [(step_gone lib f hq 0 exports).2.2]; exact ⟨hi, [], by simp, by simp⟩
      | some q =>
        rw [step_finish lib f hq]
        refine ⟨?_, _, rfl, ?_⟩
        · intro p hp
          simp only [mapGet_mapInsert] at hp
          split at hp
          · rename_i e; subst e; cases hp; exact ⟨(hi q hq).1, rfl⟩
          · exact hi p hp
        · intro e he her
          split at he
          · rw [List.mem_singleton] at he; subst he
            have her' : r' = r := her
            subst her'
            exact entry _ _ (hi q hq).1 rfl
          · simp at he
    | drop r' => exact ⟨dropI r', [], by rw [List.append_nil]; exact dropped_calls s r', by simp⟩
  · intro q hq
    rw [step_start] at hq
    simp only [mapGet_mapInsert, if_true] at hq
    cases hq
    exact ⟨hc0, by cases hs <;> rfl⟩

/-- C69: a request without tracing that starts while no request with tracing is open sends, with every call it ever
makes, exactly the trace and the baggage its own headers carry, whatever other requests do meanwhile. -/
theorem C69_untraced (lib : Propagator R B) (f : SpanFilter) (before during : List TraceOp) (r : Nat) (hs : Option Headers)
    (hb : openTraced before = []) (hd : ∀ op ∈ during, ∀ hs n, op ≠ .start r hs n) :
    ∀ c ∈ tracedCalls lib f before (.start r hs 0 :: during) r,
      c.1 = ownContext lib hs ∧ c.2 = headersInjector (lib.inject c.1.remote [] c.1.baggage) := by
  intro c hc
  obtain ⟨h1, h2⟩ := untraced_calls lib f before during r hs hd c hc
  obtain ⟨hst, hg⟩ := closed_stack lib f hb
  have ht := (dropped_closed hg r).1
  rw [extract_own lib hs _ (by rw [ht]; exact hst)] at h1
  have hsp : c.1.spans = [] := by rw [h1]; cases hs <;> rfl
  rw [hsp] at h2
  exact ⟨h1, h2⟩

/-- C69: a request without tracing whose headers carry a trace sends this trace, and if they carry baggage this
baggage, even if requests with tracing are open. -/
theorem C69_untraced_carried (lib : Propagator R B) (f : SpanFilter) (before during : List TraceOp) (r : Nat) (hs : Headers)
    (hd : ∀ op ∈ during, ∀ hs n, op ≠ .start r hs n) :
    ∀ c ∈ tracedCalls lib f before (.start r (some hs) 0 :: during) r,
      (∀ x, lib.trace (headerValue hs) = some x → c.1.remote = some x ∧ c.1.spans = []) ∧
      (∀ b, lib.baggage (headerValue hs) = some b → c.1.baggage = some b) := by
  intro c hc
  obtain ⟨h1, _⟩ := untraced_calls lib f before during r (some hs) hd c hc
  simp only [ReqTrace.extractTraceContext, extractor_value, ReqTrace.extract] at h1
  constructor
  · intro x hx
    rw [hx] at h1
    rw [h1]; cases lib.baggage (headerValue hs) <;> exact ⟨rfl, rfl⟩
  · intro b hb
    rw [hb] at h1
    rw [h1]

/-- C69: a request with tracing, when its spans are recorded, no request with tracing is open when it starts and none
starts later, sends with every call the trace and the baggage its own headers carry. It never sends a span that was
sent with a call before it started, so that without a trace in its headers it is a trace of its own. -/
theorem C69_traced (lib : Propagator R B) (otel : Option Level) (log : Level) (hf : Level.passesInfo otel = true)
    (before during : List TraceOp) (r : Nat) (hs : Option Headers) (n : Nat)
    (hb : openTraced before = []) (hd : Undisturbed r during) :
    ∀ c ∈ tracedCalls lib (spanFilter otel log) before (.start r hs n :: during) r,
      c.1.remote = (ownContext lib hs).remote ∧ c.1.baggage = (ownContext lib hs).baggage ∧
        c.2 = headersInjector (lib.inject c.1.remote c.1.spans c.1.baggage) ∧
        ∀ e ∈ (Traces.run lib (spanFilter otel log) before).calls, ∀ k ∈ c.1.spans, k ∉ e.2.1.spans := by
  have hrec : (spanFilter otel log).recorded = true := hf
  have hen : (spanFilter otel log).enabled = true := by simp [spanFilter, hf]
  generalize spanFilter otel log = f at hrec hen
  have hn := run_numbered lib f before
  obtain ⟨hst, hg⟩ := closed_stack lib f hb
  obtain ⟨ht, hca, hgd⟩ := dropped_closed hg r
  have ho : (ownContext lib hs).spans = [] := by cases hs <;> rfl
  have hst' : ((Traces.run lib f before).dropped r).tracer.stack = [] := by rw [ht]; exact hst
  have hn' := hn.dropped r
  have hq0 := extract_own lib hs _ hst'
  have hqn := extract_numbered lib hn'.tracer hs
  obtain ⟨i1, i2, i3⟩ := enterRequestSpans_own f hrec hen (n := (Traces.run lib f before).tracer.next) ho n
    (q := ({} : ReqTrace R B).extractTraceContext lib ((Traces.run lib f before).dropped r).tracer hs)
    (t := ((Traces.run lib f before).dropped r).tracer) (by rw [hq0]) (by rw [hq0])
    (by rw [ht]; exact Nat.le_refl _) hn'.tracer hqn (Or.inl ⟨by rw [hq0], hst'⟩)
  have hI : DuringOwn (ownContext lib hs) (Traces.run lib f before).tracer.next r
      ((Traces.run lib f before).step lib f (.start r hs n)) := by
    rw [step_start]
    refine ⟨i2, ?_, ?_, ?_⟩
    · intro r' q hne hq
      simp only [mapGet_mapInsert, if_neg hne] at hq
      exact hgd r' q hq
    · intro q hq
      simp only [mapGet_mapInsert, if_true] at hq
      cases hq; exact i1
    · intro q g hq hg'
      simp only [mapGet_mapInsert, if_true] at hq
      cases hq; exact i3 g hg'
  obtain ⟨es, h1, h2⟩ := run_calls lib f (P := fun e => e.1 = r → CallOwn lib (ownContext lib hs) (Traces.run lib f before).tracer.next e)
    during (fun s op hop hi hn => step_during lib f hrec ho hi hn op (fun q hs m e => hd op hop q hs m e)) _ hI (step_numbered lib f hn _)
  have hall := tracedCalls_of lib f (before := before) (during := .start r hs n :: during) (r := r)
    (P := CallOwn lib (ownContext lib hs) (Traces.run lib f before).tracer.next) ⟨es, by
      have hrun : Traces.run lib f (before ++ .start r hs n :: during) =
          during.foldl (Traces.step lib f) ((Traces.run lib f before).step lib f (.start r hs n)) := by
        unfold Traces.run; rw [List.foldl_append, List.foldl_cons]
      rw [hrun, h1, step_start]
      simp [dropped_calls], h2⟩
  intro c hc
  obtain ⟨⟨a, b, d⟩, e⟩ := hall c hc
  refine ⟨a, b, e, ?_⟩
  intro e' he' k hk hk'
  exact Nat.lt_irrefl _ (Nat.lt_of_lt_of_le (hn.calls e' he' k hk') (d k hk))

/-! Concrete requests: a trace is the text of its header. -/

def demoLib : Propagator Text Text where
  trace g := g "traceparent".toList
  baggage g := g "baggage".toList
  inject remote _ baggage :=
    [("traceparent".toList, remote.getD []), ("baggage".toList, baggage.getD [])]

def demoA : Option Headers := some [("traceparent".toList, "A".toList), ("baggage".toList, "user=a".toList)]

def demoB : Option Headers := some [("traceparent".toList, "B".toList)]

/-- Traces, numbers of spans and baggage of the calls of a history. -/
def demoCalls (f : SpanFilter) (ops : List TraceOp) : List (Nat × Option Text × Nat × Option Text) :=
  (Traces.run demoLib f ops).calls.map fun e => (e.1, e.2.1.remote, e.2.1.spans.length, e.2.1.baggage)

def recording : SpanFilter := spanFilter (some .info) .warn

example : openTraced [.start 1 demoA 1, .apply 1 0 true, .finish 1 true, .drop 1] = [] ∧
    demoCalls recording [.start 1 demoA 1, .apply 1 0 true, .finish 1 true, .drop 1,
      .start 2 demoB 1, .start 3 demoA 0, .apply 2 0 true, .call 3, .finish 2 true] =
      [(1, some "A".toList, 2, some "user=a".toList), (1, some "A".toList, 0, some "user=a".toList),
        (2, some "B".toList, 2, none), (3, some "A".toList, 0, some "user=a".toList), (2, some "B".toList, 0, none)] := by
  decide +kernel

example : Undisturbed 2 [.start 3 demoA 0, .apply 2 0 true, .call 3, .finish 2 true] := by
  intro op hop q hs n h
  simp only [List.mem_cons, List.not_mem_nil, or_false] at hop
  rcases hop with rfl | rfl | rfl | rfl <;> cases h
  exact ⟨by decide, rfl⟩

/-- C69 fails of requests that overlap: the span of a request stays entered between callbacks, so a task of request 1
that is first applied after request 2 started is part of the trace of request 2, and its call sends that trace. -/
theorem C69_mixed_deviation :
    demoCalls recording [.start 1 demoA 1, .start 2 demoB 1, .apply 1 0 true] =
        [(1, some "B".toList, 2, some "user=a".toList)] ∧
      (ownContext demoLib demoA).remote = some "A".toList := by
  decide +kernel

/-- C69 fails of requests that overlap: a request whose headers carry no trace and no baggage sends those of a request
with tracing that is open when it starts. -/
theorem C69_inherited_deviation :
    demoCalls recording [.start 1 demoA 1, .start 2 (some []) 0, .call 2] =
        [(2, some "A".toList, 1, some "user=a".toList)] ∧
      (ownContext demoLib (some [])).remote = none ∧ (ownContext demoLib (some [])).baggage = none := by
  decide +kernel

/-- C69 fails of requests with tracing whose spans are entered for the sake of the log but not recorded: as long as the
request's span is open no call sends a trace, whatever its headers carry. This is so with the default level of tracing
and the log level `INFO`. -/
theorem C69_silent_deviation :
    spanFilter (otelFilter true none) .info = { enabled := true, recorded := false } ∧
      demoCalls (spanFilter (otelFilter true none) .info) [.start 1 demoA 1, .apply 1 0 true] = [(1, none, 0, none)] ∧
      (Traces.run demoLib (spanFilter (otelFilter true none) .info) [.start 1 demoA 1, .apply 1 0 true]).calls.map
        (fun e => e.2.2) = [[]] := by
  refine ⟨rfl, ?_, ?_⟩ <;> decide +kernel

end Verif.Props
