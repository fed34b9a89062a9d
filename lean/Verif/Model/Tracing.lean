import Verif.Model.Root
import Verif.Model.Headers
/-!
Model of the trace context of requests: `kuadrant/context.rs`, `tracing/propagation.rs`,
`tasks/export_traces.rs` and `tasks/tracing_decorator.rs`.

The crates `tracing`, `tracing-subscriber`, `tracing-opentelemetry` and `opentelemetry` are not part of the repository.
What is used of them is modelled as far as it matters here, for the versions of `Cargo.lock`: spans that were entered
are kept in a stack for the whole thread, the last one entered that was not left is the current one, a new span is a
child of the current one unless its parent is set, and contexts without a trace inherit the current one when they are
extracted. The sources of these crates are not available here, so this is an assumption about them. The filters of
spans do not change within a history. There is one thread, since a virtual machine of the proxy has only one.
-/
namespace Verif

/-- The propagators (`root_context.rs` L105-110): the trace (`traceparent`, `tracestate`) and the baggage that a map of
headers carries, and the headers for both. `R` and `B` are the types of traces of others and of baggage. -/
structure Propagator (R B : Type) where
  trace : (Text → Option Text) → Option R
  baggage : (Text → Option Text) → Option B
  /-- the calls of `Injector::set` -/
  inject : Option R → List Nat → Option B → List (Text × Text)

/-- `opentelemetry::Context`: the trace it continues, the spans from the innermost to the outermost one, and baggage.
The trace is that of `remote` if it is there and the one of the outermost span otherwise. -/
structure OtelCtx (R B : Type) where
  remote : Option R := none
  spans : List Nat := []
  baggage : Option B := none

/-- The context of a span with this parent. -/
def OtelCtx.child {R B : Type} (c : OtelCtx R B) (id : Nat) : OtelCtx R B := { c with spans := id :: c.spans }

/-- Which spans there are: those of a level that a layer lets pass are entered, and those that the OpenTelemetry layer
lets pass have a context (`tracing/mod.rs` L66-76). -/
structure SpanFilter where
  enabled : Bool
  recorded : Bool

/-- Does the filter let spans of level `INFO` pass? No filter lets everything pass. -/
def Level.passesInfo : Option Level → Bool
  | none => true
  | some .trace => true
  | some .debug => true
  | some .info => true
  | _ => false

/-- `tracing/mod.rs` L66-76: the filters of the OpenTelemetry layer and of the log layer. -/
def spanFilter (otel : Option Level) (log : Level) : SpanFilter :=
  { enabled := Level.passesInfo otel || Level.passesInfo (some log), recorded := Level.passesInfo otel }

/-- The state of `tracing`: the stack of entered spans, the last one first, and the contexts of spans. -/
structure Tracer (R B : Type) where
  stack : List Nat := []
  contexts : List (Nat × OtelCtx R B) := []
  next : Nat := 0

namespace Tracer

variable {R B : Type}

/-- The context of a span, the empty one if it was not recorded (`OpenTelemetrySpanExt::context`). -/
def context (t : Tracer R B) (id : Nat) : OtelCtx R B := (mapGet t.contexts id).getD {}

/-- `Span::current().context()`. -/
def spanContext (t : Tracer R B) : OtelCtx R B :=
  match t.stack with
  | [] => {}
  | id :: _ => t.context id

/-- `opentelemetry::Context::current()`: recorded spans attach their context when they are entered. -/
def current (t : Tracer R B) : OtelCtx R B :=
  match t.stack.find? (fun id => (mapGet t.contexts id).isSome) with
  | none => {}
  | some id => t.context id

/-- `info_span!`: the new span, if it is enabled, is a child of the current one. -/
def newSpan (f : SpanFilter) (t : Tracer R B) : Option Nat × Tracer R B :=
  if f.enabled then
    (some t.next, { t with next := t.next + 1, contexts :=
      if f.recorded then mapInsert t.contexts t.next (t.current.child t.next) else t.contexts })
  else (none, t)

/-- `OpenTelemetrySpanExt::set_parent`. -/
def setParent (t : Tracer R B) (id : Nat) (c : OtelCtx R B) : Tracer R B :=
  if (mapGet t.contexts id).isSome then { t with contexts := mapInsert t.contexts id (c.child id) } else t

/-- `Span::enter`. -/
def enter (t : Tracer R B) : Option Nat → Tracer R B
  | none => t
  | some id => { t with stack := id :: t.stack }

/-- The guard of an entered span is dropped. -/
def exit (t : Tracer R B) : Option Nat → Tracer R B
  | none => t
  | some id => { t with stack := t.stack.erase id }

end Tracer

/-- `context.rs` L412-417 `TracingContext`, without names, and the spans of the decorated tasks of the request
(`tracing_decorator.rs` L4-9, L44-76): a decorated task shares its span with the tasks it becomes. -/
structure ReqTrace (R B : Type) where
  otel : OtelCtx R B := {}
  guard : Option Nat := none
  spans : List (Nat × Option Nat) := []

/-- `propagation.rs` L5-25 `HeadersExtractor`. -/
def headersExtractor (hs : Headers) (key : Text) : Option Text := mapGet (Headers.toMap hs) key

/-- `propagation.rs` L37-43 `HeadersInjector`. -/
def headersInjector (sets : List (Text × Text)) : List (Text × Bytes) :=
  sets.foldl (fun hs e => if e.2 = [] then hs else hs ++ [(e.1, utf8 e.2)]) []

namespace ReqTrace

variable {R B : Type} (lib : Propagator R B) (f : SpanFilter)

/-- The composite propagator: what the headers do not give is inherited. -/
def extract (current : OtelCtx R B) (get : Text → Option Text) : OtelCtx R B :=
  let c := match lib.trace get with
    | some r => { current with remote := some r, spans := [] }
    | none => current
  match lib.baggage get with
  | some b => { c with baggage := some b }
  | none => c

/-- `context.rs` L58-69 `extract_trace_context`. `none`: the headers cannot be read. -/
def extractTraceContext (q : ReqTrace R B) (t : Tracer R B) (hs : Option Headers) : ReqTrace R B :=
  match hs with
  | some hs => { q with otel := extract lib t.current (headersExtractor hs) }
  | none => q

/-- `context.rs` L71-91 `enter_request_span`, called by `export_traces.rs` L12-15. -/
def enterRequestSpan (q : ReqTrace R B) (t : Tracer R B) : ReqTrace R B × Tracer R B :=
  match t.newSpan f with
  | (none, t) => (q, t)
  | (some id, t) => ({ q with guard := some id }, ((t.setParent id q.otel).enter (some id)).exit q.guard)

/-- `blueprint.rs` L388-398: every task that exports traces enters the request's span. -/
def enterRequestSpans (q : ReqTrace R B) (t : Tracer R B) : Nat → ReqTrace R B × Tracer R B
  | 0 => (q, t)
  | n + 1 => let (q, t) := q.enterRequestSpan f t
    q.enterRequestSpans t n

/-- `context.rs` L93-95 `end_request_span`. -/
def endRequestSpan (q : ReqTrace R B) (t : Tracer R B) : ReqTrace R B × Tracer R B :=
  ({ q with guard := none }, t.exit q.guard)

/-- `context.rs` L346-350: the context that is sent with calls. -/
def sent (q : ReqTrace R B) (t : Tracer R B) : OtelCtx R B :=
  if q.guard.isSome then t.spanContext else q.otel

/-- `context.rs` L343-358 `get_tracing_headers`. -/
def tracingHeaders (q : ReqTrace R B) (t : Tracer R B) : List (Text × Bytes) :=
  let c := q.sent t
  headersInjector (lib.inject c.remote c.spans c.baggage)

/-- `tracing_decorator.rs` L21-36 `ensure_span`. -/
def ensureSpan (q : ReqTrace R B) (t : Tracer R B) (task : Nat) : Option Nat × ReqTrace R B × Tracer R B :=
  match mapGet q.spans task with
  | some span => (span, q, t)
  | none => let (span, t) := t.newSpan f
    (span, { q with spans := mapInsert q.spans task span }, t)

end ReqTrace

/-- What happens in a virtual machine. -/
inductive TraceOp where
  /-- the pipeline of a request is built (`factory.rs` L159-162), with so many tasks that export traces
  (`blueprint.rs` L395-398), usually none or one -/
  | start (request : Nat) (headers : Option Headers) (exporters : Nat)
  /-- a decorated task is applied, and makes a call if `calls` -/
  | apply (request task : Nat) (calls : Bool)
  /-- a task that is not decorated makes a call -/
  | call (request : Nat)
  /-- teardown (`export_traces.rs` L19-44): the request's span ends, and a call exports the spans, if there are any -/
  | finish (request : Nat) (exports : Bool)
  /-- the host destroys the context of the request -/
  | drop (request : Nat)

/-- The state of tracing in a virtual machine; `calls` collects the contexts that are sent with calls and the headers
made of them. -/
structure Traces (R B : Type) where
  tracer : Tracer R B := {}
  requests : List (Nat × ReqTrace R B) := []
  calls : List (Nat × OtelCtx R B × List (Text × Bytes)) := []

namespace Traces

variable {R B : Type} (lib : Propagator R B) (f : SpanFilter)

/-- A request makes a call. -/
def dispatch (s : Traces R B) (r : Nat) (q : ReqTrace R B) : Traces R B :=
  { s with calls := s.calls ++ [(r, q.sent s.tracer, q.tracingHeaders lib s.tracer)] }

/-- The context of a request is dropped, and with it the guard of its span. -/
def dropped (s : Traces R B) (r : Nat) : Traces R B :=
  match mapGet s.requests r with
  | none => s
  | some q => { s with tracer := s.tracer.exit q.guard, requests := s.requests.filter (fun e => e.1 ≠ r) }

/-- One step. `apply` is `tracing_decorator.rs` L40-44. -/
def step (s : Traces R B) : TraceOp → Traces R B
  | .start r hs n =>
    let s := s.dropped r
    let q := ({} : ReqTrace R B).extractTraceContext lib s.tracer hs
    let (q, t) := q.enterRequestSpans f s.tracer n
    { s with tracer := t, requests := mapInsert s.requests r q }
  | .apply r task calls =>
    match mapGet s.requests r with
    | none => s
    | some q =>
      let (span, q, t) := q.ensureSpan f s.tracer task
      let s := { s with tracer := t.enter span, requests := mapInsert s.requests r q }
      let s := if calls then s.dispatch lib r q else s
      { s with tracer := s.tracer.exit span }
  | .call r =>
    match mapGet s.requests r with
    | none => s
    | some q => s.dispatch lib r q
  | .finish r exports =>
    match mapGet s.requests r with
    | none => s
    | some q =>
      let (q, t) := q.endRequestSpan s.tracer
      let s := { s with tracer := t, requests := mapInsert s.requests r q }
      if exports then s.dispatch lib r q else s
  | .drop r => s.dropped r

/-- A history. -/
def run (ops : List TraceOp) : Traces R B := ops.foldl (step lib f) {}

end Traces

end Verif
