import Verif.Model.SpanBuffer
import Verif.Model.Ctx
/-!
Model of the export of finished spans: `crates/kuadrant-filter/src/services/tracing.rs` and
`kuadrant/pipeline/tasks/export_traces.rs` on top of the span buffer, which all requests of the virtual machine share.
-/
namespace Verif

/-- The OpenTelemetry libraries. `S` is `SpanData`, `Sc` an instrumentation scope, `P` the protobuf form of a span. -/
structure SpanLib (S Sc P : Type) where
  /-- `SpanData::instrumentation_scope`, converted -/
  scope : S → Sc
  /-- `From<SpanData> for Span` -/
  proto : S → P

/-- `ScopeSpans` of the protocol; the schema is always empty. -/
structure ScopeSpans (Sc P : Type) where
  scope : Option Sc
  spans : List P
deriving DecidableEq

/-- `ResourceSpans` of the protocol; the schema is always empty. -/
structure ResourceSpans (Rs Sc P : Type) where
  resource : Option Rs
  scopes : List (ScopeSpans Sc P)
deriving DecidableEq

/-- A call that exports spans, with the host's answer. The protobuf encoding (`tracing.rs` L89) is left out. -/
structure ExportCall (Rs Sc P : Type) where
  target : Svc
  message : List (ResourceSpans Rs Sc P)
  token : Option Nat
deriving DecidableEq

section
variable {Rs Sc P S : Type} (lib : SpanLib S Sc P) (resource : Rs)

/-- `services/tracing.rs` L63-70 `TracingService::new`. -/
def tracingTarget (endpoint : Text) (timeout : Nat) : Svc where
  upstream := endpoint
  service := "opentelemetry.proto.collector.trace.v1.TraceService".toList
  method := "Export".toList
  timeout := timeout

/-- `services/tracing.rs` L107-140 `build_export_request`. -/
def buildExportRequest (batch : List S) : List (ResourceSpans Rs Sc P) :=
  if batch.isEmpty then []
  else [{ resource := some resource
          scopes := [{ scope := batch.head?.map lib.scope, spans := batch.map lib.proto }] }]

/-- `services/tracing.rs` L72-105 `dispatch_export`: the calls made and the token. -/
def dispatchExport (target : Svc) (answer : Option Nat) (spans : List S) :
    List (ExportCall Rs Sc P) × Option Nat :=
  if spans.isEmpty then ([], none)
  else ([{ target, message := buildExportRequest lib resource spans, token := answer }], answer)

/-- `tasks/export_traces.rs` L19-44 `ExportTracesTask::execute`. `own` is the span of the request if it ends here and is
recorded (L21, `context.rs` L93-95), `answer` what the host answers to a call. -/
def exportTraces (target : Svc) (own : Option S) (answer : Option Nat) (b : SpanBuffer S) :
    List (ExportCall Rs Sc P) × Option Nat × SpanBuffer S :=
  let b := own.toList.foldl SpanBuffer.onEnd b
  let (spans, b) := b.take
  if spans.isEmpty then ([], none, b)
  else
    let (calls, token) := dispatchExport lib resource target answer spans
    (calls, token, b)

/-- What happens to the spans of a virtual machine. -/
inductive SpanEvent (S : Type) where
  /-- a recorded span ends -/
  | ended (span : S)
  /-- the teardown of a request exports the spans to the tracing service with this endpoint and timeout -/
  | teardown (endpoint : Text) (timeout : Nat) (own : Option S) (answer : Option Nat)

/-- The shared buffer (`processor.rs` L8-12) and the export calls so far. -/
structure Exports (Rs Sc P S : Type) where
  buffer : SpanBuffer S := SpanBuffer.new
  calls : List (ExportCall Rs Sc P) := []

/-- One event. -/
def Exports.step (e : Exports Rs Sc P S) : SpanEvent S → Exports Rs Sc P S
  | .ended span => { e with buffer := e.buffer.onEnd span }
  | .teardown endpoint timeout own answer =>
    let (calls, _, b) := exportTraces lib resource (tracingTarget endpoint timeout) own answer e.buffer
    { buffer := b, calls := e.calls ++ calls }

/-- A history. -/
def Exports.run (events : List (SpanEvent S)) : Exports Rs Sc P S := events.foldl (Exports.step lib resource) {}

end

end Verif
