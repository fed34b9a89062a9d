import Verif.Model.Tracing
import Verif.Model.Root
/-!
Model of `crates/kuadrant-filter/src/tracing/mod.rs`, `tracing/log_layer.rs` and of `current_log_filter` in
`crates/wasm-shim/src/wasm_host.rs`: which events are logged.

The crates `tracing` and `tracing-subscriber` are not part of the repository. It is assumed of them that an event
reaches the layer of the log exactly if its level is not more detailed than the layer's filter, that reloading a
filter succeeds, that before a subscriber is installed events go nowhere, and that installing it succeeds the first
time.
-/
namespace Verif

/-- `proxy_wasm::types::LogLevel`. -/
inductive HostLevel where
  | trace | debug | info | warn | error | critical
deriving DecidableEq, Repr

/-- `tracing::Level`. -/
inductive EventLevel where
  | trace | debug | info | warn | error
deriving DecidableEq, Repr

/-- `wasm_host.rs` L13-22 `current_log_filter`; `none`: the host does not say its level. -/
def currentLogFilter : Option HostLevel → Level
  | some .trace => .trace
  | some .debug => .debug
  | some .info => .info
  | some .warn => .warn
  | some .error => .error
  | some .critical => .error
  | none => .warn

/-- `tracing_subscriber`'s `LevelFilter` on events. -/
def Level.enables : Level → EventLevel → Bool
  | .trace, _ => true
  | .debug, e => e ≠ .trace
  | .info, e => e = .info || e = .warn || e = .error
  | .warn, e => e = .warn || e = .error
  | .error, e => e = .error
  | .off, _ => false

/-- The filters of the installed subscriber, `tracing/mod.rs` L33-34, L66-76. -/
structure Filters where
  otel : Option Level
  log : Level
deriving DecidableEq, Repr

/-- `tracing/mod.rs` L83-89 `set_log_level`. -/
def setLogLevel (s : Option Filters) (filter : Level) : Option Filters :=
  s.map fun s => { s with log := filter }

/-- `tracing/mod.rs` L36-81 `init_observability`. -/
def initObservability (s : Option Filters) (useTracing : Bool) (level : Option Text) (filter : Level) : Option Filters :=
  let otel := otelFilter useTracing level
  match s with
  | some s => setLogLevel (some { s with otel }) filter
  | none => some { otel, log := filter }

/-- An event: its level and its fields in order, with their values as text. -/
structure TraceEvent where
  level : EventLevel
  fields : List (Text × Text)
deriving DecidableEq, Repr

/-- `log_layer.rs` L19-25 `MessageVisitor`. -/
def messageOf (fields : List (Text × Text)) : Text :=
  fields.foldl (fun m f => if f.1 = "message".toList then f.2 else m) []

/-- The levels of the `log` crate and the line that is logged, `log_layer.rs` L30-36. -/
def LogLayer.onEvent (e : TraceEvent) : EventLevel × Text :=
  match e.level with
  | .error => (.error, messageOf e.fields)
  | .warn => (.warn, messageOf e.fields)
  | .info => (.info, messageOf e.fields)
  | .debug => (.debug, messageOf e.fields)
  | .trace => (.trace, messageOf e.fields)

/-- What happens in a virtual machine, as far as the log is concerned. `host` is the level the host gives when it is
asked. -/
inductive LogOp (H : Type) where
  /-- a callback of the virtual machine -/
  | callback (op : VmOp H) (host : Option HostLevel)
  /-- the filter's code emits an event -/
  | event (e : TraceEvent)

/-- The installed filters and the lines logged so far. -/
structure Logs where
  filters : Option Filters := none
  lines : List (EventLevel × Text) := []

/-- One step: `root_context.rs` L121-122 `create_http_context`, L130-160 `on_configure`. -/
def Logs.step {H : Type} (s : Logs) : LogOp H → Logs
  | .callback (.configure (some cfg) _ _) host =>
    { s with filters := initObservability s.filters cfg.tracing.isSome cfg.defaultLevel (currentLogFilter host) }
  | .callback (.create _) host => { s with filters := setLogLevel s.filters (currentLogFilter host) }
  | .callback _ _ => s
  | .event e =>
    match s.filters with
    | none => s
    | some f => if f.log.enables e.level then { s with lines := s.lines ++ [LogLayer.onEvent e] } else s

/-- A history. -/
def Logs.run {H : Type} (ops : List (LogOp H)) : Logs := ops.foldl Logs.step {}

end Verif
