import Verif.Model.Root
/-!
Model of `crates/kuadrant-filter/src/metrics/mod.rs` and of `WasmMetricsBackend` in
`crates/wasm-shim/src/wasm_host.rs` (L28-36): the counters the host sees.
-/
namespace Verif

/-- The getters of `metrics/mod.rs` L35-57. -/
inductive Counter where
  | configs | hits | misses | allowed | denied | errors
deriving DecidableEq, Repr

/-- The names, `metrics/mod.rs` L4-9 and L35-57. -/
def Counter.name : Counter → Text
  | .configs => "kuadrant.configs".toList
  | .hits => "kuadrant.hits".toList
  | .misses => "kuadrant.misses".toList
  | .allowed => "kuadrant.allowed".toList
  | .denied => "kuadrant.denied".toList
  | .errors => "kuadrant.errors".toList

/-- Calls of the host, `wasm_host.rs` L29-35. -/
inductive MetricCall where
  | define (name : Text)
  | increment (id : Nat) (offset : Int)
deriving DecidableEq, Repr

/-- The statics of `metrics/mod.rs`: `METRICS_BACKEND` (L18), and `METRICS` (L28) once it was used; `calls` is the
history of calls of the host. -/
structure Metrics where
  backend : Bool := false
  counters : Option (List (Text × Option Nat)) := none
  calls : List MetricCall := []

namespace Metrics

/-- What the host answers when a counter is defined, after the given calls (`define_metric(..).ok()`). -/
abbrev Host := List MetricCall → Text → Option Nat

/-- `metrics/mod.rs` L20-22 `register_backend`. -/
def registerBackend (m : Metrics) : Metrics := { m with backend := true }

/-- The loop of `metrics/mod.rs` L63-66. -/
def defineAll (define : Host) (m : Metrics) (cs : List (Text × Option Nat)) : List Text → Metrics × List (Text × Option Nat)
  | [] => (m, cs)
  | name :: names =>
    if m.backend then
      defineAll define { m with calls := m.calls ++ [.define name] } (mapInsert cs name (define m.calls name)) names
    else defineAll define m (mapInsert cs name none) names

/-- The first use of `METRICS`, `metrics/mod.rs` L28 and L60-69. -/
def force (define : Host) (m : Metrics) : Metrics :=
  match m.counters with
  | some _ => m
  | none =>
    let (m, cs) := defineAll define m [] ["kuadrant.configs".toList, "kuadrant.hits".toList, "kuadrant.misses".toList,
      "kuadrant.allowed".toList, "kuadrant.denied".toList, "kuadrant.errors".toList]
    { m with counters := some cs }

/-- `metrics/mod.rs` L31-33 `get_counter`. -/
def getCounter (m : Metrics) (name : Text) : Option Nat := ((m.counters.bind fun cs => mapGet cs name)).getD none

/-- `metrics/mod.rs` L78-82 `inc_by`. -/
def incBy (m : Metrics) (counter : Option Nat) (offset : Int) : Metrics :=
  match counter with
  | none => m
  | some id => if m.backend then { m with calls := m.calls ++ [.increment id offset] } else m

/-- `METRICS.hits().increment()` and the like, `metrics/mod.rs` L74-76. -/
def increment (define : Host) (m : Metrics) (c : Counter) : Metrics :=
  let m := m.force define
  m.incBy (m.getCounter c.name) 1

end Metrics

/-- Where counters are used: `send_reply.rs` L130, `failure_mode.rs` L22, `fail.rs` L38, `kuadrant_filter.rs` L102, L121,
L126 and L168. -/
def Effect.counter : Effect → Option Counter
  | .hits => some .hits
  | .misses => some .misses
  | .allowed => some .allowed
  | .denied => some .denied
  | .errors => some .errors
  | _ => none

namespace Vm

variable {P H : Type} (lib : DescLib P) (parse : Text → Option Expr) (o : Oracle H)

/-- The counters a callback uses, in order; `root_context.rs` L132 for a configuration. -/
def used (vm : Vm P H) : VmOp H → List Counter
  | .configure .. => [.configs]
  | .headers id host =>
    match mapGet vm.contexts id with
    | some c => (Filter.start o c.factory host).log.filterMap Effect.counter
    | none => []
  | .event id e =>
    match (mapGet vm.contexts id).bind HttpCtx.filter with
    | some f => ((f.step o e).log.drop f.log.length).filterMap Effect.counter
    | none => []
  | _ => []

end Vm

/-- The virtual machine with its counters. -/
structure Metered (P H : Type) where
  vm : Vm P H
  metrics : Metrics

namespace Metered

variable {P H : Type} (lib : DescLib P) (parse : Text → Option Expr) (o : Oracle H) (define : Metrics.Host)

/-- One callback. -/
def step (s : Metered P H) (op : VmOp H) : Metered P H where
  vm := s.vm.step lib parse o op
  metrics := (s.vm.used o op).foldl (Metrics.increment define) s.metrics

/-- A history; the backend is registered when the module is loaded (`wasm-shim/src/lib.rs` L22). -/
def run (ops : List (VmOp H)) : Metered P H :=
  ops.foldl (step lib parse o define) { vm := { root := Root.new lib }, metrics := ({} : Metrics).registerBackend }

end Metered

end Verif
