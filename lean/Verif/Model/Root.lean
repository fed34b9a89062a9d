import Verif.Model.Descriptors
import Verif.Model.Filter
/-!
Model of `crates/wasm-shim/src/filter/root_context.rs`, of the creation of services
(`services/mod.rs` L37-101, `services/dynamic.rs` L28-46) and of the virtual machine's contexts.
-/
namespace Verif

/-- `configuration.rs` L181-193 `ServiceType`. -/
inductive ServiceType where
  | auth | rateLimit | rateLimitCheck | rateLimitReport | tracing | dynamic
deriving DecidableEq, Repr

/-- `configuration.rs` L241-252 `Service`. The timeout is in nanoseconds. -/
structure ServiceConfig where
  type : ServiceType
  endpoint : Text
  deny : Bool := true
  timeout : Nat := 20000000
  grpcService : Option Text := none
  grpcMethod : Option Text := none

/-- `services/mod.rs` L37-101 `from_config`; `none` is an error. -/
def ServiceConfig.instance (s : ServiceConfig) : Option SvcInst :=
  match s.type with
  | .auth => some (.call .auth ⟨s.endpoint, Manager.authService, "Check".toList, s.timeout⟩ s.deny)
  | .rateLimit => some (.call .rateLimit ⟨s.endpoint, Manager.ratelimitService, "ShouldRateLimit".toList, s.timeout⟩ s.deny)
  | .rateLimitCheck =>
    some (.call .rateLimitCheck ⟨s.endpoint, Manager.kuadrantRatelimitService, "CheckRateLimit".toList, s.timeout⟩ s.deny)
  | .rateLimitReport =>
    some (.call .rateLimitReport ⟨s.endpoint, Manager.kuadrantRatelimitService, "Report".toList, s.timeout⟩ s.deny)
  | .tracing => some (.tracing (some s.endpoint))
  | .dynamic =>
    match s.grpcService, s.grpcMethod with
    | some service, some method => some (.call .dynamic ⟨s.endpoint, service, method, s.timeout⟩ s.deny)
    | _, _ => none

/-- The descriptor a service needs (`services/dynamic.rs` L36). -/
def SvcInst.descriptor : SvcInst → Option DescKey
  | .call _ svc _ => some ⟨svc.upstream, svc.service⟩
  | .tracing _ => none

/-- `configuration.rs` L210-219 `PluginConfiguration`. `services` lists the map in the order in which it
is drained. -/
structure RootConfig where
  services : List (Text × ServiceConfig) := []
  actionSets : List ActionSet := []
  requestData : List (Text × Text) := []
  headerIdentifier : Option Text := none
  tracing : Option Text := none
  defaultLevel : Option Text := none
  descriptorService : Text := "kuadrant-operator-grpc".toList

/-- `factory.rs` L57-66: create the services; each one registers the descriptor it needs. The first
error stops the loop. -/
def createServices {P : Type} (m : Manager P) : List (Text × ServiceConfig) →
    Manager P × Option (List (Text × SvcInst))
  | [] => (m, some [])
  | (name, s) :: rest =>
    match s.instance with
    | none => (m, none)
    | some inst =>
      let m := match inst.descriptor with
        | some key => m.addExpected key
        | none => m
      match createServices m rest with
      | (m, some l) => (m, some ((name, inst) :: l))
      | (m, none) => (m, none)

/-- `factory.rs` L53-142 `try_from`. -/
def RootConfig.tryFrom {P : Type} (parse : Text → Option Expr) (cfg : RootConfig) (m : Manager P) :
    Manager P × Option Factory :=
  match createServices m cfg.services with
  | (m, none) => (m, none)
  | (m, some services) =>
    (m, Factory.tryFrom parse {
      services := mapGet services
      tracingService := cfg.tracing
      headerIdentifier := cfg.headerIdentifier
      requestData := cfg.requestData
      actionSets := cfg.actionSets })

/-- The level of the trace filter, `tracing/mod.rs` L37-49. -/
inductive Level where
  | trace | debug | info | warn | error | off
deriving DecidableEq, Repr

/-- `tracing/mod.rs` L37-49. -/
def otelFilter (useTracing : Bool) (level : Option Text) : Option Level :=
  if useTracing then
    some (if level = some "TRACE".toList then .trace
      else if level = some "DEBUG".toList then .debug
      else if level = some "INFO".toList then .info
      else if level = some "WARN".toList then .warn
      else if level = some "ERROR".toList then .error
      else if level = some "OFF".toList then .off
      else .warn)
  else none

/-- `root_context.rs` L16-21 `FilterRoot`, with the global trace filter (`tracing/mod.rs` L33). `log` is
the history of effects and not part of the Rust structure. -/
structure Root (P : Type) where
  factory : Factory := {}
  manager : Manager P
  tickEnabled : Bool := false
  traceFilter : Option Level := none
  log : List RootEffect := []

namespace Root

variable {P : Type} (lib : DescLib P) (parse : Text → Option Expr)

/-- `root_context.rs` L24-31 `new`. -/
def new : Root P := { manager := Manager.new lib }

/-- `root_context.rs` L33-47 `set_tick_enabled`. `ok`: does the host accept the period? -/
def setTickEnabled (r : Root P) (enable ok : Bool) : Root P :=
  if enable && !r.tickEnabled then (if ok then { r with tickEnabled := true } else r)
  else if !enable && r.tickEnabled then (if ok then { r with tickEnabled := false } else r)
  else r

/-- `fetch_missing` on the root's manager. -/
def fetch (r : Root P) (dispatch : Text → List DescKey → Option Nat) : Root P :=
  let (effects, m) := r.manager.fetchMissing dispatch
  { r with manager := m, log := r.log ++ effects }

/-- `root_context.rs` L49-77 `process_config`: the new state and the answer. -/
def processConfig (r : Root P) (cfg : RootConfig) (dispatch : Text → List DescKey → Option Nat)
    (tickOk : Bool) : Root P × Bool :=
  match cfg.tryFrom parse r.manager with
  | (m, none) => ({ r with manager := m }, false)
  | (m, some factory) =>
    let r := { r with factory := factory, manager := m.setService cfg.descriptorService }
    let dynamic := r.manager.hasExpected
    let r := if dynamic then r.fetch dispatch else r
    (r.setTickEnabled dynamic tickOk, true)

/-- `root_context.rs` L130-160 `on_configure`; `none` if the configuration cannot be read or parsed. The
trace filter is set before the configuration is compiled. -/
def onConfigure (r : Root P) (cfg : Option RootConfig) (dispatch : Text → List DescKey → Option Nat)
    (tickOk : Bool) : Root P × Bool :=
  match cfg with
  | none => (r, false)
  | some cfg =>
    let r := { r with traceFilter := otelFilter cfg.tracing.isSome cfg.defaultLevel }
    r.processConfig parse cfg dispatch tickOk

/-- `root_context.rs` L166-173 `on_tick`. -/
def onTick (r : Root P) (dispatch : Text → List DescKey → Option Nat) : Root P := r.fetch dispatch

/-- `root_context.rs` L79-96 and L177-182: `on_grpc_call_response`. `body` is what the host gives for the
response; `none` if it cannot be read or is empty. -/
def onGrpcResponse (r : Root P) (token status : Nat) (body : Option Bytes) : Root P :=
  let m := if status ≠ 0 then r.manager else match body with
    | none => r.manager
    | some bytes => r.manager.handleResponse lib token bytes
  { r with manager := m.resetPending token, log := r.log ++ [.responded token] }

end Root

/-- An HTTP context: the factory it was created with (`kuadrant_filter.rs` L18-26) and its state once the
request headers have arrived. -/
structure HttpCtx (H : Type) where
  factory : Factory
  filter : Option (Filter H) := none

/-- The virtual machine: the root context and the HTTP contexts by their identifiers. -/
structure Vm (P H : Type) where
  root : Root P
  contexts : List (Nat × HttpCtx H) := []

/-- Callbacks of the virtual machine. -/
inductive VmOp (H : Type) where
  | configure (cfg : Option RootConfig) (dispatch : Text → List DescKey → Option Nat) (tickOk : Bool)
  | tick (dispatch : Text → List DescKey → Option Nat)
  | grpcResponse (token status : Nat) (body : Option Bytes)
  /-- `create_http_context` -/
  | create (id : Nat)
  /-- the request headers of a context -/
  | headers (id : Nat) (host : H)
  /-- a later callback of a context -/
  | event (id : Nat) (e : Event H)

namespace Vm

variable {P H : Type} (lib : DescLib P) (parse : Text → Option Expr) (o : Oracle H)

/-- Change the context with the given identifier. -/
def modify (vm : Vm P H) (id : Nat) (f : HttpCtx H → HttpCtx H) : Vm P H :=
  { vm with contexts := vm.contexts.map fun e => if e.1 = id then (e.1, f e.2) else e }

/-- One callback. `create_http_context` (`root_context.rs` L121-128) hands over the factory in force. -/
def step (vm : Vm P H) : VmOp H → Vm P H
  | .configure cfg dispatch ok => { vm with root := (vm.root.onConfigure parse cfg dispatch ok).1 }
  | .tick dispatch => { vm with root := vm.root.onTick dispatch }
  | .grpcResponse token status body => { vm with root := vm.root.onGrpcResponse lib token status body }
  | .create id => { vm with contexts := mapInsert vm.contexts id { factory := vm.root.factory } }
  | .headers id host => vm.modify id fun c => { c with filter := some (Filter.start o c.factory host) }
  | .event id e => vm.modify id fun c => { c with filter := c.filter.map fun f => f.step o e }

/-- A history of callbacks. -/
def run (ops : List (VmOp H)) : Vm P H := ops.foldl (step lib parse o) { root := Root.new lib }

end Vm

end Verif
