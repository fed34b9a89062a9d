import Verif.Model.Root
/-!
What a user can say about descriptors and configurations from the history of the virtual machine.
-/
namespace Verif.Spec

variable {P H : Type}

/-- A successful response of the descriptor service carried these bytes for the service. -/
def Received (lib : DescLib P) (ops : List (VmOp H)) (key : DescKey) (bytes : Bytes) : Prop :=
  ∃ token body ds, VmOp.grpcResponse token 0 (some body) ∈ ops ∧ lib.decode body = some ds ∧
    (key, bytes) ∈ ds

/-- The file descriptor sets that occur: the embedded ones and those received. -/
def Seen (lib : DescLib P) (ops : List (VmOp H)) (bytes : Bytes) : Prop :=
  bytes = lib.ratelimit ∨ bytes = lib.auth ∨ ∃ key, Received lib ops key bytes

/-- No two of the file descriptor sets that occur have the same hash. -/
def NoCollision (lib : DescLib P) (ops : List (VmOp H)) : Prop :=
  ∀ a b, Seen lib ops a → Seen lib ops b → lib.hash a = lib.hash b → a = b

/-- The service was requested under the token and the response has not been handled since. -/
def Outstanding (log : List RootEffect) (key : DescKey) (token : Nat) : Prop :=
  ∃ before upstream keys after, log = before ++ RootEffect.requested upstream keys (some token) :: after ∧
    key ∈ keys ∧ RootEffect.responded token ∉ after

/-- The descriptors embedded in the filter for a service, if any. -/
def embeddedBytes (lib : DescLib P) (service : Text) : Option Bytes :=
  if service = "envoy.service.auth.v3.Authorization".toList then some lib.auth
  else if service = "envoy.service.ratelimit.v3.RateLimitService".toList ∨
    service = "kuadrant.service.ratelimit.v1.RateLimitService".toList then some lib.ratelimit
  else none

/-- The filter's own descriptors of the service can be used. -/
def Usable (lib : DescLib P) (key : DescKey) : Prop :=
  ∃ bytes, embeddedBytes lib key.service = some bytes ∧ (lib.build bytes).isSome

/-- The services a configuration names, if all of them can be created. -/
def servicesOf : List (Text × ServiceConfig) → Option (List (Text × SvcInst))
  | [] => some []
  | (name, s) :: rest =>
    match s.instance, servicesOf rest with
    | some inst, some l => some ((name, inst) :: l)
    | _, _ => none

/-- What a configuration compiles to; `none` if it is rejected. -/
def compiled (parse : Text → Option Expr) (cfg : RootConfig) : Option Factory :=
  (servicesOf cfg.services).bind fun services => Factory.tryFrom parse {
    services := mapGet services
    tracingService := cfg.tracing
    headerIdentifier := cfg.headerIdentifier
    requestData := cfg.requestData
    actionSets := cfg.actionSets }

/-- The configuration needs the descriptor of the service. -/
def Needs (cfg : RootConfig) (key : DescKey) : Prop :=
  ∃ name s kind svc deny, (name, s) ∈ cfg.services ∧ s.instance = some (.call kind svc deny) ∧
    key = ⟨svc.upstream, svc.service⟩

/-- The last configuration of the history that compiles, compiled; the empty one if there is none. -/
def inForce (parse : Text → Option Expr) : List (VmOp H) → Factory :=
  List.foldl (init := {}) fun current op => match op with
    | .configure (some cfg) _ _ => (compiled parse cfg).getD current
    | _ => current

/-- The upstream of the descriptor service: what the last configuration that compiles says. -/
def fetchesFrom (parse : Text → Option Expr) : List (VmOp H) → Option Text :=
  List.foldl (init := none) fun current op => match op with
    | .configure (some cfg) _ _ => if (compiled parse cfg).isSome then some cfg.descriptorService else current
    | _ => current

/-- The later callbacks of one request. -/
def eventsOf (id : Nat) : List (VmOp H) → List (Event H) :=
  List.filterMap fun op => match op with
    | .event id' e => if id' = id then some e else none
    | _ => none

/-- The callback neither creates the context nor hands it request headers. -/
def Later (id : Nat) : VmOp H → Prop
  | .create id' => id' ≠ id
  | .headers id' _ => id' ≠ id
  | _ => True

end Verif.Spec
