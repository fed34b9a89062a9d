import Verif.Model.Root
/-! What the configuration of a service says about calls of it. -/
namespace Verif.Spec

/-- The gRPC service and method of a service, by its type; services of the dynamic type name their own. -/
def grpcOf (s : ServiceConfig) : Option (Text × Text) :=
  match s.type with
  | .auth => some ("envoy.service.auth.v3.Authorization".toList, "Check".toList)
  | .rateLimit => some ("envoy.service.ratelimit.v3.RateLimitService".toList, "ShouldRateLimit".toList)
  | .rateLimitCheck => some ("kuadrant.service.ratelimit.v1.RateLimitService".toList, "CheckRateLimit".toList)
  | .rateLimitReport => some ("kuadrant.service.ratelimit.v1.RateLimitService".toList, "Report".toList)
  | .tracing => none
  | .dynamic =>
    match s.grpcService, s.grpcMethod with
    | some service, some method => some (service, method)
    | _, _ => none

/-- The kind of calls of a service. -/
def kindOf : ServiceType → Option SvcKind
  | .auth => some .auth
  | .rateLimit => some .rateLimit
  | .rateLimitCheck => some .rateLimitCheck
  | .rateLimitReport => some .rateLimitReport
  | .tracing => none
  | .dynamic => some .dynamic

/-- The configuration has a service of this name, and calls of it are of this kind, go to this upstream, service and
method with this timeout, and fail closed (`deny`) or open. -/
def Configured (cfg : RootConfig) (name : Text) (kind : SvcKind) (svc : Svc) (deny : Bool) : Prop :=
  ∃ s, mapGet cfg.services name = some s ∧ kindOf s.type = some kind ∧ grpcOf s = some (svc.service, svc.method) ∧
    svc.upstream = s.endpoint ∧ svc.timeout = s.timeout ∧ deny = s.deny

/-- Every service of the dynamic type names its gRPC service and method. -/
def Complete (cfg : RootConfig) : Prop :=
  ∀ e ∈ cfg.services, e.2.type = .dynamic → e.2.grpcService.isSome ∧ e.2.grpcMethod.isSome

end Verif.Spec
