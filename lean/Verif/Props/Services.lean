import Verif.Spec.Services
import Verif.Props.Cause
import Verif.Lemmas.Root
/-!
C70: calls go where the configuration of their service says.
-/
namespace Verif.Props

open Spec

theorem call_inj (k kind : SvcKind) (e a b : Text) (t : Nat) (d deny : Bool) (svc : Svc) :
    some (SvcInst.call k ⟨e, a, b, t⟩ d) = some (.call kind svc deny) ↔
      some k = some kind ∧ some (a, b) = some (svc.service, svc.method) ∧ svc.upstream = e ∧ svc.timeout = t ∧ deny = d := by
  obtain ⟨u, se, me, ti⟩ := svc
  simp only [Option.some.injEq, SvcInst.call.injEq, Svc.mk.injEq, Prod.mk.injEq]
  exact ⟨fun ⟨h1, ⟨h2, h3, h4, h5⟩, h6⟩ => ⟨h1, ⟨h3, h4⟩, h2.symm, h5.symm, h6.symm⟩,
    fun ⟨h1, ⟨h3, h4⟩, h2, h5, h6⟩ => ⟨h1, ⟨h2.symm, h3, h4, h5.symm⟩, h6.symm⟩⟩

theorem instance_call (s : ServiceConfig) (kind : SvcKind) (svc : Svc) (deny : Bool) :
    s.instance = some (.call kind svc deny) ↔ kindOf s.type = some kind ∧ grpcOf s = some (svc.service, svc.method) ∧
      svc.upstream = s.endpoint ∧ svc.timeout = s.timeout ∧ deny = s.deny := by
  obtain ⟨type, endpoint, d, timeout, gs, gm⟩ := s
  unfold ServiceConfig.instance kindOf grpcOf
  cases type
  case dynamic =>
    cases gs <;> cases gm <;> dsimp only
    case some.some => exact call_inj ..
    all_goals exact ⟨fun h => (nomatch h), fun h => (nomatch h.2.1)⟩
  case tracing => exact ⟨fun h => (nomatch h), fun h => (nomatch h.1)⟩
  all_goals dsimp only [Manager.authService, Manager.ratelimitService, Manager.kuadrantRatelimitService]; exact call_inj ..

theorem servicesOf_get (cfgs : List (Text × ServiceConfig)) (l : List (Text × SvcInst)) (h : servicesOf cfgs = some l)
    (name : Text) : mapGet l name = (mapGet cfgs name).bind ServiceConfig.instance := by
  induction cfgs generalizing l with
  | nil => cases h; rfl
  | cons e rest ih =>
    obtain ⟨n, s⟩ := e
    unfold servicesOf at h
    split at h
    · rename_i inst l' h1 h2
      cases h
      have := ih l' h2
      unfold mapGet at this ⊢
      by_cases e : n = name
      · subst e; simp [h1]
      · simp only [List.find?_cons, e, decide_false]; exact this
    · cases h

theorem servicesOf_isSome (cfgs : List (Text × ServiceConfig)) :
    (servicesOf cfgs).isSome ↔ ∀ e ∈ cfgs, e.2.type = .dynamic → e.2.grpcService.isSome ∧ e.2.grpcMethod.isSome := by
  induction cfgs with
  | nil => simp [servicesOf]
  | cons e rest ih =>
    obtain ⟨n, s⟩ := e
    have hi : s.instance.isSome ↔ (s.type = .dynamic → s.grpcService.isSome ∧ s.grpcMethod.isSome) := by
      obtain ⟨type, endpoint, d, timeout, gs, gm⟩ := s
      cases type <;> cases gs <;> cases gm <;> simp [ServiceConfig.instance]
    simp only [List.forall_mem_cons, ← ih, ← hi]
    have hu : servicesOf ((n, s) :: rest) = match s.instance, servicesOf rest with
      | some inst, some l => some ((n, inst) :: l)
      | _, _ => none := rfl
    rw [hu]
    cases s.instance <;> cases servicesOf rest <;> simp

/-- C70: what a configuration compiles to knows exactly the services of the configuration: calls of a service go to its
endpoint, to the gRPC service and method of its type, with its timeout and its failure mode. -/
theorem C70_services (parse : Text → Option Expr) (cfg : RootConfig) (factory : Factory)
    (h : compiled parse cfg = some factory) :
    ∃ pc : PluginConfig, Factory.tryFrom parse pc = some factory ∧ pc.actionSets = cfg.actionSets ∧
      pc.requestData = cfg.requestData ∧ pc.headerIdentifier = cfg.headerIdentifier ∧ pc.tracingService = cfg.tracing ∧
      (∀ name kind svc deny, pc.services name = some (.call kind svc deny) ↔ Configured cfg name kind svc deny) ∧
      (∀ name upstream, pc.services name = some (.tracing upstream) ↔
        ∃ s, mapGet cfg.services name = some s ∧ s.type = .tracing ∧ upstream = some s.endpoint) := by
  unfold compiled at h
  rw [Option.bind_eq_some_iff] at h
  obtain ⟨l, hl, hf⟩ := h
  refine ⟨_, hf, rfl, rfl, rfl, rfl, ?_, ?_⟩
  · intro name kind svc deny
    dsimp only
    rw [servicesOf_get _ _ hl, Option.bind_eq_some_iff]
    unfold Configured
    simp only [instance_call]
  · intro name upstream
    dsimp only
    rw [servicesOf_get _ _ hl, Option.bind_eq_some_iff]
    refine exists_congr fun s => and_congr_right fun _ => ?_
    obtain ⟨type, endpoint, d, timeout, gs, gm⟩ := s
    cases type <;> cases gs <;> cases gm <;> simp [ServiceConfig.instance, eq_comm]

/-- C70: a configuration with a service of the dynamic type that lacks its gRPC service or method is rejected. -/
theorem C70_incomplete (parse : Text → Option Expr) (cfg : RootConfig) (h : ¬Complete cfg) : compiled parse cfg = none := by
  unfold compiled
  cases hl : servicesOf cfg.services with
  | none => rfl
  | some l => exact absurd ((servicesOf_isSome cfg.services).1 (by rw [hl]; rfl)) h

/-- C70: every call of a configured action goes to the endpoint of the service the action names, to the gRPC service and
method of this service's type, with this service's timeout. -/
theorem C70_call {H : Type} (o : Oracle H) (parse : Text → Option Expr) (cfg : RootConfig) (factory : Factory)
    (h : compiled parse cfg = some factory) :
    ∃ pc : PluginConfig, Factory.tryFrom parse pc = some factory ∧ pc.actionSets = cfg.actionSets ∧
      ∀ (host : H) (s : ActionSet), ServedBy o parse pc factory host s →
      ∀ x t, At pc.services s x t → ∀ (events : List (Event H)) guard token svc bytes rid,
        .dispatch x guard token svc bytes rid ∈ (Filter.run o factory host events).log →
        ∃ head service var message replies kind deny, t = .grpc head service var message replies ∧
          Configured cfg service kind svc deny := by
  obtain ⟨pc, h1, h2, -, -, -, h3, -⟩ := C70_services parse cfg factory h
  refine ⟨pc, h1, h2, ?_⟩
  intro host s hs x t hat events guard token svc bytes rid hmem
  obtain ⟨pre, post, hlog⟩ := List.append_of_mem hmem
  obtain ⟨head, service, var, message, replies, _, _, kind, deny, _, _, _, ht, _, hsv, _⟩ :=
    C59_configured o parse pc factory host s hs x t hat events pre post guard token svc bytes rid hlog
  exact ⟨head, service, var, message, replies, kind, deny, ht, (h3 service kind svc deny).1 hsv⟩

/-- C70: the failure mode of an action that names a service is the one of the service. -/
theorem C70_failure_mode (parse : Text → Option Expr) (cfg : RootConfig) (factory : Factory)
    (h : compiled parse cfg = some factory) :
    ∃ pc : PluginConfig, Factory.tryFrom parse pc = some factory ∧ pc.actionSets = cfg.actionSets ∧
      ∀ deny head service var message replies,
        FailureMode pc.services deny (.typed (.grpc head service var message replies)) ↔
          ∃ s, mapGet cfg.services service = some s ∧ s.type ≠ .tracing ∧ deny = s.deny := by
  have hcomplete : Complete cfg := Classical.byContradiction fun hc => by
    rw [C70_incomplete parse cfg hc] at h; cases h
  obtain ⟨pc, h1, h2, -, -, -, h3, -⟩ := C70_services parse cfg factory h
  refine ⟨pc, h1, h2, ?_⟩
  intro deny head service var message replies
  simp only [FailureMode, h3, Configured]
  constructor
  · rintro ⟨kind, svc, s, hs, hk, -, -, -, hd⟩
    exact ⟨s, hs, fun ht => (by rw [ht] at hk; cases hk), hd⟩
  · rintro ⟨s, hs, ht, hd⟩
    have hmem : (service, s) ∈ cfg.services := by
      unfold mapGet at hs
      rw [Option.map_eq_some_iff] at hs
      obtain ⟨e, he, rfl⟩ := hs
      have h1 := List.mem_of_find?_eq_some he
      have h2 := List.find?_some he
      simp only [decide_eq_true_eq] at h2
      rw [← h2]; exact h1
    have hc := hcomplete _ hmem
    have hex : ∃ kind a b, kindOf s.type = some kind ∧ grpcOf s = some (a, b) := by
      obtain ⟨type, endpoint, d, timeout, gs, gm⟩ := s
      cases type
      case tracing => exact absurd rfl ht
      case dynamic =>
        obtain ⟨c1, c2⟩ := hc rfl
        obtain ⟨a, rfl⟩ := Option.isSome_iff_exists.1 c1
        obtain ⟨b, rfl⟩ := Option.isSome_iff_exists.1 c2
        exact ⟨_, _, _, rfl, rfl⟩
      all_goals exact ⟨_, _, _, rfl, rfl⟩
    obtain ⟨kind, a, b, hk, hg⟩ := hex
    exact ⟨kind, ⟨s.endpoint, a, b, s.timeout⟩, s, hs, hk, hg, rfl, rfl, hd⟩

def openAuth : ServiceConfig := { type := .auth, endpoint := "authorino".toList, deny := false, timeout := 7 }

def namedService : ServiceConfig :=
  { type := .dynamic, endpoint := "other".toList, grpcService := some "x.Y".toList, grpcMethod := some "Z".toList }

/-- Two services, one of which fails open with a timeout of its own. -/
def twoServices : RootConfig where
  services := [("a".toList, openAuth), ("d".toList, namedService)]

example : (compiled Demo.parse twoServices).isSome = true := by decide +kernel

example : Configured twoServices "a".toList .auth
    ⟨"authorino".toList, "envoy.service.auth.v3.Authorization".toList, "Check".toList, 7⟩ false :=
  ⟨_, rfl, rfl, rfl, rfl, rfl, rfl⟩

example : ¬Complete { services := [("d".toList, { type := .dynamic, endpoint := [] })] } := by
  intro h
  have := (h _ List.mem_cons_self rfl).1
  cases this

end Verif.Props
