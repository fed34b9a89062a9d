import Verif.Lemmas.WireRequest
import Verif.Props.Request
/-!
C80: the messages that the rate limiter and the authorization service are sent say what C76 says they are asked.
-/
namespace Verif.Props
open Verif Verif.Spec Verif.Legacy Verif.Cel

variable {L : ProtoLib} {E : Ast → Option Val} {P : Text → Ast}

/-- The query for true facts. -/
theorem facts_check {scope : Text} {data : RequestData} {t : CheckFacts} (h : TrueFacts E P scope data t) :
    Checks E P scope data (checkQuery t) where
  time := h.time
  http := .cons ⟨rfl, h.host⟩ (.cons ⟨rfl, h.method⟩ (.cons ⟨rfl, h.scheme⟩ (.cons ⟨rfl, h.path⟩
    (.cons ⟨rfl, h.protocol⟩ (.cons ⟨rfl, h.headers⟩ .nil)))))
  destination := h.destination
  source := h.source
  scope := h.scope
  domains := by
    rw [show (checkQuery t).metadata.map Prod.fst = t.metadata.map Prod.fst from by
      simp only [checkQuery, List.map_map]; rfl]
    exact h.domains
  metadata := by
    intro d hd
    obtain ⟨d', hd', rfl⟩ := List.mem_map.1 hd
    have := each_both (S := fun (r : (Text × Text) × Text) (f : Text × Val) => f.1 = r.1.2 ∧ DataValue E P r.2 f.2) id
      (fun x : Text × Datum => (x.1, datumValue x.2)) (fun r f hf => ⟨hf.1, by
        rcases f with ⟨k, d⟩
        cases hf.2 with
        | expression h => exact .expression h
        | text h hv ht => exact .value h hv ht⟩) (h.metadata d' hd')
    rwa [List.map_id] at this

variable {H : Type} (o : Oracle H)

/-- C80: over a whole request, every call sent to a rate limit service for a translated action carries a message that
asks for the configured domain, hits and descriptors, and nothing else. -/
theorem C80_limit_sent (parse : Text → Option Expr) (cfg : PluginConfig) (factory : Factory) (host : H)
    (s : ActionSet) (hs : ServedBy o parse cfg factory host s) (i : Nat) (a : LegacyAction) (data : RequestData)
    (hi : s.actions[i]? = some (a.config data)) (kind : SvcKind) (svc : Svc) (deny : Bool)
    (hsvc : cfg.services a.service = some (.call kind svc deny))
    (hk : kind = .rateLimit ∨ kind = .rateLimitCheck ∨ kind = .rateLimitReport)
    (hp : ProperConfig P a.conditionalData (availableTo kind data))
    (events : List (Event H)) (pre post : List Effect) (guard : Bool) (token : Nat) (svc' : Svc) (bytes : Bytes)
    (rid : Text)
    (hlog : (Filter.run o factory host events).log = pre ++ .dispatch (natText i) guard token svc' bytes rid :: post)
    (hE : Evaluator E)
    (hv : ValuedBy o (Acting o factory host events) parse pre (natText i) (predicateOf (translate a data kind))
      (requestOf (translate a data kind)) E)
    (q : LimitQuery) (hq : Queries E P a.scope a.conditionalData (availableTo kind data) q)
    (hG : GoodDescs L) (hR : RequestDescs L) (wire : ProtoVal → Bytes)
    (henc : ∀ c v, o.encode c svc v = (toMessage L v limitRequestName).map wire) :
    svc' = svc ∧ ∃ p, bytes = wire p ∧ limitOn q p := by
  obtain ⟨h1, c, h2⟩ := C76_limit_sent o parse cfg factory host s hs i a data hi kind svc deny hsvc hk P hp events pre post
    guard token svc' bytes rid hlog E hE hv q hq
  obtain ⟨p, h3, h4⟩ := limit_made hG hR q
  rw [henc, h3] at h2
  exact ⟨h1, p, (Option.some.inj h2).symm, h4⟩

/-- C80: over a whole request, every call sent to an authorization service for a translated action carries a message
that tells the facts of the moment, the scope and the request data, and nothing else. -/
theorem C80_check_sent (parse : Text → Option Expr) (cfg : PluginConfig) (factory : Factory) (host : H)
    (s : ActionSet) (hs : ServedBy o parse cfg factory host s) (i : Nat) (a : LegacyAction) (data : RequestData)
    (hi : s.actions[i]? = some (a.config data)) (svc : Svc) (deny : Bool)
    (hsvc : cfg.services a.service = some (.call .auth svc deny))
    (hp : ∀ d ∈ availableTo .auth data, Proper P d.2)
    (hn : ((availableTo .auth data).map Prod.fst).Nodup)
    (events : List (Event H)) (pre post : List Effect) (guard : Bool) (token : Nat) (svc' : Svc) (bytes : Bytes)
    (rid : Text)
    (hlog : (Filter.run o factory host events).log = pre ++ .dispatch (natText i) guard token svc' bytes rid :: post)
    (hE : Evaluator E)
    (hv : ValuedBy o (Acting o factory host events) parse pre (natText i) (predicateOf (translate a data .auth))
      (requestOf (translate a data .auth)) E)
    (t : CheckFacts) (ht : TrueFacts E P a.scope (availableTo .auth data) t)
    (hG : GoodDescs L) (hR : RequestDescs L) (wire : ProtoVal → Bytes)
    (henc : ∀ c v, o.encode c svc v = (toMessage L v checkRequestName).map wire) :
    svc' = svc ∧ ∃ p, bytes = wire p ∧ t.On p := by
  obtain ⟨h1, c, h2⟩ := C76_check_sent o parse cfg factory host s hs i a data hi svc deny hsvc P hp hn events pre post
    guard token svc' bytes rid hlog E hE hv _ (facts_check ht)
  obtain ⟨p, h3, h4⟩ := check_made hG hR t ht.nanos ht.distinct (ht.domains.sorted.imp fun h => h.2) fun d hd => by
    rw [each_fst (fun r => r.1.2) (fun a b h => h.1) (ht.metadata d hd)]
    exact nodup_fields hn d.1
  rw [henc, h3] at h2
  exact ⟨h1, p, (Option.some.inj h2).symm, h4⟩

end Verif.Props
