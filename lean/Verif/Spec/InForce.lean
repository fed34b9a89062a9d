import Verif.Spec.Document
import Verif.Spec.Services
import Verif.Spec.Routing
import Verif.Spec.Observability
import Verif.Spec.Cel
/-!
What a configuration document puts in force.
-/
namespace Verif.Spec
open Cel (Each)

/-- The key of request data has a domain and a field, or is a field without a domain. -/
def KeyParts (alphabetic : Char → Bool) (key domain field : Text) : Prop :=
  domain ≠ [] ∧ CutAtLastDot alphabetic key domain field ∨
  domain = [] ∧ field = key ∧ ∀ d f, d ≠ [] → ¬CutAtLastDot alphabetic key d f

/-- The request data of a document: those whose expressions can be compiled, ordered by domain and then field. -/
structure DataOf (alphabetic : Char → Bool) (parse : Text → Option Expr) (c : Document)
    (data : Legacy.RequestData) : Prop where
  entries : ∀ domain field e, ((domain, field), e) ∈ data ↔
    ∃ key, (key, e) ∈ c.requestData ∧ (parse e).isSome = true ∧ KeyParts alphabetic key domain field
  order : data.Pairwise fun a b => a.1 ≠ b.1 ∧
    (a.1.1 = b.1.1 ∧ textLe a.1.2 b.1.2 = true ∨ a.1.1 ≠ b.1.1 ∧ textLe a.1.1 b.1.1 = true)

/-- Typed actions are taken over, legacy actions are translated with the request data. -/
inductive ActionFrom (data : Legacy.RequestData) : DocAction → ActionConfig → Prop
  | typed (t) : ActionFrom data (.typed t) (.typed t)
  | legacy (a) : ActionFrom data (.legacy a) (.legacy a.service (Legacy.translate a data))

/-- Name, hostnames and predicates of an action set are taken over. -/
structure SetFrom (data : Legacy.RequestData) (d : DocSet) (s : ActionSet) : Prop where
  name : s.name = d.name
  hostnames : s.hostnames = d.hostnames
  predicates : s.predicates = d.predicates
  actions : Each (ActionFrom data) d.actions s.actions

/-- The settings that requests are served with are those of the document. -/
structure InForce (c : Document) (data : Legacy.RequestData) (pc : PluginConfig) : Prop where
  actionSets : Each (SetFrom data) c.actionSets pc.actionSets
  requestData : pc.requestData.map Prod.snd = data.map Prod.snd
  header : pc.headerIdentifier = c.httpHeaderIdentifier
  tracing : pc.tracingService = c.tracing
  calls : ∀ name kind svc deny, pc.services name = some (.call kind svc deny) ↔
    Configured { services := c.services } name kind svc deny
  tracers : ∀ name upstream, pc.services name = some (.tracing upstream) ↔
    ∃ s, mapGet c.services name = some s ∧ s.type = .tracing ∧ upstream = some s.endpoint

end Verif.Spec
