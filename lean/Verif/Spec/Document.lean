import Verif.Model.Document
/-!
The meaning of a configuration document, as a user writes it: which key gives which setting, which keys may
be left out and what holds then.
-/
namespace Verif.Spec

/-- Exactly one entry of the object has this key, and this is its value. -/
def Gives (m : List (Text × Doc)) (key : String) (d : Doc) : Prop :=
  ∃ pre post, m = pre ++ (key.toList, d) :: post ∧ ∀ e ∈ pre ++ post, e.1 ≠ key.toList

/-- No entry of the object has this key. -/
def Lacks (m : List (Text × Doc)) (key : String) : Prop := ∀ e ∈ m, e.1 ≠ key.toList

/-- A text. -/
def GivesText (m : List (Text × Doc)) (key : String) (t : Text) : Prop := Gives m key (.str t)

/-- One of several given words. -/
def GivesWord (m : List (Text × Doc)) (key word : String) : Prop := GivesText m key word.toList

/-- A list of texts, or nothing for the empty list. -/
def GivesTexts (m : List (Text × Doc)) (key : String) (ts : List Text) : Prop :=
  Gives m key (.arr (ts.map .str)) ∨ Lacks m key ∧ ts = []

/-- A flag with the value it has when it is left out. -/
def GivesFlag (m : List (Text × Doc)) (key : String) (otherwise b : Bool) : Prop :=
  Gives m key (.bool b) ∨ Lacks m key ∧ b = otherwise

/-- A text that may be left out or be `null`. -/
def MayGiveText (m : List (Text × Doc)) (key : String) : Option Text → Prop
  | some t => GivesText m key t
  | none => Lacks m key ∨ Gives m key .null

/-! ## Services -/

def typeWord : ServiceType → String
  | .auth => "auth"
  | .rateLimit => "ratelimit"
  | .rateLimitCheck => "ratelimit-check"
  | .rateLimitReport => "ratelimit-report"
  | .tracing => "tracing"
  | .dynamic => "dynamic"

/-- A service. The failure mode has to be written; the timeout is 20 ms if it is left out. `duration` gives
the meaning of a duration text in nanoseconds. -/
structure IsService (duration : Text → Option Int) (m : List (Text × Doc)) (s : ServiceConfig) : Prop where
  type : GivesWord m "type" (typeWord s.type)
  endpoint : GivesText m "endpoint" s.endpoint
  failureMode : GivesWord m "failureMode" (if s.deny then "deny" else "allow")
  timeout : (∃ t, GivesText m "timeout" t ∧ duration t = some (s.timeout : Int)) ∨
    Lacks m "timeout" ∧ s.timeout = 20 * 1000 * 1000
  grpcService : MayGiveText m "grpcService" s.grpcService
  grpcMethod : MayGiveText m "grpcMethod" s.grpcMethod

/-! ## Actions -/

/-- What typed actions have in common. An action holds back the traffic and runs in parallel unless the
document says otherwise; whether it ends the pipeline has to be written. -/
structure IsHead (m : List (Text × Doc)) (h : TypedHead) : Prop where
  predicate : GivesText m "predicate" h.predicate
  terminal : Gives m "terminal" (.bool h.terminal)
  guard : GivesFlag m "isGuard" true h.guard
  execution : GivesWord m "execution" (if h.sequential then "sequential" else "parallel") ∨
    Lacks m "execution" ∧ h.sequential = false
  sources : ∃ ts, GivesTexts m "sources" ts

mutual
/-- A typed action. -/
inductive IsTyped : List (Text × Doc) → TypedAction → Prop
  | call {m h service var message l replies} : IsHead m h → GivesWord m "type" "grpc" →
      GivesText m "service" service → GivesText m "var" var → GivesText m "messageBuilder" message →
      (Lacks m "label" ∨ ∃ t, GivesText m "label" t) → Gives m "onReply" (.arr l) → AreTyped l replies →
      IsTyped m (.grpc h service var message replies)
  | callOnly {m h service var message} : IsHead m h → GivesWord m "type" "grpc" →
      GivesText m "service" service → GivesText m "var" var → GivesText m "messageBuilder" message →
      (Lacks m "label" ∨ ∃ t, GivesText m "label" t) → Lacks m "onReply" →
      IsTyped m (.grpc h service var message [])
  | deny {m h denyWith} : IsHead m h → GivesWord m "type" "deny" → GivesText m "denyWith" denyWith →
      IsTyped m (.deny h denyWith)
  | headers {m h target value} : IsHead m h → GivesWord m "type" "headers" →
      GivesWord m "target" (match target with | .request => "request" | .response => "response") →
      GivesText m "headers" value → IsTyped m (.headers h target value)
  | store {m h path value exportToHost} : IsHead m h → GivesWord m "type" "store" → GivesText m "path" path →
      GivesText m "value" value → GivesFlag m "exportToHost" false exportToHost →
      IsTyped m (.store h path value exportToHost)
  | fail {m h t} : IsHead m h → GivesWord m "type" "fail" → GivesText m "logMessage" t → IsTyped m (.fail h)

/-- A list of typed actions. -/
inductive AreTyped : List Doc → List TypedAction → Prop
  | nil : AreTyped [] []
  | cons {m a l as} : IsTyped m a → AreTyped l as → AreTyped (.obj m :: l) (a :: as)
end

/-- A list of objects, or nothing for the empty list. -/
inductive Objects {α : Type} (Is : List (Text × Doc) → α → Prop) : List Doc → List α → Prop
  | nil : Objects Is [] []
  | cons {m a l as} : Is m a → Objects Is l as → Objects Is (.obj m :: l) (a :: as)

def GivesObjects {α : Type} (Is : List (Text × Doc) → α → Prop) (m : List (Text × Doc)) (key : String)
    (as : List α) : Prop :=
  (∃ l, Gives m key (.arr l) ∧ Objects Is l as) ∨ Lacks m key ∧ as = []

/-- A data item is an object with a single entry, `static` or `expression`. -/
inductive IsItem : List (Text × Doc) → Legacy.DataItem → Prop
  | static {m k v} : GivesText m "key" k → GivesText m "value" v →
      IsItem [("static".toList, .obj m)] (.static k v)
  | expression {m k v} : GivesText m "key" k → GivesText m "value" v →
      IsItem [("expression".toList, .obj m)] (.expression k v)

structure IsConditional (m : List (Text × Doc)) (c : Legacy.ConditionalData) : Prop where
  predicates : GivesTexts m "predicates" c.predicates
  data : GivesObjects IsItem m "data" c.data

/-- A legacy action. -/
structure IsLegacy (m : List (Text × Doc)) (a : Legacy.LegacyAction) : Prop where
  service : GivesText m "service" a.service
  scope : GivesText m "scope" a.scope
  predicates : GivesTexts m "predicates" a.predicates
  conditionalData : GivesObjects IsConditional m "conditionalData" a.conditionalData
  sources : ∃ ts, GivesTexts m "sources" ts

/-- An action is a typed one if it can be read as such, otherwise a legacy one. -/
inductive IsAction : List (Text × Doc) → DocAction → Prop
  | typed {m a} : IsTyped m a → IsAction m (.typed a)
  | legacy {m a} : (∀ t, ¬ IsTyped m t) → IsLegacy m a → IsAction m (.legacy a)

/-! ## The whole document -/

/-- A set of actions, with the conditions in an object of their own. -/
structure IsSet (m : List (Text × Doc)) (s : DocSet) : Prop where
  name : GivesText m "name" s.name
  conditions : ∃ r, Gives m "routeRuleConditions" (.obj r) ∧
    Gives r "hostnames" (.arr (s.hostnames.map .str)) ∧ GivesTexts r "predicates" s.predicates
  actions : ∃ l, Gives m "actions" (.arr l) ∧ Objects IsAction l s.actions

/-- The last entry with this key. -/
def LastEntry (m : List (Text × Doc)) (key : Text) (d : Doc) : Prop :=
  ∃ pre post, m = pre ++ (key, d) :: post ∧ ∀ e ∈ post, e.1 ≠ key

/-- A table: all values have to be meaningful, the last one counts for each key. -/
structure IsTable {α : Type} (Is : Doc → α → Prop) (m : List (Text × Doc)) (l : List (Text × α)) : Prop where
  all : ∀ e ∈ m, ∃ a, Is e.2 a
  unique : (l.map Prod.fst).Nodup
  entries : ∀ k a, (k, a) ∈ l ↔ ∃ d, LastEntry m k d ∧ Is d a

/-- The settings for logs and traces. -/
structure IsObservability (m : List (Text × Doc)) (c : Document) : Prop where
  header : MayGiveText m "httpHeaderIdentifier" c.httpHeaderIdentifier
  level : MayGiveText m "defaultLevel" c.defaultLevel
  tracing : match c.tracing with
    | some service => ∃ t, Gives m "tracing" (.obj t) ∧ GivesText t "service" service
    | none => Lacks m "tracing" ∨ Gives m "tracing" .null

/-- The whole configuration. -/
structure IsConfiguration (duration : Text → Option Int) (m : List (Text × Doc)) (c : Document) : Prop where
  requestData : (∃ t, Gives m "requestData" (.obj t) ∧ IsTable (fun d a => d = .str a) t c.requestData) ∨
    Lacks m "requestData" ∧ c.requestData = []
  services : ∃ t, Gives m "services" (.obj t) ∧
    IsTable (fun d a => ∃ s, d = .obj s ∧ IsService duration s a) t c.services
  actionSets : ∃ l, Gives m "actionSets" (.arr l) ∧ Objects IsSet l c.actionSets
  observability : (∃ t, Gives m "observability" (.obj t) ∧ IsObservability t c) ∨
    Lacks m "observability" ∧ c.httpHeaderIdentifier = none ∧ c.defaultLevel = none ∧ c.tracing = none
  descriptorService : GivesText m "descriptorService" c.descriptorService ∨
    Lacks m "descriptorService" ∧ c.descriptorService = "kuadrant-operator-grpc".toList

/-- Two configurations that only differ in the order of their tables, which has no meaning. -/
structure SameConfiguration (c c' : Document) : Prop where
  requestData : c.requestData.Perm c'.requestData
  services : c.services.Perm c'.services
  rest : { c with requestData := [], services := [] } = { c' with requestData := [], services := [] }

/-- The same document with the entries of objects in another order (entries with the same key keep theirs). -/
inductive Reordered : Doc → Doc → Prop
  | refl (d) : Reordered d d
  | swap (pre a b post) : a.1 ≠ b.1 → Reordered (.obj (pre ++ a :: b :: post)) (.obj (pre ++ b :: a :: post))
  | entry (pre k post) {d d'} : Reordered d d' →
      Reordered (.obj (pre ++ (k, d) :: post)) (.obj (pre ++ (k, d') :: post))
  | element (pre post) {d d'} : Reordered d d' → Reordered (.arr (pre ++ d :: post)) (.arr (pre ++ d' :: post))
  | trans {d d' d''} : Reordered d d' → Reordered d' d'' → Reordered d d''

end Verif.Spec
