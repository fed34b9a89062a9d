import Verif.Model.Legacy
import Verif.Model.Root
/-!
Model of the reading of the configuration, `crates/kuadrant-filter/src/configuration.rs` L19-297 with the
code that `serde` derives for it, and of `crates/wasm-shim/src/filter/root_context.rs` L130-160.

A configuration document is the tree of a JSON text. The order of the entries of an object and repeated
keys are kept. Turning the text into the tree is `serde_json`'s.

Simplification: `serde` also accepts a structure written as an array of its fields, a word such as `"deny"`
written as `{"deny": null}` and, for the `type` of a typed action, the number of the variant. The model
rejects these forms.
-/
namespace Verif

/-- The tree of a JSON text. -/
inductive Doc where
  | null
  | bool (b : Bool)
  | num (t : Text)
  | str (t : Text)
  | arr (l : List Doc)
  | obj (m : List (Text × Doc))

namespace Doc

/-! ## What `serde` derives -/

/-- What an object says about a field: `some none` if the key is missing, `none` (an error, "duplicate
field") if it occurs more than once. -/
def entry? (m : List (Text × Doc)) (key : Text) : Option (Option Doc) :=
  match m.filter (fun e => e.1 = key) with
  | [] => some none
  | [e] => some (some e.2)
  | _ => none

/-- A field without `#[serde(default)]`: "missing field" is an error. -/
def required {α : Type} (m : List (Text × Doc)) (key : Text) (read : Doc → Option α) : Option α :=
  match entry? m key with
  | some (some d) => read d
  | _ => none

/-- A field with `#[serde(default)]`. -/
def defaulted {α : Type} (m : List (Text × Doc)) (key : Text) (fallback : α) (read : Doc → Option α) :
    Option α :=
  match entry? m key with
  | some (some d) => read d
  | some none => some fallback
  | none => none

/-- A field of type `Option<_>`: missing and `null` mean `None`. -/
def optional {α : Type} (m : List (Text × Doc)) (key : Text) (read : Doc → Option α) : Option (Option α) :=
  match entry? m key with
  | some (some .null) => some none
  | some (some d) => (read d).map some
  | some none => some none
  | none => none

/-- All elements or an error. -/
def each {α : Type} (read : Doc → Option α) : List Doc → Option (List α)
  | [] => some []
  | d :: ds =>
    match read d, each read ds with
    | some a, some l => some (a :: l)
    | _, _ => none

/-- `String`. -/
def text : Doc → Option Text
  | .str t => some t
  | _ => none

/-- `bool`. -/
def flag : Doc → Option Bool
  | .bool b => some b
  | _ => none

/-- `Vec<_>`. -/
def list {α : Type} (read : Doc → Option α) : Doc → Option (List α)
  | .arr l => each read l
  | _ => none

/-- `Vec<String>`. -/
def texts : Doc → Option (List Text) := list text

/-- A structure, from an object. -/
def record {α : Type} (read : List (Text × Doc) → Option α) : Doc → Option α
  | .obj m => read m
  | _ => none

/-- The entries of a `HashMap`: all values or an error. -/
def eachEntry {α : Type} (read : Doc → Option α) : List (Text × Doc) → Option (List (Text × α))
  | [] => some []
  | e :: m =>
    match read e.2, eachEntry read m with
    | some a, some l => some ((e.1, a) :: l)
    | _, _ => none

/-- `HashMap<String, _>`: of equal keys the last one counts. -/
def table {α : Type} (read : Doc → Option α) : Doc → Option (List (Text × α))
  | .obj m => (eachEntry read m).map fun l => l.foldl (fun acc e => mapInsert acc e.1 e.2) []
  | _ => none

/-- An enumeration of words (`#[serde(rename_all = "lowercase")]` or `rename`). -/
def word {α : Type} (words : List (String × α)) : Doc → Option α
  | .str t => (words.find? fun w => w.1.toList = t).map Prod.snd
  | _ => none

end Doc

/-! ## Services -/

namespace Doc

/-- `configuration.rs` L181-193 `ServiceType`. -/
def serviceType : Doc → Option ServiceType := word [
  ("auth", .auth), ("ratelimit", .rateLimit), ("ratelimit-check", .rateLimitCheck),
  ("ratelimit-report", .rateLimitReport), ("tracing", .tracing), ("dynamic", .dynamic)]

/-- `configuration.rs` L173-179 `FailureMode`; `true` is `Deny`. -/
def failureMode : Doc → Option Bool := word [("deny", true), ("allow", false)]

/-- `configuration.rs` L268-297 `TimeoutVisitor`. `duration` is `cel::functions::time::duration`, in
nanoseconds; a negative duration is an error of `to_std`. -/
def timeout (duration : Text → Option Int) : Doc → Option Nat
  | .str t =>
    match duration t with
    | some d => if 0 ≤ d then some d.toNat else none
    | none => none
  | _ => none

/-- `configuration.rs` L253-258: 20 ms. -/
def defaultTimeout : Nat := 20000000

/-- `configuration.rs` L238-250 `Service`. -/
def service (duration : Text → Option Int) : Doc → Option ServiceConfig := record fun m =>
  match required m "type".toList serviceType, required m "endpoint".toList text,
    required m "failureMode".toList failureMode,
    defaulted m "timeout".toList defaultTimeout (timeout duration),
    optional m "grpcService".toList text, optional m "grpcMethod".toList text with
  | some type, some endpoint, some deny, some timeout, some grpcService, some grpcMethod =>
    some { type, endpoint, deny, timeout, grpcService, grpcMethod }
  | _, _, _, _, _, _ => none

/-! ## Typed actions -/

/-- `configuration.rs` L44-50 `Execution`; `true` is `Sequential`. -/
def execution : Doc → Option Bool := word [("parallel", false), ("sequential", true)]

/-- `configuration.rs` L95-100 `HeadersTarget`. -/
def target : Doc → Option Target := word [("request", .request), ("response", .response)]

/-- The fields of a typed action that are not those of its operation (`configuration.rs` L40-65).
`sources` must be a list of texts but only feed a span. -/
def typedHead (m : List (Text × Doc)) : Option TypedHead :=
  match required m "predicate".toList text, required m "terminal".toList flag,
    defaulted m "isGuard".toList true flag, defaulted m "execution".toList false execution,
    defaulted m "sources".toList [] texts with
  | some predicate, some terminal, some guard, some sequential, some _ =>
    some { predicate, terminal, guard, sequential }
  | _, _, _, _, _ => none

/-- The kinds of operation, `configuration.rs` L67-75. -/
inductive Kind where
  | grpc | deny | headers | store | fail
deriving DecidableEq

def kind : Doc → Option Kind := word [
  ("grpc", .grpc), ("deny", .deny), ("headers", .headers), ("store", .store), ("fail", .fail)]

/-- What an object says about `onReply`, given the results for all entries. -/
def replies? (m : List (Text × Doc)) (table : List (Option (List TypedAction))) :
    Option (List TypedAction) :=
  match ((m.map Prod.fst).zip table).filter (fun e => e.1 = "onReply".toList) with
  | [] => some []
  | [e] => e.2
  | _ => none

/-- `configuration.rs` L52-122 `TypedAction` with its flattened operation. `table` gives for each entry of
the object its value as a list of typed actions, if it is one; only the one for `onReply` is used. The
label and the log message only feed spans and logs. -/
def typedOf (m : List (Text × Doc)) (table : List (Option (List TypedAction))) : Option TypedAction :=
  match typedHead m, required m "type".toList kind with
  | some head, some .grpc =>
    match required m "var".toList text, required m "service".toList text,
      required m "messageBuilder".toList text, replies? m table,
      defaulted m "label".toList [] text with
    | some var, some service, some message, some onReply, some _ =>
      some (.grpc head service var message onReply)
    | _, _, _, _, _ => none
  | some head, some .deny =>
    match required m "denyWith".toList text with
    | some denyWith => some (.deny head denyWith)
    | none => none
  | some head, some .headers =>
    match required m "target".toList target, required m "headers".toList text with
    | some target, some value => some (.headers head target value)
    | _, _ => none
  | some head, some .store =>
    match required m "path".toList text, required m "value".toList text,
      defaulted m "exportToHost".toList false flag with
    | some path, some value, some exportToHost => some (.store head path value exportToHost)
    | _, _, _ => none
  | some head, some .fail =>
    match required m "logMessage".toList text with
    | some _ => some (.fail head)
    | none => none
  | _, _ => none

mutual
/-- A typed action (`configuration.rs` L52-122). -/
def typed : Doc → Option TypedAction
  | .obj m => typedOf m (replyTable m)
  | .null => none
  | .bool _ => none
  | .num _ => none
  | .str _ => none
  | .arr _ => none

/-- Each entry as a list of typed actions. -/
def replyTable : List (Text × Doc) → List (Option (List TypedAction))
  | [] => []
  | e :: m => replyEntry e :: replyTable m

def replyEntry : Text × Doc → Option (List TypedAction)
  | (_, .arr l) => typedEach l
  | (_, .null) => none
  | (_, .bool _) => none
  | (_, .num _) => none
  | (_, .str _) => none
  | (_, .obj _) => none

/-- A list of typed actions. -/
def typedEach : List Doc → Option (List TypedAction)
  | [] => some []
  | d :: ds =>
    match typed d, typedEach ds with
    | some a, some l => some (a :: l)
    | _, _ => none
end

/-! ## Legacy actions -/

/-- The content of `static` and `expression` (`configuration.rs` L146-156). -/
def keyAndValue : Doc → Option (Text × Text) := record fun m =>
  match required m "key".toList text, required m "value".toList text with
  | some k, some v => some (k, v)
  | _, _ => none

/-- `configuration.rs` L158-171 `DataItem`: the first known entry is the item and nothing else may be
there (`deny_unknown_fields`). -/
def dataItem : Doc → Option Legacy.DataItem := record fun m =>
  match m with
  | [(key, d)] =>
    if key = "static".toList then (keyAndValue d).map fun e => .static e.1 e.2
    else if key = "expression".toList then (keyAndValue d).map fun e => .expression e.1 e.2
    else none
  | _ => none

/-- `configuration.rs` L19-25 `ConditionalData`. -/
def conditionalData : Doc → Option Legacy.ConditionalData := record fun m =>
  match defaulted m "predicates".toList [] texts, defaulted m "data".toList [] (list dataItem) with
  | some predicates, some data => some { predicates, data }
  | _, _ => none

/-- `configuration.rs` L27-38 `Action`. -/
def legacy : Doc → Option Legacy.LegacyAction := record fun m =>
  match required m "service".toList text, required m "scope".toList text,
    defaulted m "predicates".toList [] texts,
    defaulted m "conditionalData".toList [] (list conditionalData),
    defaulted m "sources".toList [] texts with
  | some service, some scope, some predicates, some conditionalData, some _ =>
    some { service, scope, predicates, conditionalData }
  | _, _, _, _, _ => none

end Doc

/-- `configuration.rs` L124-129 `ActionConfig`, before the translation of legacy actions. -/
inductive DocAction where
  | typed (a : TypedAction)
  | legacy (a : Legacy.LegacyAction)

/-- `configuration.rs` L138-144 `ActionSet` with L131-136 `RouteRuleConditions`. -/
structure DocSet where
  name : Text
  hostnames : List Text
  predicates : List Text
  actions : List DocAction

/-- `configuration.rs` L208-219 `PluginConfiguration` with L195-206 `Observability` and `Tracing`. -/
structure Document where
  requestData : List (Text × Text)
  services : List (Text × ServiceConfig)
  actionSets : List DocSet
  httpHeaderIdentifier : Option Text
  defaultLevel : Option Text
  tracing : Option Text
  descriptorService : Text

namespace Doc

/-- `configuration.rs` L124-129: `#[serde(untagged)]`, the first variant that can be read. -/
def action (d : Doc) : Option DocAction :=
  match typed d with
  | some a => some (.typed a)
  | none => (legacy d).map .legacy

/-- `configuration.rs` L131-136 `RouteRuleConditions`. -/
def conditions : Doc → Option (List Text × List Text) := record fun m =>
  match required m "hostnames".toList texts, defaulted m "predicates".toList [] texts with
  | some hostnames, some predicates => some (hostnames, predicates)
  | _, _ => none

/-- `configuration.rs` L138-144 `ActionSet`. -/
def actionSet : Doc → Option DocSet := record fun m =>
  match required m "name".toList text, required m "routeRuleConditions".toList conditions,
    required m "actions".toList (list action) with
  | some name, some (hostnames, predicates), some actions => some { name, hostnames, predicates, actions }
  | _, _, _ => none

/-- `configuration.rs` L203-206 `Tracing`. -/
def tracing : Doc → Option Text := record fun m => required m "service".toList text

/-- `configuration.rs` L195-201 `Observability`. -/
def observability : Doc → Option (Option Text × Option Text × Option Text) := record fun m =>
  match optional m "httpHeaderIdentifier".toList text, optional m "defaultLevel".toList text,
    optional m "tracing".toList tracing with
  | some header, some level, some tracing => some (header, level, tracing)
  | _, _, _ => none

/-- `configuration.rs` L208-223 `PluginConfiguration`. -/
def configuration (duration : Text → Option Int) : Doc → Option Document := record fun m =>
  match defaulted m "requestData".toList [] (table text),
    required m "services".toList (table (service duration)),
    required m "actionSets".toList (list actionSet),
    defaulted m "observability".toList (none, none, none) observability,
    defaulted m "descriptorService".toList "kuadrant-operator-grpc".toList text with
  | some requestData, some services, some actionSets, some (header, level, tracing), some descriptorService =>
    some { requestData, services, actionSets, httpHeaderIdentifier := header, defaultLevel := level, tracing,
           descriptorService }
  | _, _, _, _, _ => none

end Doc

/-! ## From the document to the configuration in force -/

/-- Comparison of pairs of texts (`factory.rs` L90). -/
def pairLe (a b : Text × Text) : Bool := if a.1 = b.1 then textLe a.2 b.2 else textLe a.1 b.1

/-- Insertion that keeps equal elements in their order. -/
def insertBy {α : Type} (le : α → α → Bool) (a : α) : List α → List α
  | [] => [a]
  | b :: l => if le a b then a :: b :: l else b :: insertBy le a l

/-- `slice::sort_by`, which is stable. -/
def sortBy {α : Type} (le : α → α → Bool) : List α → List α
  | [] => []
  | a :: l => insertBy le a (sortBy le l)

/-- `factory.rs` L75-90: the request data that can be parsed, by domain and field. -/
def Document.data (alphabetic : Char → Bool) (parse : Text → Option Expr) (d : Document) : Legacy.RequestData :=
  sortBy (fun a b => pairLe a.1 b.1)
    ((d.requestData.filter fun e => (parse e.2).isSome).map fun e => (domainAndField alphabetic e.1, e.2))

/-- `blueprint.rs` L301-318: legacy actions are translated with the request data. -/
def DocAction.config (data : Legacy.RequestData) : DocAction → ActionConfig
  | .typed a => .typed a
  | .legacy a => a.config data

def DocSet.config (data : Legacy.RequestData) (s : DocSet) : ActionSet :=
  { name := s.name, hostnames := s.hostnames, predicates := s.predicates, actions := s.actions.map (·.config data) }

/-- The configuration as `factory.rs` uses it. The services are drained in the order of the document;
in the code the order is that of the hash map. The names of the request data play no role any more. -/
def Document.root (alphabetic : Char → Bool) (parse : Text → Option Expr) (d : Document) : RootConfig :=
  let data := d.data alphabetic parse
  { services := d.services
    actionSets := d.actionSets.map (·.config data)
    requestData := data.map fun e => (e.1.1 ++ '.' :: e.1.2, e.2)
    headerIdentifier := d.httpHeaderIdentifier
    tracing := d.tracing
    defaultLevel := d.defaultLevel
    descriptorService := d.descriptorService }

/-- `root_context.rs` L130-160 `on_configure` with the document; `none` if there is none or it is not
JSON. -/
def Root.onConfigureDoc {P : Type} (parse : Text → Option Expr) (alphabetic : Char → Bool)
    (duration : Text → Option Int) (r : Root P) (doc : Option Doc)
    (dispatch : Text → List DescKey → Option Nat) (tickOk : Bool) : Root P × Bool :=
  r.onConfigure parse ((doc.bind (Doc.configuration duration)).map (·.root alphabetic parse)) dispatch tickOk

end Verif
