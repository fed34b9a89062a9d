import Verif.Model.Blueprint
/-!
Model of `crates/kuadrant-filter/src/configuration/legacy_translation.rs`: the translation of legacy actions
into typed ones. The results are texts in the Common Expression Language.
-/
namespace Verif.Legacy

/-- A string literal of the code. -/
def lit (s : String) : Text := s.toList

/-- `str::replace` of one character. -/
def replaceChar (c : Char) (by' : Text) (t : Text) : Text := t.flatMap fun x => if x = c then by' else [x]

/-- `legacy_translation.rs` L6-12 `escape_cel_string`. -/
def escape (t : Text) : Text :=
  replaceChar '\t' ['\\', 't'] <| replaceChar '\r' ['\\', 'r'] <| replaceChar '\n' ['\\', 'n'] <|
    replaceChar '"' ['\\', '"'] <| replaceChar '\\' ['\\', '\\'] t

/-- A quoted literal, `format!(r#""{}""#, escape_cel_string(..))`. -/
def quoted (t : Text) : Text := '"' :: escape t ++ ['"']

/-- `Vec<String>::join`. -/
def join (sep : Text) : List Text → Text
  | [] => []
  | [t] => t
  | t :: ts => t ++ sep ++ join sep ts

/-- `format!("({})", p)`. -/
def parens (t : Text) : Text := '(' :: t ++ [')']

/-- `legacy_translation.rs` L14-24 `join_predicates`. -/
def joinPredicates (predicates : List Text) (op : Text) : Text :=
  match predicates with
  | [] => lit "true"
  | [p] => p
  | ps => join (' ' :: op ++ [' ']) (ps.map parens)

/-- `legacy_translation.rs` L26-28 `build_action_predicate`. -/
def actionPredicate (predicates : List Text) : Text := joinPredicates predicates (lit "&&")

/-- `configuration.rs` L146-171 `DataItem`. -/
inductive DataItem where
  | static (key value : Text)
  | expression (key value : Text)

def DataItem.key : DataItem → Text
  | static k _ => k
  | expression k _ => k

/-- `configuration.rs` L20-26 `ConditionalData`. -/
structure ConditionalData where
  predicates : List Text := []
  data : List DataItem := []

/-- `configuration.rs` L28-39 `Action`; `sources` only feed a span. -/
structure LegacyAction where
  service : Text
  scope : Text
  predicates : List Text := []
  conditionalData : List ConditionalData := []

/-- Request data: domain, field and expression. -/
abbrev RequestData := List ((Text × Text) × Text)

/-- `legacy_translation.rs` L33-41. -/
def isKnownAttr (i : DataItem) : Bool :=
  i.key = lit "ratelimit.domain" || i.key = lit "ratelimit.hits_addend"

/-- `legacy_translation.rs` L50-62: one item. -/
def knownAttr (attr : Text) : DataItem → Option Text
  | .static k v =>
    if k = attr then
      some (if attr = lit "ratelimit.hits_addend" then lit "uint(" ++ v ++ lit ")" else quoted v)
    else none
  | .expression k v =>
    if k = attr then
      some (if attr = lit "ratelimit.hits_addend" then lit "uint(" ++ v ++ lit ")" else v)
    else none

/-- `legacy_translation.rs` L43-67 `find_ratelimit_known_attr_cel`: the first match of any block. -/
def findKnownAttr (blocks : List ConditionalData) (attr : Text) : Option Text :=
  (blocks.flatMap (·.data)).findSome? (knownAttr attr)

/-- `legacy_translation.rs` L69-83 `build_ratelimit_descriptor_entry_cel`. -/
def entryCel (key value : Text) : Text :=
  lit "envoy.extensions.common.ratelimit.v3.RateLimitDescriptor.Entry { key: " ++ quoted key ++
    lit ", value: " ++ value ++ lit " }"

def descriptorEntry : DataItem → Text
  | .static k v => entryCel k (quoted v)
  | .expression k v => entryCel k (lit "string(" ++ v ++ lit ")")

/-- `legacy_translation.rs` L85-105 `build_ratelimit_entry_list_cel`. -/
def entryList (cd : ConditionalData) : Option Text :=
  let entries := (cd.data.filter fun i => !isKnownAttr i).map descriptorEntry
  if entries.isEmpty then none
  else
    let list := lit "[" ++ join (lit ", ") entries ++ lit "]"
    if cd.predicates.isEmpty then some list
    else some (lit "((" ++ joinPredicates cd.predicates (lit "&&") ++ lit ") ? " ++ list ++ lit " : [])")

/-- `legacy_translation.rs` L107-122 `build_ratelimit_descriptors_cel`. -/
def descriptorsCel (blocks : List ConditionalData) : Option Text :=
  let parts := blocks.filterMap entryList
  if parts.isEmpty then none
  else some (lit "envoy.extensions.common.ratelimit.v3.RateLimitDescriptor { entries: " ++
    join (lit " + ") parts ++ lit " }")

/-- The key of an entry for request data, `legacy_translation.rs` L146-150. -/
def requestKey (domain field : Text) : Text :=
  if domain = [] || domain = lit "metrics.labels" then field else domain ++ '.' :: field

/-- `legacy_translation.rs` L124-181 `build_ratelimit_message_builder`. -/
def ratelimitMessage (scope : Text) (blocks : List ConditionalData) (data : RequestData) : Text :=
  let domain := (findKnownAttr blocks (lit "ratelimit.domain")).getD (quoted scope)
  let hits := (findKnownAttr blocks (lit "ratelimit.hits_addend")).getD (lit "1u")
  let descriptors := (descriptorsCel blocks).toList ++
    (if data.isEmpty then [] else
      [lit "envoy.extensions.common.ratelimit.v3.RateLimitDescriptor { entries: [" ++
        join (lit ", ") (data.map fun d => entryCel (requestKey d.1.1 d.1.2) (lit "string(" ++ d.2 ++ lit ")")) ++
        lit "] }"])
  let list := if descriptors.isEmpty then lit "[]" else lit "[" ++ join (lit ", ") descriptors ++ lit "]"
  lit "envoy.service.ratelimit.v3.RateLimitRequest {\n    domain: " ++ domain ++
    lit ",\n    hits_addend: " ++ hits ++ lit ",\n    descriptors: " ++ list ++ lit "\n}"

/-- `legacy_translation.rs` L191-200: the predicate of one block. -/
def blockPredicate (cd : ConditionalData) : Text :=
  match cd.predicates with
  | [p] => p
  | ps => parens (joinPredicates ps (lit "&&"))

/-- `legacy_translation.rs` L183-207 `build_descriptor_predicate`. -/
def descriptorPredicate (blocks : List ConditionalData) : Text :=
  if blocks.isEmpty then lit "true"
  else if blocks.any (·.predicates.isEmpty) then lit "true"
  else join (lit " || ") (blocks.map blockPredicate)

/-- `legacy_translation.rs` L209-225 `build_ratelimit_predicate`. -/
def ratelimitPredicate (predicates : List Text) (blocks : List ConditionalData) : Text :=
  let action := actionPredicate predicates
  let conditional := descriptorPredicate blocks
  if action = lit "true" ∧ conditional = lit "true" then lit "true"
  else if action = lit "true" then conditional
  else if conditional = lit "true" then action
  else lit "(" ++ action ++ lit ") && (" ++ conditional ++ lit ")"

/-- `legacy_translation.rs` L227-264 `build_ratelimit_on_reply`. -/
def ratelimitOnReply (name : Text) : List TypedAction := [
  .deny { predicate := name ++ lit ".overall_code == 2", terminal := true, guard := true }
    (lit "DenyResponse{status: 429u, headers: " ++ name ++
      lit ".response_headers_to_add, body: \"Too Many Requests\\n\"}"),
  .headers { predicate := name ++ lit ".overall_code == 1", terminal := false, guard := true } .response
    (name ++ lit ".response_headers_to_add"),
  .fail { predicate := name ++ lit ".overall_code != 1 && " ++ name ++ lit ".overall_code != 2",
          terminal := true, guard := true }]

/-- `str::contains`. -/
def contains (needle : Text) : Text → Bool
  | [] => needle.isEmpty
  | c :: t => needle.isPrefixOf (c :: t) || contains needle t

/-- Request data that do not need the response body, `legacy_translation.rs` L273-277 and L866-870. -/
def requestOnly (data : RequestData) : RequestData :=
  data.filter fun d => !contains (lit "responseBodyJSON(") d.2

/-- `legacy_translation.rs` L266-303 `translate_legacy_ratelimit_to_typed`. -/
def translateRatelimit (a : LegacyAction) (data : RequestData) : TypedAction :=
  .grpc { predicate := ratelimitPredicate a.predicates a.conditionalData, terminal := false, guard := true }
    a.service (lit "ratelimit_response") (ratelimitMessage a.scope a.conditionalData (requestOnly data))
    (ratelimitOnReply (lit "ratelimit_response"))

/-- `legacy_translation.rs` L305-343 `translate_legacy_report_to_typed`. -/
def translateReport (a : LegacyAction) (data : RequestData) : TypedAction :=
  .grpc { predicate := ratelimitPredicate a.predicates a.conditionalData, terminal := false, guard := false }
    a.service (lit "report_response") (ratelimitMessage a.scope a.conditionalData data)
    [.fail { predicate := lit "!has(report_response.overall_code)", terminal := false, guard := false }]

/-- `legacy_translation.rs` L798-810 `build_request_data_value_cel`. -/
def requestValue (expr : Text) : Text :=
  if contains (lit "auth.") expr then
    lit "google.protobuf.Value{struct_value: google.protobuf.Struct{fields: {\"cel_expr\": google.protobuf.Value{string_value: " ++
      quoted expr ++ lit "}}}}"
  else lit "google.protobuf.Value{string_value: string(" ++ expr ++ lit ")}"

/-- The domain under which request data are sent, `legacy_translation.rs` L819-823. -/
def metadataDomain (domain : Text) : Text :=
  if domain = [] then lit "io.kuadrant" else lit "io.kuadrant." ++ domain

/-- Add an entry to its group (`HashMap::entry`), `legacy_translation.rs` L817-828. -/
def group (groups : List (Text × List (Text × Text))) (d : (Text × Text) × Text) :
    List (Text × List (Text × Text)) :=
  let key := metadataDomain d.1.1
  mapInsert groups key (((mapGet groups key).getD []) ++ [(d.1.2, d.2)])

/-- The entries by domain, sorted by domain, `legacy_translation.rs` L817-832. -/
def byDomain (data : RequestData) : List (Text × List (Text × Text)) :=
  (data.foldl group []).mergeSort fun a b => textLe a.1 b.1

/-- `legacy_translation.rs` L836-854. -/
def domainEntry (d : Text × List (Text × Text)) : Text :=
  quoted d.1 ++ lit ": google.protobuf.Struct{fields: {" ++
    join (lit ", ") (d.2.map fun f => quoted f.1 ++ lit ": " ++ requestValue f.2) ++ lit "}}"

/-- `legacy_translation.rs` L812-860 `build_metadata_context_cel`. -/
def metadataContext (data : RequestData) : Text :=
  if data.isEmpty then lit "envoy.config.core.v3.Metadata{}"
  else lit "envoy.config.core.v3.Metadata{filter_metadata: {" ++
    join (lit ", ") ((byDomain data).map domainEntry) ++ lit "}}"

/-- `legacy_translation.rs` L874-904: the text before the scope. -/
def authMessageHead : Text := List.flatten [
  lit "envoy.service.auth.v3.CheckRequest {\n",
  lit "  attributes: envoy.service.auth.v3.AttributeContext {\n",
  lit "    request: envoy.service.auth.v3.AttributeContext.Request {\n",
  lit "      time: request.time,\n",
  lit "      http: envoy.service.auth.v3.AttributeContext.HttpRequest {\n",
  lit "        host: request.host,\n",
  lit "        method: request.method,\n",
  lit "        scheme: request.scheme,\n",
  lit "        path: request.path,\n",
  lit "        protocol: request.protocol,\n",
  lit "        headers: request.headers\n",
  lit "      }\n",
  lit "    },\n",
  lit "    destination: envoy.service.auth.v3.AttributeContext.Peer {\n",
  lit "      address: envoy.config.core.v3.Address {\n",
  lit "        socket_address: envoy.config.core.v3.SocketAddress {\n",
  lit "          address: destination.address,\n",
  lit "          port_value: uint(destination.port)\n",
  lit "        }\n",
  lit "      }\n",
  lit "    },\n",
  lit "    source: envoy.service.auth.v3.AttributeContext.Peer {\n",
  lit "      address: envoy.config.core.v3.Address {\n",
  lit "        socket_address: envoy.config.core.v3.SocketAddress {\n",
  lit "          address: source.address,\n",
  lit "          port_value: uint(source.port)\n",
  lit "        }\n",
  lit "      }\n",
  lit "    },\n",
  lit "    context_extensions: {\"host\": "]

/-- `legacy_translation.rs` L862-911 `build_auth_message_builder`. -/
def authMessage (scope : Text) (data : RequestData) : Text :=
  authMessageHead ++ quoted scope ++ lit "},\n    metadata_context: " ++
    metadataContext (requestOnly data) ++ lit "\n  }\n}"

/-- `legacy_translation.rs` L940-1014 `build_auth_on_reply`. -/
def authOnReply (name : Text) : List TypedAction := [
  .deny { predicate := lit "has(" ++ name ++ lit ".denied_response)", terminal := true, guard := true }
    (lit "DenyResponse{status: (" ++ name ++ lit ".denied_response.status.code != 0) ? uint(" ++ name ++
      lit ".denied_response.status.code) : 403u, headers: " ++ name ++ lit ".denied_response.headers, body: " ++
      name ++ lit ".denied_response.body}"),
  .fail { predicate := lit "has(" ++ name ++ lit ".ok_response) && (" ++
            name ++ lit ".ok_response.response_headers_to_add.size() > 0 || " ++
            name ++ lit ".ok_response.headers_to_remove.size() > 0 || " ++
            name ++ lit ".ok_response.query_parameters_to_set.size() > 0 || " ++
            name ++ lit ".ok_response.query_parameters_to_remove.size() > 0)",
          terminal := true, guard := true },
  .store { predicate := lit "has(" ++ name ++ lit ".ok_response) && has(" ++ name ++ lit ".dynamic_metadata)",
           terminal := false, guard := true }
    (lit "auth") (name ++ lit ".dynamic_metadata") true,
  .headers { predicate := lit "has(" ++ name ++ lit ".ok_response)", terminal := false, guard := true } .request
    (name ++ lit ".ok_response.headers"),
  .fail { predicate := lit "!has(" ++ name ++ lit ".denied_response) && !has(" ++ name ++ lit ".ok_response)",
          terminal := true, guard := true }]

/-- `legacy_translation.rs` L913-938 `translate_legacy_auth_to_typed`. -/
def translateAuth (a : LegacyAction) (data : RequestData) : TypedAction :=
  .grpc { predicate := actionPredicate a.predicates, terminal := false, guard := true }
    a.service (lit "auth_response") (authMessage a.scope data) (authOnReply (lit "auth_response"))

/-- `blueprint.rs` L454-468: which translation applies. The case of dynamic services is an error there. -/
def translate (a : LegacyAction) (data : RequestData) : SvcKind → TypedAction
  | .auth => translateAuth a data
  | .rateLimit => translateRatelimit a data
  | .rateLimitCheck => translateRatelimit a data
  | .rateLimitReport => translateReport a data
  | .dynamic => translateReport a data

/-- A legacy action of the configuration. -/
def LegacyAction.config (a : LegacyAction) (data : RequestData) : ActionConfig :=
  .legacy a.service (translate a data)

end Verif.Legacy
