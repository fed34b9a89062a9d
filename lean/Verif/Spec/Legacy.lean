import Verif.Spec.Cel
import Verif.Model.Legacy
/-!
What the translation of a legacy action has to produce, as syntax trees. `P` gives the tree of every expression
the configuration contains; text taken from the configuration that is not an expression must come out as a
string literal.
-/
namespace Verif.Legacy
open Cel

/-- The text is an expression, and what is put behind it does not end up in a comment. -/
def Proper (P : Text → Ast) (t : Text) : Prop := Parses t (P t) ∧ ¬EndsInComment t

/-- The text is an expression that can be an operand of `||`. -/
def ProperOperand (P : Text → Ast) (t : Text) : Prop := ParsesOr t (P t) ∧ ¬EndsInComment t

/-- A notion of an expression being true for which the logical operators have their usual meaning. -/
structure Truth (T : Ast → Prop) : Prop where
  tt : T (.ident "true".toList)
  and : ∀ a b, T (.binary .and a b) ↔ T a ∧ T b
  or : ∀ a b, T (.binary .or a b) ↔ T a ∨ T b

/-- The request of an action that calls a service. -/
def requestOf : TypedAction → Text
  | .grpc _ _ _ m _ => m
  | _ => []

/-- Data that need the response body can only be part of a report; others calls are made before it exists. -/
def availableTo (kind : SvcKind) (data : RequestData) : RequestData :=
  if kind = .rateLimitReport then data else data.filter fun d => ¬"responseBodyJSON(".toList <:+: d.2

/-- The conjunction of expressions. -/
def allOf : List Ast → Ast
  | [] => .ident "true".toList
  | a :: as => as.foldl (.binary .and) a

/-- A string literal. -/
def string (t : Text) : Ast := .str false t

/-- A message of a given type. -/
def message (pkg : String) (names : List String) (fields : List (String × Ast)) : Ast :=
  .message (path pkg.toList (names.map String.toList)) (fields.map fun f => (f.1.toList, f.2))

/-- The key under which request data are sent to a rate limit service: labels of metrics and data without a
domain have their own name, others have their domain in front. -/
def dataKey (domain field : Text) : Text :=
  if domain ∈ ["".toList, "metrics.labels".toList] then field else domain ++ ".".toList ++ field

/-- The name of the domain under which request data are sent to an authorization service. -/
def domainName : Text → Text
  | [] => "io.kuadrant".toList
  | domain => "io.kuadrant.".toList ++ domain

/-- A descriptor entry. -/
def entryAst (key : Text) (value : Ast) : Ast :=
  message "envoy" ["extensions", "common", "ratelimit", "v3", "RateLimitDescriptor", "Entry"]
    [("key", string key), ("value", value)]

/-- `string(e)` -/
def toStringAst (e : Ast) : Ast := .call "string".toList [e]
def toUintAst (e : Ast) : Ast := .call "uint".toList [e]

section
variable (P : Text → Ast)

/-- A static item is sent as it is, the value of an expression as a string. -/
def itemAst : DataItem → Ast
  | .static k v => entryAst k (string v)
  | .expression k v => entryAst k (toStringAst (P v))

/-- The items of a block that become descriptor entries. -/
def descriptorItems (cd : ConditionalData) : List DataItem := cd.data.filter fun i => i.key ∉ ["ratelimit.domain".toList, "ratelimit.hits_addend".toList]

/-- The entries of a block, present if its predicates hold. -/
def blockAst (cd : ConditionalData) : Ast :=
  if cd.predicates.isEmpty then .list ((descriptorItems cd).map (itemAst P))
  else .cond (allOf (cd.predicates.map P)) (.list ((descriptorItems cd).map (itemAst P))) (.list [])

/-- The blocks that have entries. -/
def entryBlocks (blocks : List ConditionalData) : List ConditionalData :=
  blocks.filter fun cd => !(descriptorItems cd).isEmpty

/-- All entries in one list. -/
def concat : List Ast → Ast
  | [] => .list []
  | a :: as => as.foldl (.binary .add) a

def descriptorAst (entries : Ast) : Ast :=
  message "envoy" ["extensions", "common", "ratelimit", "v3", "RateLimitDescriptor"] [("entries", entries)]

/-- The first item with the key, if there is one. -/
def firstItem (blocks : List ConditionalData) (key : String) : Option DataItem :=
  (blocks.flatMap (·.data)).find? fun i => i.key = key.toList

def domainAst (scope : Text) (blocks : List ConditionalData) : Ast :=
  match firstItem blocks "ratelimit.domain" with
  | none => string scope
  | some (.static _ v) => string v
  | some (.expression _ v) => P v

def hitsAst (blocks : List ConditionalData) : Ast :=
  match firstItem blocks "ratelimit.hits_addend" with
  | none => .num "1u".toList
  | some (.static _ v) => toUintAst (P v)
  | some (.expression _ v) => toUintAst (P v)

def requestEntryAst (d : (Text × Text) × Text) : Ast := entryAst (dataKey d.1.1 d.1.2) (toStringAst (P d.2))

/-- The request sent to a rate limit service. -/
def ratelimitAst (scope : Text) (blocks : List ConditionalData) (data : RequestData) : Ast :=
  message "envoy" ["service", "ratelimit", "v3", "RateLimitRequest"] [
    ("domain", domainAst P scope blocks),
    ("hits_addend", hitsAst P blocks),
    ("descriptors", .list (
      (if (entryBlocks blocks).isEmpty then [] else [descriptorAst (concat ((entryBlocks blocks).map (blockAst P)))]) ++
      (if data.isEmpty then [] else [descriptorAst (.list (data.map (requestEntryAst P)))])))]

/-- Every expression of the configuration of a rate limit action is sound. A static number of hits is used as
an expression as well. -/
structure ProperConfig (blocks : List ConditionalData) (data : RequestData) : Prop where
  predicates : ∀ cd ∈ blocks, ∀ p ∈ cd.predicates, Proper P p
  expressions : ∀ cd ∈ blocks, ∀ k v, .expression k v ∈ cd.data → Proper P v
  hits : ∀ cd ∈ blocks, ∀ v, .static "ratelimit.hits_addend".toList v ∈ cd.data → Proper P v
  data : ∀ d ∈ data, Proper P d.2

/-- The address of one side of the connection. -/
def peerAst (side : String) : Ast :=
  message "envoy" ["service", "auth", "v3", "AttributeContext", "Peer"] [
    ("address", message "envoy" ["config", "core", "v3", "Address"] [
      ("socket_address", message "envoy" ["config", "core", "v3", "SocketAddress"] [
        ("address", path side.toList ["address".toList]),
        ("port_value", toUintAst (path side.toList ["port".toList]))])])]

def httpRequestAst : Ast :=
  message "envoy" ["service", "auth", "v3", "AttributeContext", "Request"] [
    ("time", path "request".toList ["time".toList]),
    ("http", message "envoy" ["service", "auth", "v3", "AttributeContext", "HttpRequest"] (
      ["host", "method", "scheme", "path", "protocol", "headers"].map fun f =>
        (f, path "request".toList [f.toList])))]

/-- Request data that depend on the result of the authorization are sent as the text of the expression, others
as a string. -/
def requestValueAst (expr : Text) : Ast :=
  if "auth.".toList <:+: expr then
    message "google" ["protobuf", "Value"] [
      ("struct_value", message "google" ["protobuf", "Struct"] [
        ("fields", .map [(string "cel_expr".toList,
          message "google" ["protobuf", "Value"] [("string_value", string expr)])])])]
  else message "google" ["protobuf", "Value"] [("string_value", toStringAst (P expr))]

/-- The domains of the request data, each of them once and in order. -/
structure Domains (data : RequestData) (domains : List Text) : Prop where
  sorted : domains.Pairwise fun a b => textLe a b ∧ a ≠ b
  mem : ∀ dom, dom ∈ domains ↔ ∃ d ∈ data, domainName d.1.1 = dom

/-- The request data by domain. -/
def metadataAst (domains : List Text) (data : RequestData) : Ast :=
  message "envoy" ["config", "core", "v3", "Metadata"] (
    if data.isEmpty then [] else
      [("filter_metadata", .map (domains.map fun dom =>
        (string dom, message "google" ["protobuf", "Struct"] [
          ("fields", .map ((data.filter fun d => domainName d.1.1 = dom).map fun d =>
            (string d.1.2, requestValueAst P d.2)))])))])

/-- The request sent to an authorization service. -/
def authAst (scope : Text) (domains : List Text) (data : RequestData) : Ast :=
  message "envoy" ["service", "auth", "v3", "CheckRequest"] [
    ("attributes", message "envoy" ["service", "auth", "v3", "AttributeContext"] [
      ("request", httpRequestAst),
      ("destination", peerAst "destination"),
      ("source", peerAst "source"),
      ("context_extensions", .map [(string "host".toList, string scope)]),
      ("metadata_context", metadataAst P domains data)])]

end
end Verif.Legacy
