import Verif.Spec.Converters
import Verif.Spec.Request
/-!
What the rate limiter and the authorization service are told, as the fields of the protobuf messages they are sent.
-/
namespace Verif.Spec
open Verif Verif.Legacy Verif.Cel

/-- A message of that type with exactly these fields. -/
def IsMessage (p : ProtoVal) (name : Text) (given : List (String × ProtoVal)) : Prop :=
  ∃ fields, p = .message name fields ∧ ∀ n, mapGet fields n = mapGet (given.map fun g => (g.1.toList, g.2)) n

/-! ### Rate limits -/

def limitRequestName : Text := "envoy.service.ratelimit.v3.RateLimitRequest".toList
def descriptorName : Text := "envoy.extensions.common.ratelimit.v3.RateLimitDescriptor".toList
def entryName : Text := "envoy.extensions.common.ratelimit.v3.RateLimitDescriptor.Entry".toList

/-- An entry of a descriptor. -/
def entryOn (e : Text × Text) (p : ProtoVal) : Prop :=
  IsMessage p entryName [("key", .string e.1), ("value", .string e.2)]

/-- A descriptor. -/
def descriptorOn (d : List (Text × Text)) (p : ProtoVal) : Prop :=
  ∃ es, IsMessage p descriptorName [("entries", .list es)] ∧ Each entryOn d es

/-- The message asks this. The number of hits has 32 bits. -/
def limitOn (q : LimitQuery) (p : ProtoVal) : Prop :=
  ∃ ds, IsMessage p limitRequestName
    [("domain", .string q.domain), ("hits_addend", .u32 (q.hits % 2 ^ 32)), ("descriptors", .list ds)] ∧
    Each descriptorOn q.descriptors ds

/-! ### Authorization -/

/-- What is sent for request data: a value as text, or the text of an expression. -/
inductive Datum where
  | text (t : Text)
  | expression (e : Text)

/-- What the authorization service is told about a request. -/
structure CheckFacts where
  seconds : Int
  nanos : Nat
  host : Text
  method : Text
  scheme : Text
  path : Text
  protocol : Text
  headers : List (Text × Text)
  destination : Text × Nat
  source : Text × Nat
  scope : Text
  metadata : List (Text × List (Text × Datum))

section
variable (E : Ast → Option Val) (P : Text → Ast)

/-- What is sent for request data. -/
inductive SentAs (expr : Text) : Datum → Prop where
  | expression (h : "auth.".toList <:+: expr) : SentAs expr (.expression expr)
  | text {v t} (h : ¬"auth.".toList <:+: expr) (hv : E (P expr) = some v) (ht : AsText v t) : SentAs expr (.text t)

/-- The address and port of one end of the connection. -/
def EndOf (side : String) (x : Text × Nat) : Prop :=
  E (Cel.path side.toList ["address".toList]) = some (.str x.1) ∧
  ∃ v, E (Cel.path side.toList ["port".toList]) = some v ∧ AsUint v x.2

/-- The attribute of the request. -/
def requestIs (name : String) (v : Val) : Prop := E (Cel.path "request".toList [name.toList]) = some v

/-- The facts are those of the moment, the scope is that of the action, and the request data are listed by domain. -/
structure TrueFacts (scope : Text) (data : RequestData) (t : CheckFacts) : Prop where
  time : requestIs E "time" (.timestamp t.seconds t.nanos)
  nanos : t.nanos < 2 ^ 31
  host : requestIs E "host" (.str t.host)
  method : requestIs E "method" (.str t.method)
  scheme : requestIs E "scheme" (.str t.scheme)
  path : requestIs E "path" (.str t.path)
  protocol : requestIs E "protocol" (.str t.protocol)
  headers : requestIs E "headers" (.map (t.headers.map fun h => (.str h.1, .str h.2)))
  distinct : (t.headers.map Prod.fst).Nodup
  destination : EndOf E "destination" t.destination
  source : EndOf E "source" t.source
  scope : t.scope = scope
  domains : Domains data (t.metadata.map Prod.fst)
  metadata : ∀ d ∈ t.metadata, Each (fun r f => f.1 = r.1.2 ∧ SentAs E P r.2 f.2)
    (data.filter fun r => domainName r.1.1 = d.1) d.2

end

def checkRequestName : Text := "envoy.service.auth.v3.CheckRequest".toList
def contextName : Text := "envoy.service.auth.v3.AttributeContext".toList
def requestName : Text := "envoy.service.auth.v3.AttributeContext.Request".toList
def httpName : Text := "envoy.service.auth.v3.AttributeContext.HttpRequest".toList
def peerName : Text := "envoy.service.auth.v3.AttributeContext.Peer".toList
def addressName : Text := "envoy.config.core.v3.Address".toList
def socketName : Text := "envoy.config.core.v3.SocketAddress".toList
def metadataName : Text := "envoy.config.core.v3.Metadata".toList

/-- A value as text, or an expression under the name `cel_expr`. -/
def Datum.On (p : ProtoVal) : Datum → Prop
  | .text t => IsMessage p "google.protobuf.Value".toList [("string_value", .string t)]
  | .expression e => ∃ s inner, IsMessage p "google.protobuf.Value".toList [("struct_value", s)] ∧
      IsMessage s "google.protobuf.Struct".toList [("fields", .map [(.string "cel_expr".toList, inner)])] ∧
      IsMessage inner "google.protobuf.Value".toList [("string_value", .string e)]

/-- The data of one domain. -/
def domainOn (d : List (Text × Datum)) (p : ProtoVal) : Prop :=
  ∃ fields, IsMessage p "google.protobuf.Struct".toList [("fields", .map fields)] ∧
    Each (fun x f => f.1 = .string x.1 ∧ x.2.On f.2) d fields

/-- The data of all domains. -/
def metadataOn (md : List (Text × List (Text × Datum))) (p : ProtoVal) : Prop :=
  (md = [] ∧ IsMessage p metadataName []) ∨
  (md ≠ [] ∧ ∃ m, IsMessage p metadataName [("filter_metadata", .map m)] ∧
    Each (fun d e => e.1 = .string d.1 ∧ domainOn d.2 e.2) md m)

/-- One end of the connection. The port has 32 bits. -/
def endOn (x : Text × Nat) (p : ProtoVal) : Prop :=
  ∃ address socket, IsMessage p peerName [("address", address)] ∧
    IsMessage address addressName [("socket_address", socket)] ∧
    IsMessage socket socketName [("address", .string x.1), ("port_value", .u32 (x.2 % 2 ^ 32))]

/-- The message tells these facts. -/
def CheckFacts.On (t : CheckFacts) (p : ProtoVal) : Prop :=
  ∃ attributes request http source destination metadata,
    IsMessage p checkRequestName [("attributes", attributes)] ∧
    IsMessage attributes contextName [("request", request), ("destination", destination), ("source", source),
      ("context_extensions", .map [(.string "host".toList, .string t.scope)]), ("metadata_context", metadata)] ∧
    IsMessage request requestName [("time", .message "google.protobuf.Timestamp".toList
      [("seconds".toList, .i64 t.seconds), ("nanos".toList, .i32 t.nanos)]), ("http", http)] ∧
    IsMessage http httpName [("host", .string t.host), ("method", .string t.method), ("scheme", .string t.scheme),
      ("path", .string t.path), ("protocol", .string t.protocol),
      ("headers", .map (t.headers.map fun h => (.string h.1, .string h.2)))] ∧
    endOn t.source source ∧ endOn t.destination destination ∧ metadataOn t.metadata metadata

/-! ### The message types -/

/-- The message type has such a field. It is in no oneof if it stands alone. -/
def Takes (L : ProtoLib) (type : Text) (name : String) (t : ProtoType) (alone : Bool := true) : Prop :=
  ∃ f ∈ (L.desc type).fields, f.name = name.toList ∧ fieldType L f = some t ∧ (alone = true → f.oneof = none)

/-- The fields that matter here, as the services' descriptors have them. -/
structure RequestDescs (L : ProtoLib) : Prop where
  domain : Takes L limitRequestName "domain" (.one .string)
  hits : Takes L limitRequestName "hits_addend" (.one .uint32)
  descriptors : Takes L limitRequestName "descriptors" (.list (.message descriptorName))
  entries : Takes L descriptorName "entries" (.list (.message entryName))
  key : Takes L entryName "key" (.one .string)
  value : Takes L entryName "value" (.one .string)
  attributes : Takes L checkRequestName "attributes" (.one (.message contextName))
  source : Takes L contextName "source" (.one (.message peerName))
  destination : Takes L contextName "destination" (.one (.message peerName))
  request : Takes L contextName "request" (.one (.message requestName))
  extensions : Takes L contextName "context_extensions" (.map .string .string)
  metadata : Takes L contextName "metadata_context" (.one (.message metadataName))
  time : Takes L requestName "time" (.one (.message "google.protobuf.Timestamp".toList))
  http : Takes L requestName "http" (.one (.message httpName))
  host : Takes L httpName "host" (.one .string)
  method : Takes L httpName "method" (.one .string)
  scheme : Takes L httpName "scheme" (.one .string)
  path : Takes L httpName "path" (.one .string)
  protocol : Takes L httpName "protocol" (.one .string)
  headers : Takes L httpName "headers" (.map .string .string)
  peer : Takes L peerName "address" (.one (.message addressName))
  socket : Takes L addressName "socket_address" (.one (.message socketName)) false
  address : Takes L socketName "address" (.one .string)
  port : Takes L socketName "port_value" (.one .uint32) false
  filterMetadata : Takes L metadataName "filter_metadata" (.map .string (.message "google.protobuf.Struct".toList))
  fields : Takes L "google.protobuf.Struct".toList "fields" (.map .string (.message "google.protobuf.Value".toList))
  text : Takes L "google.protobuf.Value".toList "string_value" (.one .string) false
  struct : Takes L "google.protobuf.Value".toList "struct_value" (.one (.message "google.protobuf.Struct".toList)) false

end Verif.Spec
