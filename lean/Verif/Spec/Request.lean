import Verif.Spec.Legacy
import Verif.Spec.Cause
/-!
What a translated action asks the service for: the value of the generated message. `E` gives the values of
expressions at the moment the message is built; only the constructs the generated text uses are given a meaning here
(`Evaluator`), following the definition of the Common Expression Language; what the expressions of the configuration
mean is left open.
-/
namespace Verif.Legacy
open Cel

/-- A name with dots. -/
def typeName (first : Text) (names : List Text) : Text := names.foldl (fun t n => t ++ ".".toList ++ n) first

/-- The text of a value, as `string(value)` gives it. Only strings and numbers are described. -/
inductive AsText : Val → Text → Prop where
  | str (t) : AsText (.str t) t
  | int (i : Int) : AsText (.int i) (toString i).toList
  | uint (n : Nat) : AsText (.uint n) (toString n).toList

/-- The unsigned number of a value, as `uint(value)` gives it. -/
inductive AsUint : Val → Nat → Prop where
  | uint (n) : AsUint (.uint n) n
  | int (n : Nat) : AsUint (.int n) n

/-- Values for expressions, under which the constructs that generated messages use have their meaning. -/
structure Evaluator (E : Ast → Option Val) : Prop where
  string : ∀ t, E (.str false t) = some (.str t)
  one : E (.num "1u".toList) = some (.uint 1)
  list : ∀ es vs, Each (fun e v => E e = some v) es vs → E (.list es) = some (.list vs)
  map : ∀ es kvs, Each (fun e kv => E e.1 = some (.str kv.1) ∧ E e.2 = some kv.2) es kvs → (kvs.map Prod.fst).Nodup →
    E (.map es) = some (.map (kvs.map fun kv => (.str kv.1, kv.2)))
  message : ∀ first names fields vals, Each (fun f v => f.1 = v.1 ∧ E f.2 = some v.2) fields vals →
    E (.message (path first names) fields) = some (.struct (typeName first names) vals)
  add : ∀ a b as bs, E a = some (.list as) → E b = some (.list bs) → E (.binary .add a b) = some (.list (as ++ bs))
  yes : ∀ c a b, E c = some (.bool true) → E (.cond c a b) = E a
  no : ∀ c a b, E c = some (.bool false) → E (.cond c a b) = E b
  both : ∀ a b, E a = some (.bool true) → E b = some (.bool true) → E (.binary .and a b) = some (.bool true)
  neither : ∀ a b, E a = some (.bool false) ∨ E b = some (.bool false) → E (.binary .and a b) = some (.bool false)
  text : ∀ a v t, E a = some v → AsText v t → E (.call "string".toList [a]) = some (.str t)
  uint : ∀ a v n, E a = some v → AsUint v n → E (.call "uint".toList [a]) = some (.uint n)

/-- What a rate limit service is asked: how many hits to count against the limits of a domain that match one of the
descriptors, each a list of keys and values. -/
structure LimitQuery where
  domain : Text
  hits : Nat
  descriptors : List (List (Text × Text))

/-- The query as a message. -/
def LimitQuery.value (q : LimitQuery) : Val :=
  .struct "envoy.service.ratelimit.v3.RateLimitRequest".toList [
    ("domain".toList, .str q.domain),
    ("hits_addend".toList, .uint q.hits),
    ("descriptors".toList, .list (q.descriptors.map fun d =>
      .struct "envoy.extensions.common.ratelimit.v3.RateLimitDescriptor".toList [
        ("entries".toList, .list (d.map fun e =>
          .struct "envoy.extensions.common.ratelimit.v3.RateLimitDescriptor.Entry".toList [
            ("key".toList, .str e.1), ("value".toList, .str e.2)]))]))]

section
variable (E : Ast → Option Val) (P : Text → Ast)

/-- The entry of an item: its key, and the static text or the value of the expression as text. -/
inductive ItemEntry : DataItem → Text × Text → Prop where
  | static (k v) : ItemEntry (.static k v) (k, v)
  | expression {k e v t} (hv : E (P e) = some v) (ht : AsText v t) : ItemEntry (.expression k e) (k, t)

/-- The entries of a block: all of them if all its predicates are true, none if one is false. -/
inductive BlockEntries (cd : ConditionalData) : List (Text × Text) → Prop where
  | all {es} (hp : ∀ p ∈ cd.predicates, E (P p) = some (.bool true)) (he : Each (ItemEntry E P) (descriptorItems cd) es) :
    BlockEntries cd es
  | none {p} (hp : p ∈ cd.predicates) (hf : E (P p) = some (.bool false)) : BlockEntries cd []

/-- The entry of request data. -/
def DataEntry (d : (Text × Text) × Text) (e : Text × Text) : Prop :=
  e.1 = dataKey d.1.1 d.1.2 ∧ ∃ v, E (P d.2) = some v ∧ AsText v e.2

/-- The domain: the scope of the action, unless some item is called `ratelimit.domain`. -/
def DomainOf (scope : Text) (blocks : List ConditionalData) (domain : Text) : Prop :=
  match firstItem blocks "ratelimit.domain" with
  | none => domain = scope
  | some (.static _ v) => domain = v
  | some (.expression _ e) => E (P e) = some (.str domain)

/-- The number of hits: one, unless some item is called `ratelimit.hits_addend`. -/
def HitsOf (blocks : List ConditionalData) (hits : Nat) : Prop :=
  match firstItem blocks "ratelimit.hits_addend" with
  | none => hits = 1
  | some (.static _ e) | some (.expression _ e) => ∃ v, E (P e) = some v ∧ AsUint v hits

/-- The query of an action with these blocks and request data: one descriptor for all the blocks that have entries to
give, and one for the request data. -/
structure Queries (scope : Text) (blocks : List ConditionalData) (data : RequestData) (q : LimitQuery) : Prop where
  domain : DomainOf E P scope blocks q.domain
  hits : HitsOf E P blocks q.hits
  descriptors : ∃ given sent,
    Each (BlockEntries E P) (entryBlocks blocks) given ∧ Each (DataEntry E P) data sent ∧
    q.descriptors = (if entryBlocks blocks = [] then [] else [given.flatten]) ++ (if data = [] then [] else [sent])

/-! ### Authorization -/

/-- What an authorization service is told: the attributes of the request and of both ends of the connection, the scope
of the action, and the request data by domain. -/
structure CheckQuery where
  time : Val
  http : List (String × Val)
  destination : Val × Nat
  source : Val × Nat
  scope : Text
  metadata : List (Text × List (Text × Val))

/-- A message of a given type. -/
def messageOf (name : String) (fields : List (String × Val)) : Val :=
  .struct name.toList (fields.map fun f => (f.1.toList, f.2))

def peerValue (p : Val × Nat) : Val :=
  messageOf "envoy.service.auth.v3.AttributeContext.Peer" [
    ("address", messageOf "envoy.config.core.v3.Address" [
      ("socket_address", messageOf "envoy.config.core.v3.SocketAddress" [
        ("address", p.1), ("port_value", .uint p.2)])])]

def mapValue (kvs : List (Text × Val)) : Val := .map (kvs.map fun kv => (.str kv.1, kv.2))

def structValue (kvs : List (Text × Val)) : Val := messageOf "google.protobuf.Struct" [("fields", mapValue kvs)]

/-- The query as a message. -/
def CheckQuery.value (q : CheckQuery) : Val :=
  messageOf "envoy.service.auth.v3.CheckRequest" [
    ("attributes", messageOf "envoy.service.auth.v3.AttributeContext" [
      ("request", messageOf "envoy.service.auth.v3.AttributeContext.Request" [
        ("time", q.time),
        ("http", messageOf "envoy.service.auth.v3.AttributeContext.HttpRequest" q.http)]),
      ("destination", peerValue q.destination),
      ("source", peerValue q.source),
      ("context_extensions", mapValue [("host".toList, .str q.scope)]),
      ("metadata_context", messageOf "envoy.config.core.v3.Metadata"
        (if q.metadata = [] then [] else
          [("filter_metadata", mapValue (q.metadata.map fun d => (d.1, structValue d.2)))]))])]

/-- What is sent for request data: the text of the expression if it depends on the result of the authorization,
otherwise its value as text. -/
inductive DataValue (expr : Text) : Val → Prop where
  | expression (h : "auth.".toList <:+: expr) : DataValue expr (messageOf "google.protobuf.Value" [
      ("struct_value", structValue [("cel_expr".toList, messageOf "google.protobuf.Value" [("string_value", .str expr)])])])
  | value {v t} (h : ¬"auth.".toList <:+: expr) (hv : E (P expr) = some v) (ht : AsText v t) :
    DataValue expr (messageOf "google.protobuf.Value" [("string_value", .str t)])

/-- The address and port of one end of the connection. -/
def PeerOf (side : String) (p : Val × Nat) : Prop :=
  E (path side.toList ["address".toList]) = some p.1 ∧
  ∃ v, E (path side.toList ["port".toList]) = some v ∧ AsUint v p.2

/-- The query of an authorization action with these request data. -/
structure Checks (scope : Text) (data : RequestData) (q : CheckQuery) : Prop where
  time : E (path "request".toList ["time".toList]) = some q.time
  http : Each (fun f v => v.1 = f ∧ E (path "request".toList [f.toList]) = some v.2)
    ["host", "method", "scheme", "path", "protocol", "headers"] q.http
  destination : PeerOf E "destination" q.destination
  source : PeerOf E "source" q.source
  scope : q.scope = scope
  domains : Domains data (q.metadata.map Prod.fst)
  metadata : ∀ d ∈ q.metadata, Each (fun r f => f.1 = r.1.2 ∧ DataValue E P r.2 f.2)
    (data.filter fun r => domainName r.1.1 = d.1) d.2

end

/-- What is assumed about the interpreter: when action `x` with the predicate `predicate` was about to send a
call and the effects were `log`, it gave the expression `message` the value that `E` gives it. -/
def ValuedBy {H : Type} (o : Oracle H) (known : Ctx H → Prop) (parse : Text → Option Expr) (log : List Effect) (x : Text)
    (predicate message : Text) (E : Ast → Option Val) : Prop :=
  ∀ pred msg v c ast w, parse predicate = some pred → parse message = some msg →
    Spec.EvaluatedIn o known log x pred msg v c → Parses message ast → E ast = some w → v = w

/-- The predicate of an action. -/
def predicateOf : TypedAction → Text
  | .grpc h _ _ _ _ => h.predicate
  | _ => []

end Verif.Legacy
