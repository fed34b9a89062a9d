import Verif.Model.Cache
import Verif.Model.ValueStore
import Verif.Model.GrpcPath
/-!
Model of the part of `crates/kuadrant-filter/src/data/cel.rs` that finds the attributes an expression
refers to, reads them and hands them to the CEL interpreter as variables. Rust hash maps are lists; where
Rust iterates over one, the model uses the order of the list. This order decides only between the answers
pending and error when both apply.
-/
namespace Verif

/-! ### The attributes an expression refers to -/

/-- `cel::common::ast::Expr`. A call with a target is `method`, one without is `call`; operators are calls.
The literals other than strings are not told apart. The entries of a map are given by its keys and values
in the order of the text; those of a struct by the values. -/
inductive CelExpr where
  | call (func : Text) (args : List CelExpr)
  | method (target : CelExpr) (func : Text) (args : List CelExpr)
  | select (operand : CelExpr) (field : Text)
  | ident (name : Text)
  | list (elems : List CelExpr)
  | map (parts : List CelExpr)
  | struct (name : Text) (values : List CelExpr)
  | comprehension (range init cond step result : CelExpr)
  | string (value : Text)
  | literal
  | unspecified

/-- The mutable arguments of `properties`. -/
structure Collected where
  all : List Path := []
  request : List Text := []
  response : List Text := []
  path : Path := []
deriving DecidableEq, Repr

/-- The field named by the only argument of a call, if that is a string literal. -/
def onlyLiteral : List CelExpr → Option Text
  | [.string t] => some t
  | _ => none

/-- `cel.rs` L842-857: the fields of the bodies. -/
def bodyFields (func : Text) (args : List CelExpr) (s : Collected) : Collected :=
  match onlyLiteral args with
  | none => s
  | some t =>
    if func = "responseBodyJSON".toList then { s with response := s.response ++ [t] }
    else if func = "requestBodyJSON".toList then { s with request := s.request ++ [t] }
    else s

mutual
/-- `cel.rs` L834-912 `properties`. -/
def properties : CelExpr → Collected → Collected
  | .call func args, s => propertiesList args { bodyFields func args s with path := [] }
  | .method target _ args, s => propertiesList args (properties target s)
  | .select operand field, s => properties operand { s with path := field :: s.path }
  | .ident name, s =>
    if s.path = [] then s else { s with all := s.all ++ [name :: s.path], path := [] }
  | .list elems, s => propertiesList elems s
  | .map parts, s => propertiesList parts s
  | .struct _ values, s => propertiesList values s
  | .comprehension range init cond step result, s =>
    properties result (properties step (properties cond (properties init (properties range s))))
  | .string _, s => s
  | .literal, s => s
  | .unspecified, s => s

/-- `properties` for some expressions in turn. -/
def propertiesList : List CelExpr → Collected → Collected
  | [], s => s
  | e :: es, s => propertiesList es (properties e s)
end

/-- `cel.rs` L101-110 `Expression`, as far as `eval` uses it. The type of an attribute is determined by its
path (`knownType`). -/
structure CompiledExpr where
  attributes : List Path
  requestFields : List Text
  responseFields : List Text
  needsGrpc : Bool
deriving DecidableEq, Repr

/-- `cel.rs` L174: is it below `request.grpc`? -/
def isGrpcPath (p : Path) : Bool := p.take 2 = ["request".toList, "grpc".toList]

/-- Insert behind the paths that are not longer. -/
def insertByLength (p : Path) : List Path → List Path
  | [] => [p]
  | q :: qs => if p.length < q.length then p :: q :: qs else q :: insertByLength p qs

/-- `cel.rs` L188 `sort_by_key`; it is stable. -/
def sortByLength (ps : List Path) : List Path := ps.foldl (fun out p => insertByLength p out) []

/-- `cel.rs` L155-199 `new_expression` after parsing. -/
def compileExpr (e : CelExpr) : CompiledExpr :=
  let c := properties e {}
  { attributes := sortByLength (c.all.filter fun p => !isGrpcPath p)
    requestFields := c.request
    responseFields := c.response
    needsGrpc := c.all.any isGrpcPath }

/-! ### Reading an attribute -/

/-- The types of `cel.rs` L764-832 `new_well_known_attribute_map`. -/
inductive AttrType where
  | string | int | uint | bool | bytes | timestamp | map
deriving DecidableEq, Repr

/-- `cel.rs` L764-832 `new_well_known_attribute_map`. -/
def wellKnown : List (Text × AttrType) :=
  [("request.time", .timestamp), ("request.id", .string), ("request.protocol", .string),
    ("request.scheme", .string), ("request.host", .string), ("request.method", .string),
    ("request.path", .string), ("request.url_path", .string), ("request.query", .string),
    ("request.referer", .string), ("request.size", .int), ("request.useragent", .string),
    ("request.body", .string), ("source.address", .string), ("source.remote_address", .string),
    ("source.port", .int), ("source.service", .string), ("source.principal", .string),
    ("source.certificate", .string), ("destination.address", .string), ("destination.port", .int),
    ("destination.service", .string), ("destination.principal", .string),
    ("destination.certificate", .string), ("connection.requested_server_name", .string),
    ("connection.tls_session.sni", .string), ("connection.tls_version", .string),
    ("connection.subject_local_certificate", .string), ("connection.subject_peer_certificate", .string),
    ("connection.dns_san_local_certificate", .string), ("connection.dns_san_peer_certificate", .string),
    ("connection.uri_san_local_certificate", .string), ("connection.uri_san_peer_certificate", .string),
    ("connection.sha256_peer_certificate_digest", .string), ("ratelimit.domain", .string),
    ("connection.id", .uint), ("ratelimit.hits_addend", .int), ("request.headers", .map),
    ("request.context_extensions", .map), ("source.labels", .map), ("destination.labels", .map),
    ("filter_state", .map), ("connection.mtls", .bool), ("request.raw_body", .bytes)].map
    fun e => (e.1.toList, e.2)

/-- `cel.rs` L697-706 `known_attribute_for`. -/
def knownType (p : Path) : Option AttrType := (wellKnown.find? fun e => Path.parse e.1 = p).map (·.2)

mutual
/-- `cel.rs` L716-743 `json_value_to_cel`. -/
def jsonVal : Json → Val
  | .null => .null
  | .bool b => .bool b
  | .pos n => .uint n
  | .neg i => .int i
  | .float bits => .float bits
  | .str t => .str t
  | .arr l => .list (jsonVals l)
  | .obj m => .map (jsonEntries m)

def jsonVals : List Json → List Val
  | [] => []
  | j :: js => jsonVal j :: jsonVals js

def jsonEntries : List (Text × Json) → List (Key × Val)
  | [] => []
  | (k, j) :: m => (.str k, jsonVal j) :: jsonEntries m
end

/-- `cel.rs` L708-714 `json_to_cel`. -/
def jsonToCel (lib : JsonLib) (t : Text) : Val :=
  match lib.parse t with
  | some j => jsonVal j
  | none => .str t

/-- The conversion of `cel.rs` L655-694 for an attribute of type `t`; `none` is an attribute without a
type. -/
def attrVal (lib : JsonLib) (t : Option AttrType) (v : Cached) : Except AttrErr Val :=
  let scalar := fun {α : Type} (parse : Bytes → Option α) (f : α → Val) =>
    (fromBytes parse v).map fun r => (r.map f).getD .null
  match t with
  | some .string => scalar fromUtf8 .str
  | some .int => scalar attrI64 .int
  | some .uint => scalar attrU64 .uint
  | some .bool => scalar attrBool .bool
  | some .bytes => scalar some .bytes
  | some .timestamp => scalar attrTimestamp fun r => .timestamp r.1 r.2
  | some .map => (asHeaders v).map fun hs => .map (hs.toMap.map fun e => (.str e.1, .str e.2))
  | none => scalar fromUtf8 (jsonToCel lib)

/-- `cel.rs` L655-694 `Attribute::get`. -/
def attrGet {W : Type} (b : Backend W) (lib : JsonLib) (s : Attrs W) (p : Path) : Ans Val × Attrs W :=
  s.read b (attrVal lib (knownType p)) p

/-! ### The data map -/

/-- `cel.rs` L139-148 `HOST_PROPERTY_ROOTS`. -/
def hostRoots : List Text :=
  ["request", "response", "source", "destination", "connection", "ratelimit", "filter_state",
    "metadata"].map String.toList

/-- `cel.rs` L150-152 `is_host_property_root`. -/
def isHostRoot (t : Text) : Bool := hostRoots.contains t

/-- `cel.rs` L935-938 `data::Token`. -/
inductive AttrTree where
  | value (p : Path)
  | node (m : List (Text × AttrTree))

/-- One turn of the loop of `cel.rs` L947-970: the attribute `attr` is added along the remaining tokens. -/
def addPath (attr : Path) : Path → List (Text × AttrTree) → List (Text × AttrTree)
  | [], m => m
  | [t], m => mapInsert m t (.value attr)
  | t :: ts, m =>
    match mapGet m t with
    | none => mapInsert m t (.node (addPath attr ts []))
    | some (.node n) => mapInsert m t (.node (addPath attr ts n))
    | some (.value _) => m

/-- `cel.rs` L945-973 `AttributeMap::new`. -/
def attrTree (ps : List Path) : List (Text × AttrTree) := ps.foldl (fun m p => addPath p p m) []

/-- `cel.rs` L989-993: the path of an entry. -/
def entryPath (pre key : Text) : Text := if pre = [] then key else pre ++ '.' :: key

section
variable (store : ValueStore) (get : Path → Ans Val)

mutual
/-- `cel.rs` L981-1028 `map_to_value`. `get` are the answers of `attrGet`; the host is not asked twice,
see `ensure_attributes`. -/
def mapToValue (pre : Text) : List (Text × AttrTree) → Ans (List (Key × Val))
  | [] => .available []
  | (key, tree) :: rest =>
    match store.get (entryPath pre key) with
    | some v => match mapToValue pre rest with
      | .available m => .available ((.str key, v) :: m)
      | .pending => .pending
      | .err => .err
    | none =>
      if store.isPending (entryPath pre key) then .pending
      else if pre = [] && !isHostRoot key && !store.hasPrefix (key ++ ['.']) then mapToValue pre rest
      else match treeValue (entryPath pre key) tree with
        | .available v => match mapToValue pre rest with
          | .available m => .available ((.str key, v) :: m)
          | .pending => .pending
          | .err => .err
        | .pending => .pending
        | .err => .err

/-- `cel.rs` L1009-1023: the value of an entry. -/
def treeValue (path : Text) : AttrTree → Ans Val
  | .value p => get p
  | .node m => match mapToValue path m with
    | .available m => .available (.map m)
    | .pending => .pending
    | .err => .err
end

/-- `cel.rs` L317-319 `build_data_map`. -/
def dataMap (e : CompiledExpr) : Ans (List (Key × Val)) := mapToValue store get [] (attrTree e.attributes)

end

/-! ### The variables -/

/-- `HashMap::get` on a CEL map. -/
def keyGet (m : List (Key × Val)) (t : Text) : Option Val := mapGet m (Key.str t)

/-- `cel.rs` L235-247: the variable `request`. `grpc` is the answer of `resolveGrpc`. -/
def requestVal (e : CompiledExpr) (grpc : Option Val) (m : List (Key × Val)) : Val :=
  let v := (keyGet m "request".toList).getD .null
  if e.needsGrpc then
    let fields := match v with
      | .map fields => fields
      | _ => []
    match grpc with
    | some g => .map (mapInsert fields (.str "grpc".toList) g)
    | none => .map fields
  else v

/-- `Context::add_variable_from_value` in turn. -/
def addVars (vars : List (Text × Val)) (new : List (Text × Val)) : List (Text × Val) :=
  new.foldl (fun vars e => mapInsert vars e.1 e.2) vars

/-- `cel.rs` L250-253. -/
def rootVars (m : List (Key × Val)) : List (Text × Val) :=
  ["metadata".toList, "source".toList, "destination".toList, "auth".toList].map
    fun name => (name, (keyGet m name).getD .null)

/-- `cel.rs` L255-261: the entries of the data map that do not come from the host. The keys of the Rust map are
unique, so that an entry is what is found for its key. -/
def otherVars (m : List (Key × Val)) : List (Text × Val) :=
  m.filterMap fun e => match e.1 with
    | .str name =>
      if name ≠ "request".toList ∧ ¬isHostRoot name then (keyGet m name).map fun v => (name, v) else none
    | _ => none

/-- `cel.rs` L263-273: the stored values whose path is a single name. -/
def storedVars (store : ValueStore) (m : List (Key × Val)) : List (Text × Val) :=
  store.values.filterMap fun e =>
    if !e.1.contains '.' && (keyGet m e.1).isNone then (store.get e.1).map fun v => (e.1, v) else none

/-- `cel.rs` L275-306: the fields of a body, `none` if one is missing. -/
def bodyMap (values : List (Text × Val)) : List Text → Option (List (Key × Val))
  | [] => some []
  | f :: fs => match mapGet values f, bodyMap values fs with
    | some v, some m => some (mapInsert m (.str f) v)
    | _, _ => none

/-- `cel.rs` L210-306: the variables given to the interpreter by `Expression::eval`. `scope` are the variables
of the context it was given (`scopeVars`). -/
def celVars (store : ValueStore) (get : Path → Ans Val) (grpc : Option Val) (req resp : List (Text × Val))
    (scope : List (Text × Val)) (e : CompiledExpr) : Ans (List (Text × Val)) :=
  match dataMap store get e with
  | .pending => .pending
  | .err => .err
  | .available m =>
    let vars := addVars scope (("request".toList, requestVal e grpc m) :: rootVars m)
    let vars := addVars (addVars vars (otherVars m)) (storedVars store m)
    match bodyMap resp e.responseFields with
    | none => .pending
    | some r =>
      let vars := addVars vars [("@responseBodyJSON".toList, .map r)]
      match bodyMap req e.requestFields with
      | none => .pending
      | some q => .available (addVars vars [("@requestBodyJSON".toList, .map q)])

/-- `cel.rs` L380-437: what the functions `requestBodyJSON` and `responseBodyJSON` answer for a string, where
`var` is the name of their variable; `none` is an error. -/
def bodyLookup (vars : List (Text × Val)) (var field : Text) : Option Val :=
  match mapGet vars var with
  | some (.map m) => some ((keyGet m field).getD .null)
  | _ => none

end Verif
