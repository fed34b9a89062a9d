import Verif.Model.Body
import Verif.Model.Headers
/-!
Per-request context and the external world of a pipeline.

Models `crates/kuadrant-filter/src/kuadrant/context.rs` as far as tasks use it. The attribute cache,
the host, CEL evaluation, protobuf conversion and the JSON libraries are behind `Oracle`; every answer
may depend on the whole context and may change the host state `H`, an arbitrary type.
-/
namespace Verif

/-- Result of a context query: `Ok(Available(a))`, `Ok(Pending)` or `Err(_)`
(`data/attribute.rs` L8-32; the message of an error is only logged). -/
inductive Ans (α : Type) where
  | available (a : α)
  | pending
  | err
deriving DecidableEq, Repr

/-- A compiled CEL expression or predicate (`data/cel.rs` `Expression`, `Predicate`): its source and
the body fields it refers to. `lit` is set for the constant expressions the code itself creates, whose
value does not depend on anything. -/
structure Expr where
  src : Text := []
  reqFields : List Text := []
  respFields : List Text := []
  lit : Option Val := none

/-- A gRPC service (`services/dynamic.rs` L18-25); failure mode and descriptors are kept elsewhere. The
timeout is in nanoseconds. -/
structure Svc where
  upstream : Text
  service : Text
  method : Text
  timeout : Nat := 20000000
deriving DecidableEq, Repr

/-- `tasks/headers.rs` L10-13 `HeadersType`. -/
inductive Target where
  | request
  | response
deriving DecidableEq, Repr

/-- `tasks/store.rs` L19-22 `BodySource`. -/
inductive Source where
  | request
  | response
deriving DecidableEq, Repr

/-- The HTTP callbacks that answer `Pause` or `Continue`. -/
inductive Callback where
  | requestHeaders
  | requestBody
  | responseHeaders
  | responseBody (eos : Bool)
deriving DecidableEq, Repr

/-- What happens, in order. The first group is visible outside the filter. The second group marks
points of the execution, so that properties can be stated on the history alone. -/
inductive Effect where
  /-- a gRPC call was sent for action `id`; `guard`: traffic must wait for it -/
  | dispatch (id : Text) (guard : Bool) (token : Nat) (svc : Svc) (msg : Bytes) (reqId : Text)
  /-- a trace export call was sent -/
  | exported (token : Nat)
  /-- a direct reply was handed to the host, which accepted it or not -/
  | reply (status : Nat) (headers : Headers) (body : Option Text) (accepted : Bool)
  /-- the header map was replaced -/
  | headersSet (target : Target) (headers : Headers)
  /-- a property was written to the host (`false`: the host was not ready, the write was dropped) -/
  | attrSet (path : Text) (value : Bytes) (written : Bool)
  /-- the host was told to resume the request -/
  | resumeRequest
  /-- the host was told to resume the response -/
  | resumeResponse
  /-- an HTTP callback returned `Pause` or `Continue` -/
  | returned (callback : Callback) (pause : Bool)
  /-- metrics -/
  | hits
  | misses
  | allowed
  | denied
  | errors
  /-- an action was started (its dependencies being satisfied) -/
  | applied (id : Text)
  /-- an action was recorded as completed -/
  | completed (id : Text)
  /-- an action failed and nothing reacted to it -/
  | failed (id : Text)
  /-- a gRPC action failed: an error line is written, before any failure mode reacts -/
  | callFailed (id : Text)
  /-- a value was stored under a path -/
  | stored (path : Text) (value : Val)
  /-- the response of a gRPC call arrived -/
  | responded (token : Nat) (status : Nat) (size : Nat)
  /-- an action ended the pipeline early -/
  | ended
  /-- a teardown action was run -/
  | teardown

/-- `context.rs` L461-466 `BodyContext`. -/
structure Body where
  size : Nat := 0
  eos : Bool := false
  values : List (Text × Val) := []

/-- `context.rs` L482-484 `set_value`. -/
def Body.setValue (b : Body) (k : Text) (v : Val) : Body := { b with values := mapInsert b.values k v }

/-- `context.rs` L21-34 `ReqRespCtx`. `host` stands for the backend together with the attribute cache
and the tracing context. `bindings` are the scoped bindings (L494) in order of creation, `values` the
value store (L589), `trackerId` and `requestId` the tracker (L376-379). The reservations of the value
store only influence the answers of the oracle. `log` is the history of effects and not part of the
Rust structure. -/
structure Ctx (H : Type) where
  host : H
  req : Body := {}
  resp : Body := {}
  grpc : Option (Nat × Nat) := none
  trackerId : Option Text := none
  requestId : Option Text := none
  values : List (Text × Val) := []
  barrier : Nat := 0
  bindings : List (Text × (Text × Val)) := []
  log : List Effect := []

/-- The world outside a pipeline. Each answer may depend on the whole context. -/
structure Oracle (H : Type) where
  /-- `Expression::build_data_map` and `ensure_attributes` (`data/cel.rs` L216-233): are the attributes
  the expression refers to available? -/
  attrs : Ctx H → Expr → Ans Unit × H
  /-- `Value::resolve` (`data/cel.rs` L308) with the given scoped variables; `none` is an error -/
  resolve : Ctx H → List (Text × Val) → Expr → Option Val × H
  /-- CEL parser (`Expression::new`) -/
  parse : Text → Option Expr
  /-- descriptor lookup and protobuf encoding (`services/dynamic.rs` L65-76) -/
  encode : Ctx H → Svc → Val → Option Bytes
  /-- the host's `dispatch_grpc_call`; the answer is the token -/
  dispatch : Ctx H → Svc → Bytes → Text → Option Nat × H
  /-- reading and decoding a response (`services/dynamic.rs` L122-130) -/
  response : Ctx H → Svc → Nat → Option Val × H
  /-- the host's `send_http_reply`: accepted? -/
  sendReply : Ctx H → Nat → Headers → Option Text → Bool × H
  /-- `get_attribute_ref::<Headers>`. `Available(None)` does not occur: `data/attribute.rs` L160-167
  never returns it. -/
  getHeaders : Ctx H → Target → Ans Headers × H
  /-- `set_attribute_map` -/
  setHeaders : Ctx H → Target → Headers → Ans Unit × H
  /-- `set_attribute` -/
  setAttr : Ctx H → Text → Bytes → Ans Unit × H
  /-- `MessageConverter::cel_value_to_bytes` -/
  toBytes : Val → Option Bytes
  /-- the host's `get_http_request_body`, `get_http_response_body` with start and length -/
  readBody : Ctx H → Source → Nat → Nat → Ans (Option Bytes) × H
  /-- trace export (`tasks/export_traces.rs` L19-45): the token if a call was sent -/
  exportSpans : Ctx H → Text → Option Nat × H
  /-- `get_attribute::<String>("request.host")` -/
  hostname : Ctx H → Ans (Option Text) × H
  /-- `ensure_attributes` for the attributes of some predicates (`data/cel.rs` L591-602) -/
  ensure : Ctx H → List Expr → H
  /-- `Uuid::new_v4` -/
  uuid : Ctx H → Text × H
  /-- JSON libraries -/
  json : JsonLib

namespace Ctx

variable {H : Type}

def withHost (c : Ctx H) (h : H) : Ctx H := { c with host := h }

/-- Append to the history. -/
def push (c : Ctx H) (e : Effect) : Ctx H := { c with log := c.log ++ [e] }

/-- `context.rs` L435-438 `Barrier::raise`. -/
def raise (c : Ctx H) : Ctx H := { c with barrier := c.barrier + 1 }

/-- `context.rs` L440-449 `Barrier::lower`: at zero it stays zero. -/
def lower (c : Ctx H) : Ctx H := { c with barrier := c.barrier - 1 }

def body (c : Ctx H) : Source → Body
  | .request => c.req
  | .response => c.resp

def setBody (c : Ctx H) (s : Source) (b : Body) : Ctx H :=
  match s with
  | .request => { c with req := b }
  | .response => { c with resp := b }

end Ctx

/-- Is the text `p` a prefix of `t` (`str::starts_with`)? -/
def startsWith (t p : Text) : Bool := p.isPrefixOf t

/-- `context.rs` L544-546 `is_ancestor`. -/
def isAncestor (scope id : Text) : Bool := id = scope || startsWith id (scope ++ ['.'])

/-- Order of Rust strings (by bytes of UTF-8, the same as by code points). -/
def textLe : Text → Text → Bool
  | [], _ => true
  | _ :: _, [] => false
  | a :: as, b :: bs => if a = b then textLe as bs else decide (a < b)

/-- Variables visible to a task, `context.rs` L525-533. The Rust map of bindings is ordered by scope
id; within a scope bindings come in order of creation. Later additions shadow earlier ones, so the
list is given with the last addition first and looked up from the front. -/
def scopeVars (bindings : List (Text × (Text × Val))) (id : Text) : List (Text × Val) :=
  let visible := bindings.filter (fun b => isAncestor b.1 id)
  let sorted := visible.mergeSort (fun a b => textLe a.1 b.1)
  (sorted.map Prod.snd).reverse

section
variable {H : Type} (o : Oracle H)

/-- Is every body field the expression refers to available (`data/cel.rs` L274-306)? -/
def fieldsAvailable (c : Ctx H) (e : Expr) : Bool :=
  e.respFields.all (fun f => (mapGet c.resp.values f).isSome) &&
  e.reqFields.all (fun f => (mapGet c.req.values f).isSome)

/-- `data/cel.rs` L210-310 `Expression::eval` for task `id`. -/
def evalExpr (c : Ctx H) (id : Text) (e : Expr) : Ans Val × Ctx H :=
  match e.lit with
  | some v => (.available v, c)
  | none =>
    match o.attrs c e with
    | (.pending, h) => (.pending, c.withHost h)
    | (.err, h) => (.err, c.withHost h)
    | (.available _, h) =>
      let c := c.withHost h
      if fieldsAvailable c e then
        match o.resolve c (scopeVars c.bindings id) e with
        | (some v, h) => (.available v, c.withHost h)
        | (none, h) => (.err, c.withHost h)
      else (.pending, c)

/-- `data/cel.rs` L547-562 `Predicate::test`. -/
def testPred (c : Ctx H) (id : Text) (p : Expr) : Ans Bool × Ctx H :=
  match evalExpr o c id p with
  | (.available (.bool b), c) => (.available b, c)
  | (.available _, c) => (.err, c)
  | (.pending, c) => (.pending, c)
  | (.err, c) => (.err, c)

/-- `context.rs` L364-366 and L391-409: the request id, fixed at the first use. -/
def requestId (c : Ctx H) : Text × Ctx H :=
  match c.requestId with
  | some id => (id, c)
  | none =>
    let (ans, h) := o.getHeaders c .request
    let c := c.withHost h
    let fromHeader := match ans with
      | .available hs => Headers.get hs "x-request-id".toList
      | _ => none
    match fromHeader with
    | some id => (id, { c with requestId := some id })
    | none =>
      let (id, h) := o.uuid c
      (id, { c.withHost h with requestId := some id })

/-- `context.rs` L368-373 `tracker`. -/
def tracker (c : Ctx H) : Option (Text × Text) × Ctx H :=
  match c.trackerId with
  | none => (none, c)
  | some name =>
    let (id, c) := requestId o c
    (some (name, id), c)

end

end Verif
