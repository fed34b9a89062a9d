import Verif.Model.Host
import Verif.Model.CelEnv
import Verif.Model.Filter
/-!
The parts put together: the filter of `Model/Filter.lean` on the attribute cache of `Model/Cache.lean`, the CEL
environment of `Model/CelEnv.lean` and the host of `Model/Host.lean`.
-/
namespace Verif

/-- Libraries: the CEL parser and interpreter, protobuf messages and JSON. -/
structure Lib where
  /-- `cel::Parser::parse` -/
  cel : Text → Option CelExpr
  /-- `Value::resolve` of the expression with this text, with the given variables; `none` is an error. The syntax tree
  of `cel` does not determine the value, since literals are not told apart in it. -/
  exec : Text → List (Text × Val) → Option Val
  /-- `services/dynamic.rs` L65-76: lookup of the message type, conversion and encoding -/
  encode : Svc → Val → Option Bytes
  /-- `services/dynamic.rs` L126-160: decoding and conversion of a response -/
  decode : Svc → Bytes → Option Val
  /-- `MessageConverter::cel_value_to_bytes` -/
  toBytes : Val → Option Bytes
  json : JsonLib

/-- What is outside the filter. -/
structure World (W : Type) where
  abi : Abi W
  lib : Lib
  /-- The registry of reservations of the value store. The tasks that hold the reservations are not part of the
  context, so it is given as a function of the history. -/
  reserved : Ctx (Attrs W) → List (Text × Nat)
  /-- `context.rs` L343-358 `get_tracing_headers` -/
  traceHeaders : Ctx (Attrs W) → List (Text × Bytes)
  /-- the spans to export as a message (`services/tracing.rs` L105-136), `none` if there are none -/
  spans : Ctx (Attrs W) → Option Bytes
  /-- the timeout of the tracing service with this endpoint -/
  tracingTimeout : Text → Nat
  /-- `Uuid::new_v4` -/
  uuid : Ctx (Attrs W) → Text

section
variable {S : Type} (store : ValueStore) (get : S → Path → Ans Val × S)

mutual
/-- `cel.rs` L981-1028 `map_to_value`, like `mapToValue` but with the state `S` of what is asked for the
attributes. -/
def readMap (pre : Text) : List (Text × AttrTree) → S → Ans (List (Key × Val)) × S
  | [], s => (.available [], s)
  | (key, tree) :: rest, s =>
    match store.get (entryPath pre key) with
    | some v => match readMap pre rest s with
      | (.available m, s) => (.available ((.str key, v) :: m), s)
      | (.pending, s) => (.pending, s)
      | (.err, s) => (.err, s)
    | none =>
      if store.isPending (entryPath pre key) then (.pending, s)
      else if pre = [] && !isHostRoot key && !store.hasPrefix (key ++ ['.']) then readMap pre rest s
      else match readTree (entryPath pre key) tree s with
        | (.available v, s) => match readMap pre rest s with
          | (.available m, s) => (.available ((.str key, v) :: m), s)
          | (.pending, s) => (.pending, s)
          | (.err, s) => (.err, s)
        | (.pending, s) => (.pending, s)
        | (.err, s) => (.err, s)

/-- `cel.rs` L1009-1023, like `treeValue`. -/
def readTree (path : Text) : AttrTree → S → Ans Val × S
  | .value p, s => get s p
  | .node m, s => match readMap path m s with
    | (.available m, s) => (.available (.map m), s)
    | (.pending, s) => (.pending, s)
    | (.err, s) => (.err, s)
end

end

namespace World

variable {W : Type} (w : World W)

/-- `Expression::new` for the expressions of a request: the text is known to be one. -/
def compiled (e : Expr) : Option (CelExpr × CompiledExpr) := (w.lib.cel e.src).map fun x => (x, compileExpr x)

/-- The value store (`context.rs` L31). -/
def store (c : Ctx (Attrs W)) : ValueStore where
  values := c.values.foldl (fun m e => ValueStore.treeInsert e.1 e.2 m) []
  reserved := w.reserved c

/-- `cel.rs` L216-228: the attributes that are read from the host before an expression is evaluated. -/
def hostAttributes (e : CompiledExpr) : List Path :=
  e.attributes.filter fun p => match p.head? with
    | some root => isHostRoot root
    | none => false

/-- `cel.rs` L317-319 `build_data_map`. -/
def readData (c : Ctx (Attrs W)) (s : Attrs W) (e : CompiledExpr) : Ans (List (Key × Val)) × Attrs W :=
  readMap (w.store c) (attrGet w.abi.backend w.lib.json) [] (attrTree e.attributes) s

/-- `context.rs` L132-143 `get_request_header`: the host is asked, not the cache. -/
def requestHeader (s : Attrs W) (key : Text) : Option Text :=
  match w.abi.mapValue s.world .request key with
  | .ok v => v
  | .error _ => none

/-- `cel.rs` L342-371 `resolve_grpc`. -/
def readGrpc (s : Attrs W) : Option Val × Attrs W :=
  if (w.requestHeader s "content-type".toList).any isGrpcContentType then
    match s.read w.abi.backend (fromBytes fromUtf8) ["request".toList, "url_path".toList] with
    | (.available urlPath, s') => (resolveGrpc (w.requestHeader s "content-type".toList) urlPath, s')
    | (_, s') => (resolveGrpc (w.requestHeader s "content-type".toList) none, s')
  else (none, s)

/-- `context.rs` L364-366 and L391-409 for a trace export. The request id is fixed by then, since the tracing action
asks for it when it is built. -/
def exportId (c : Ctx (Attrs W)) : Text :=
  match c.requestId with
  | some id => id
  | none => match c.host.read w.abi.backend asHeaders (headersPath .request) with
    | (.available hs, _) => (Headers.get hs "x-request-id".toList).getD (w.uuid c)
    | _ => w.uuid c

/-- The answers the filter gets. -/
def oracle : Oracle (Attrs W) where
  attrs c e := match w.compiled e with
    | none => (.err, c.host)
    | some (_, x) =>
      match w.readData c (c.host.ensure w.abi.backend (hostAttributes x)) x with
      | (.available _, s) => (.available (), s)
      | (.pending, s) => (.pending, s)
      | (.err, s) => (.err, s)
  resolve c vars e := match w.compiled e with
    | none => (none, c.host)
    | some (_, x) =>
      let (grpc, s) := if x.needsGrpc then w.readGrpc c.host else (none, c.host)
      match celVars (w.store c) (fun p => (attrGet w.abi.backend w.lib.json c.host p).1) grpc c.req.values
        c.resp.values vars x with
      | .available vars => (w.lib.exec e.src vars, s)
      | _ => (none, s)
  parse t := (w.lib.cel t).map fun x =>
    { src := t, reqFields := (compileExpr x).requestFields, respFields := (compileExpr x).responseFields }
  encode _ svc v := w.lib.encode svc v
  dispatch c svc message rid :=
    let call := { upstream := svc.upstream, service := svc.service, method := svc.method,
                  headers := w.traceHeaders c ++ [("x-request-id".toList, utf8 rid)], message,
                  timeout := svc.timeout }
    match w.abi.dispatchCall c.host.world call with
    | (token, world) => (token, { c.host with world })
  response c svc size := ((w.abi.grpcResponse c.host.world size).bind (w.lib.decode svc), c.host)
  sendReply c status hs body :=
    match w.abi.sendReply c.host.world status hs (body.map utf8) with
    | (accepted, world) => (accepted, { c.host with world })
  getHeaders c t := c.host.read w.abi.backend asHeaders (headersPath t)
  setHeaders c t hs := c.host.writeHeaders w.abi.backend t hs
  setAttr c path v := c.host.writeBytes w.abi.backend (Path.parse path) v
  toBytes := w.lib.toBytes
  readBody c s start size := (w.abi.body c.host.world s start size, c.host)
  exportSpans c upstream :=
    match w.spans c with
    | none => (none, c.host)
    | some message =>
      let call := { upstream, service := "opentelemetry.proto.collector.trace.v1.TraceService".toList,
                    method := "Export".toList,
                    headers := w.traceHeaders c ++ [("x-request-id".toList, utf8 (w.exportId c))],
                    message, timeout := w.tracingTimeout upstream }
      match w.abi.dispatchCall c.host.world call with
      | (token, world) => (token, { c.host with world })
  hostname c := c.host.read w.abi.backend (fromBytes fromUtf8) (Path.parse "request.host".toList)
  ensure c es := c.host.ensure w.abi.backend
    (es.flatMap fun e => match w.compiled e with
      | some (_, x) => hostAttributes x
      | none => [])
  uuid c := (w.uuid c, c.host)
  json := w.lib.json

end World

end Verif
