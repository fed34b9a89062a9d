import Verif.Model.Cache
/-!
Model of `crates/wasm-shim/src/wasm_host.rs`: how the answers of the host become answers of the filter's
backend. The host is behind `Abi`: the calls of `proxy_wasm::hostcalls` the filter makes for a request. Reading
calls do not change the state of the host.
-/
namespace Verif

/-- `proxy_wasm::types::Status` of a failed call: only `BadArgument` is told apart. -/
inductive Status where
  | badArgument
  | other (code : Nat)
deriving DecidableEq, Repr

/-- `proxy_wasm::types::BufferType`, as far as it is used for a request. -/
inductive Buffer where
  | requestBody
  | responseBody
  | grpcResponse
deriving DecidableEq, Repr

/-- The arguments of the host's `dispatch_grpc_call`. The timeout is in nanoseconds. -/
structure GrpcCall where
  upstream : Text
  service : Text
  method : Text
  headers : List (Text × Bytes)
  message : Bytes
  timeout : Nat
deriving DecidableEq, Repr

/-- The calls of `proxy_wasm::hostcalls`. `W` is the state of the host. -/
structure Abi (W : Type) where
  getProperty : W → Path → Except Status (Option Bytes)
  getMap : W → Target → Except Status Headers
  getMapValue : W → Target → Text → Except Status (Option Text)
  getBuffer : W → Buffer → Nat → Nat → Except Status (Option Bytes)
  setProperty : W → Path → Bytes → Except Status Unit × W
  setMap : W → Target → Headers → Except Status Unit × W
  dispatch : W → GrpcCall → Except Status Nat × W
  reply : W → Nat → Headers → Option Bytes → Except Status Unit × W

namespace Abi

variable {W : Type} (a : Abi W)

/-- `wasm_host.rs` L46-57 `get_attribute`. -/
def property (w : W) (p : Path) : Except AttrErr (Option Bytes) :=
  match a.getProperty w p with
  | .ok data => .ok data
  | .error .badArgument => .error .notAvailable
  | .error (.other _) => .error .retrieval

/-- `wasm_host.rs` L59-74 `get_attribute_map`. -/
def map (w : W) (t : Target) : Except AttrErr Headers :=
  match a.getMap w t with
  | .ok m => if m.isEmpty then .error .notAvailable else .ok m
  | .error _ => .error .retrieval

/-- `wasm_host.rs` L76-91 `get_attribute_map_value`. -/
def mapValue (w : W) (t : Target) (key : Text) : Except AttrErr (Option Text) :=
  match a.getMapValue w t key with
  | .ok v => .ok v
  | .error .badArgument => .error .notAvailable
  | .error (.other _) => .error .retrieval

/-- `wasm_host.rs` L93-102 `set_attribute`. -/
def setAttribute (w : W) (p : Path) (v : Bytes) : Except AttrErr Unit × W :=
  match a.setProperty w p v with
  | (.ok _, w) => (.ok (), w)
  | (.error _, w) => (.error .set, w)

/-- `wasm_host.rs` L104-116 `set_attribute_map`. -/
def setAttributeMap (w : W) (t : Target) (hs : Headers) : Except AttrErr Unit × W :=
  match a.setMap w t hs with
  | (.ok _, w) => (.ok (), w)
  | (.error .badArgument, w) => (.error .notAvailable, w)
  | (.error (.other _), w) => (.error .set, w)

/-- The attribute functions of the backend. -/
def backend : Backend W where
  getAttr w p := (a.property w p, w)
  getMap w t := (a.map w t, w)
  setAttr := a.setAttribute
  setMap := a.setAttributeMap

/-- `wasm_host.rs` L118-156 `get_http_request_body` and `get_http_response_body`, with `context.rs` L280-302. -/
def body (w : W) (s : Source) (start size : Nat) : Ans (Option Bytes) :=
  match a.getBuffer w (match s with | .request => .requestBody | .response => .responseBody) start size with
  | .ok bytes => .available bytes
  | .error .badArgument => .pending
  | .error (.other _) => .err

/-- `wasm_host.rs` L158-191 `dispatch_grpc_call`. -/
def dispatchCall (w : W) (c : GrpcCall) : Option Nat × W :=
  match a.dispatch w c with
  | (.ok token, w) => (some token, w)
  | (.error _, w) => (none, w)

/-- `wasm_host.rs` L193-207 `get_grpc_response`. -/
def grpcResponse (w : W) (size : Nat) : Option Bytes :=
  if size = 0 then none
  else match a.getBuffer w .grpcResponse 0 size with
    | .ok bytes => bytes
    | .error _ => none

/-- `wasm_host.rs` L209-218 `send_http_reply`. -/
def sendReply (w : W) (status : Nat) (hs : Headers) (body : Option Bytes) : Bool × W :=
  match a.reply w status hs body with
  | (.ok _, w) => (true, w)
  | (.error _, w) => (false, w)

end Abi

end Verif
