import Verif.Model.Ctx
/-!
Model of `crates/kuadrant-filter/src/data/grpc.rs` and of the attribute `grpc` built from it
(`crates/kuadrant-filter/src/data/cel.rs` L342-371).
-/
namespace Verif

/-- `data/grpc.rs` L2-4 `is_grpc_content_type`. -/
def isGrpcContentType (t : Text) : Bool := startsWith t "application/grpc".toList

/-- `str::split_once` with a character: the text before and after its first occurrence. -/
def splitOnce (c : Char) : Text → Option (Text × Text)
  | [] => none
  | x :: xs => if x = c then some ([], xs) else (splitOnce c xs).map fun r => (x :: r.1, r.2)

/-- `data/grpc.rs` L8-15 `parse_grpc_path`. -/
def parseGrpcPath : Text → Option (Text × Text)
  | '/' :: trimmed =>
    match splitOnce '/' trimmed with
    | none => none
    | some (service, method) =>
      if service.isEmpty || method.isEmpty || method.contains '/' then none else some (service, method)
  | _ => none

/-- `data/cel.rs` L342-371 `resolve_grpc`. `contentType` is the request header `content-type`, `none`
also when it cannot be read; `urlPath` is the attribute `request.url_path`, `none` also when it is
pending or cannot be read. -/
def resolveGrpc (contentType urlPath : Option Text) : Option Val :=
  match contentType with
  | none => none
  | some ct =>
    if isGrpcContentType ct then
      match urlPath.bind parseGrpcPath with
      | some (service, method) =>
        some (.map [(.str "service".toList, .str service), (.str "method".toList, .str method)])
      | none => none
    else none

end Verif
