import Verif.Spec.Answers
import Verif.Spec.Verdict
/-!
What the authorization service and the rate limiter say in the messages they send, read off the protobuf messages
themselves, and what the filter has to do about it.
-/
namespace Verif.Spec
open Verif

/-! ### Reading messages -/

/-- The text in a field; it is empty when the field is not set. -/
def textIn (fields : List (Text × ProtoVal)) (name : String) : Text :=
  match mapGet fields name.toList with
  | some (.string t) => t
  | _ => []

/-- The number of an enum in a field; it is zero when the field is not set. -/
def numberIn (fields : List (Text × ProtoVal)) (name : String) : Int :=
  match mapGet fields name.toList with
  | some (.enum i) => i
  | _ => 0

/-- The entries of a repeated field. -/
def entriesIn (fields : List (Text × ProtoVal)) (name : String) : List ProtoVal :=
  match mapGet fields name.toList with
  | some (.list l) => l
  | _ => []

/-- The fields of the message in a field, if it is set. -/
def messageIn (fields : List (Text × ProtoVal)) (name : String) : Option (List (Text × ProtoVal)) :=
  match mapGet fields name.toList with
  | some (.message _ inner) => some inner
  | _ => none

/-- The header that a `HeaderValueOption` asks for. -/
def headerOf : ProtoVal → Option (Text × Text)
  | .message _ fields => (messageIn fields "header").map fun h => (textIn h "key", textIn h "value")
  | _ => none

/-- The headers that a list of `HeaderValueOption` asks for. -/
def headersIn (fields : List (Text × ProtoVal)) (name : String) : Headers := (entriesIn fields name).filterMap headerOf

/-! ### Decisions -/

/-- The request is ended with a reply, ended with an internal error, or it goes on and headers are set. -/
inductive Decision where
  | refuse (status : Nat) (headers : Headers) (body : Text)
  | fail
  | proceed (headers : Headers)

/-- What a `RateLimitResponse` asks for. `OK` is 1 and `OVER_LIMIT` is 2. -/
def limitDecision (fields : List (Text × ProtoVal)) : Decision :=
  if numberIn fields "overall_code" = 2 then
    .refuse 429 (headersIn fields "response_headers_to_add") "Too Many Requests\n".toList
  else if numberIn fields "overall_code" = 1 then .proceed (headersIn fields "response_headers_to_add")
  else .fail

/-- What a `CheckResponse` asks for. -/
def checkDecision (fields : List (Text × ProtoVal)) : Decision :=
  match messageIn fields "denied_response", messageIn fields "ok_response" with
  | some d, _ =>
    let code := numberIn ((messageIn d "status").getD []) "code"
    .refuse (if code = 0 then 403 else code.toNat) (headersIn d "headers") (textIn d "body")
  | none, some k =>
    if (entriesIn k "response_headers_to_add").isEmpty && (entriesIn k "headers_to_remove").isEmpty &&
      (entriesIn k "query_parameters_to_set").isEmpty && (entriesIn k "query_parameters_to_remove").isEmpty
    then .proceed (headersIn k "headers")
    else .fail
  | none, none => .fail

/-- What is done after the effects `before` is what was decided. -/
def Decision.Carried {H : Type} (o : Oracle H) (known : Ctx H → Prop) (target : Target)
    (before mine : List Effect) : Decision → Prop
  | .refuse status headers body => ∃ first es, mine = .applied first :: es ∧ EndsWith status headers (replyBody body) es
  | .fail => ∃ idle es, mine = idle ++ .errors :: es ∧ Idle idle ∧
      EndsWith 500 [] (some "Internal Server Error.\n".toList) es
  | .proceed headers => Sets o known target headers before mine

/-- The same, or the action `id` that sets the headers has to wait for them. -/
def Decision.Undertaken {H : Type} (o : Oracle H) (known : Ctx H → Prop) (target : Target) (id : Text)
    (before mine : List Effect) (d : Decision) : Prop :=
  d.Carried o known target before mine ∨
  ∃ headers, d = .proceed headers ∧ headers ≠ [] ∧ Postponed o known target id before mine

/-! ### The message types -/

def optionName : Text := "envoy.config.core.v3.HeaderValueOption".toList
def headerName : Text := "envoy.config.core.v3.HeaderValue".toList
def limitName : Text := "envoy.service.ratelimit.v3.RateLimitResponse".toList
def checkName : Text := "envoy.service.auth.v3.CheckResponse".toList
def deniedName : Text := "envoy.service.auth.v3.DeniedHttpResponse".toList
def okName : Text := "envoy.service.auth.v3.OkHttpResponse".toList
def httpStatusName : Text := "envoy.type.v3.HttpStatus".toList

/-- The message type has such a field. -/
def HasKind (L : ProtoLib) (type : Text) (name : String) (kind : ProtoKind) (repeated : Bool) (presence : Bool) : Prop :=
  ∃ f ∈ (L.desc type).fields, f.name = name.toList ∧ f.kind = kind ∧ f.repeated = repeated ∧ f.presence = presence

/-- The fields that matter here, as the services' descriptors have them. -/
structure EnvoyDescs (L : ProtoLib) : Prop where
  header : HasKind L optionName "header" (.message headerName) false true
  noKey : ∀ f ∈ (L.desc optionName).fields, f.name ≠ "key".toList
  key : HasKind L headerName "key" .string false false
  value : HasKind L headerName "value" .string false false
  code : ∃ rest, HasKind L limitName "overall_code" (.enum (0 :: rest)) false false
  limitHeaders : HasKind L limitName "response_headers_to_add" (.message optionName) true false
  denied : HasKind L checkName "denied_response" (.message deniedName) false true
  ok : HasKind L checkName "ok_response" (.message okName) false true
  oneof : ∃ kind, ∀ f ∈ (L.desc checkName).fields,
    f.name = "denied_response".toList ∨ f.name = "ok_response".toList → f.oneof = some kind
  metadata : HasKind L checkName "dynamic_metadata" (.message "google.protobuf.Struct".toList) false true
  status : HasKind L deniedName "status" (.message httpStatusName) false true
  deniedHeaders : HasKind L deniedName "headers" (.message optionName) true false
  body : HasKind L deniedName "body" .string false false
  statusCode : ∃ rest, HasKind L httpStatusName "code" (.enum (0 :: rest)) false false
  okHeaders : HasKind L okName "headers" (.message optionName) true false
  responseHeaders : HasKind L okName "response_headers_to_add" (.message optionName) true false
  removed : HasKind L okName "headers_to_remove" .string true false
  setParameters : ∃ n, HasKind L okName "query_parameters_to_set" (.message n) true false ∧ (L.desc n).mapEntry = false
  removedParameters : HasKind L okName "query_parameters_to_remove" .string true false
  noMaps : (L.desc optionName).mapEntry = false

end Verif.Spec
