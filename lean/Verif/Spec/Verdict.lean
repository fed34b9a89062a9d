import Verif.Spec.Moments
import Verif.Spec.HeaderList
import Verif.Spec.CelEval
import Verif.Model.Blueprint
/-!
Replies of the authorization service and of the rate limiter, and what the filter has to do about them.
-/
namespace Verif.Spec
open Verif

def NoField (fields : List (Text × Val)) (name : Text) : Prop := ∀ v, ¬HasField fields name v

/-! ### Rate limiting -/

/-- A `RateLimitResponse`: the overall code and the headers to add. -/
structure LimitReply where
  code : Int
  headers : List Val

/-- The decoded response is this reply. -/
def LimitReply.Is (r : LimitReply) (v : Val) : Prop := ∃ name fields, v = .struct name fields ∧
  HasField fields "overall_code".toList (.int r.code) ∧
  HasField fields "response_headers_to_add".toList (.list r.headers)

/-! ### Authorization -/

/-- An `OkHttpResponse`. -/
structure OkReply where
  headers : List Val := []
  responseHeaders : List Val := []
  removedHeaders : List Val := []
  setParameters : List Val := []
  removedParameters : List Val := []

/-- The filter cannot do what the reply asks for. -/
def OkReply.unsupported (r : OkReply) : Bool :=
  !(r.responseHeaders.isEmpty && r.removedHeaders.isEmpty && r.setParameters.isEmpty && r.removedParameters.isEmpty)

/-- The `http_response` of a `CheckResponse`: at most one of two messages. -/
inductive CheckResult where
  | absent
  | denied (status : Option Int) (headers : List Val) (body : Text)
  | ok (r : OkReply)

/-- A `CheckResponse`. -/
structure CheckReply where
  result : CheckResult
  metadata : Option Val := none

/-- The message contains this result. -/
def CheckResult.Is (fields : List (Text × Val)) : CheckResult → Prop
  | .absent => NoField fields "denied_response".toList ∧ NoField fields "ok_response".toList
  | .denied status headers body => NoField fields "ok_response".toList ∧
      ∃ name fs, HasField fields "denied_response".toList (.struct name fs) ∧
        HasField fs "headers".toList (.list headers) ∧ HasField fs "body".toList (.str body) ∧
        match status with
        | none => NoField fs "status".toList
        | some code => ∃ name s, HasField fs "status".toList (.struct name s) ∧ HasField s "code".toList (.int code)
  | .ok r => NoField fields "denied_response".toList ∧
      ∃ name fs, HasField fields "ok_response".toList (.struct name fs) ∧
        HasField fs "headers".toList (.list r.headers) ∧
        HasField fs "response_headers_to_add".toList (.list r.responseHeaders) ∧
        HasField fs "headers_to_remove".toList (.list r.removedHeaders) ∧
        HasField fs "query_parameters_to_set".toList (.list r.setParameters) ∧
        HasField fs "query_parameters_to_remove".toList (.list r.removedParameters)

/-- The decoded response is this reply. -/
def CheckReply.Is (r : CheckReply) (v : Val) : Prop := ∃ name fields, v = .struct name fields ∧
  r.result.Is fields ∧
  match r.metadata with
  | none => NoField fields "dynamic_metadata".toList
  | some m => HasField fields "dynamic_metadata".toList m

/-! ### Decisions -/

/-- What happens to the request: it is ended with a status, headers and a body, it is ended with an internal
error, or it goes on and some headers are set. -/
inductive Verdict where
  | refuse (status : Nat) (headers : List Val) (body : Text)
  | fail
  | proceed (headers : List Val)

/-- `OK` is 1 and `OVER_LIMIT` is 2. -/
def LimitReply.verdict (r : LimitReply) : Verdict :=
  if r.code = 2 then .refuse 429 r.headers "Too Many Requests\n".toList
  else if r.code = 1 then .proceed r.headers
  else .fail

/-- The status is 403 unless the reply gives another one. -/
def CheckReply.verdict (r : CheckReply) : Verdict :=
  match r.result with
  | .absent => .fail
  | .denied status headers body =>
    .refuse (match status with
      | none => 403
      | some code => if code = 0 then 403 else code.toNat) headers body
  | .ok k => if k.unsupported then .fail else .proceed k.headers

/-- No reply has an empty body. -/
def replyBody (t : Text) : Option Text := if t = [] then none else some t

/-- The request is ended with this reply, to which a tracking header may be added. -/
def EndsWith (status : Nat) (headers : Headers) (body : Option Text) (log : List Effect) : Prop :=
  ∃ tracking, tracking.length ≤ 1 ∧ log = [.denied, .reply status (headers ++ tracking) body true, .ended]

/-- Only starts and completions of actions. -/
def Idle (log : List Effect) : Prop :=
  ∀ e ∈ log, (∃ id, e = .applied id) ∨ (∃ id, e = .completed id)

/-- Nothing but starts and completions of actions, and values stored and handed to the host. -/
def Calm (log : List Effect) : Prop :=
  ∀ e ∈ log, (∃ id, e = .applied id) ∨ (∃ id, e = .completed id) ∨ (∃ p v, e = .stored p v) ∨
    (∃ p b ok, e = .attrSet p b ok)

/-- The listed headers are set once, or not at all if none is listed, and nothing else happens. The old ones are
those the host has at that time, in a context of `known`. -/
def Sets {H : Type} (o : Oracle H) (known : Ctx H → Prop) (target : Target) (pairs : Headers)
    (before mine : List Effect) : Prop :=
  (pairs = [] ∧ Calm mine) ∨
  (pairs ≠ [] ∧ ∃ a new b, mine = a ++ .headersSet target new :: b ∧ Calm a ∧ Calm b ∧
    ∃ (c : Ctx H) (old : Headers), known c ∧ c.log = before ++ a ∧ (o.getHeaders c target).1 = .available old ∧
      Replaced old pairs new)

/-- What is done after the effects `before` is what the verdict asks for. -/
def Verdict.Done {H : Type} (o : Oracle H) (known : Ctx H → Prop) (target : Target) (before mine : List Effect) :
    Verdict → Prop
  | .refuse status items body => ∃ id pairs es, mine = .applied id :: es ∧ Pairs items pairs ∧
      EndsWith status pairs (replyBody body) es
  | .fail => ∃ idle es, mine = idle ++ .errors :: es ∧ Idle idle ∧
      EndsWith 500 [] (some "Internal Server Error.\n".toList) es
  | .proceed items => ∃ pairs, Pairs items pairs ∧ Sets o known target pairs before mine

/-- The action `id` was to set the headers and the host did not have them yet. Nothing else happened. -/
def Postponed {H : Type} (o : Oracle H) (known : Ctx H → Prop) (target : Target) (id : Text)
    (before mine : List Effect) : Prop :=
  Calm mine ∧ ∃ a b, mine = a ++ .applied id :: b ∧
    ∃ c : Ctx H, known c ∧ c.log = before ++ a ++ [.applied id] ∧ (o.getHeaders c target).1 = .pending

/-- What is done after the effects `before` is what the verdict asks for, or is postponed by the action `id` that sets
the headers. -/
def Verdict.Undertaken {H : Type} (o : Oracle H) (known : Ctx H → Prop) (target : Target) (id : Text)
    (before mine : List Effect) (v : Verdict) : Prop :=
  v.Done o known target before mine ∨
  ∃ items pairs, v = .proceed items ∧ Pairs items pairs ∧ pairs ≠ [] ∧ Postponed o known target id before mine

/-- The expressions of an action. -/
def exprTexts : TypedAction → List Text
  | .grpc head _ _ message _ => [head.predicate, message]
  | .deny head denyWith => [head.predicate, denyWith]
  | .headers head _ value => [head.predicate, value]
  | .store head _ value _ => [head.predicate, value]
  | .fail head => [head.predicate]

/-- The contexts after `log` in which the action sees the variable with the value. -/
def SeesValue {H : Type} (log : List Effect) (id var : Text) (v : Val) (c : Ctx H) : Prop :=
  (∃ es, c.log = log ++ es) ∧ (scopeVars c.bindings id).lookup var = some v

/-- The reply actions of the action `x` are evaluated as the language asks for, the variable having the value, in the
contexts of `known`. -/
def Understands {H : Type} (o : Oracle H) (known : Ctx H → Prop) (parse : Text → Option Expr) (x : Text)
    (replies : List TypedAction) (var : Text) (v : Val) (log : List Effect) : Prop :=
  ∀ j t, replies[j]? = some t → Cel.Interprets o parse (exprTexts t) (x ++ '.' :: natText j) (Cel.bound var v)
    (fun c => known c ∧ SeesValue log (x ++ '.' :: natText j) var v c)

/-- The host answers, in the contexts of `known`: it accepts replies, hands out the headers and takes new ones. -/
structure Willing {H : Type} (o : Oracle H) (known : Ctx H → Prop) (target : Target) : Prop where
  reply : ∀ c : Ctx H, Replying o known c → ∀ st hs b, (o.sendReply c st hs b).1 = true
  read : ∀ c : Ctx H, known c → ∃ hs, (o.getHeaders c target).1 = .available hs
  write : ∀ c : Ctx H, known c → ∀ hs, ∃ u, (o.setHeaders c target hs).1 = .available u

/-- The host answers, in the contexts of `known`: it accepts replies, does not refuse to hand out the headers, which it
may not have yet, and takes new ones when it has them. -/
structure Offers {H : Type} (o : Oracle H) (known : Ctx H → Prop) (target : Target) : Prop where
  reply : ∀ c : Ctx H, Replying o known c → ∀ st hs b, (o.sendReply c st hs b).1 = true
  read : ∀ c : Ctx H, known c → (o.getHeaders c target).1 ≠ .err
  write : ∀ (c : Ctx H) old h, known c → o.getHeaders c target = (.available old, h) →
    ∀ hs, ∃ u, (o.setHeaders (c.withHost h) target hs).1 = .available u

end Verif.Spec
