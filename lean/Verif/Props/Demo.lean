import Verif.Model.Filter
/-!
A small concrete world for the examples beside the theorems: expressions are constants, calls get the
tokens 0, 1, 2, … and the host accepts everything.
-/
namespace Verif.Demo

def json : JsonLib where
  parse _ := none
  pointer _ _ := none
  render _ := []
  parseF64 _ := none
  acuteRegister _ := true
  acuteFeed _ _ _ := some false
  acuteFinish _ _ := true
  acuteMatched _ _ _ := []

/-- A constant expression. -/
def const (v : Val) : Expr := { lit := some v }

def denied : Val := .struct "DenyResponse".toList [("status".toList, .uint 403)]

/-- The constants the demo configuration uses. -/
def parse (t : Text) : Option Expr :=
  if t = "true".toList then some (const (.bool true))
  else if t = "false".toList then some (const (.bool false))
  else if t = "deny".toList then some (const denied)
  else if t = "headers".toList then
    some (const (.list [.list [.str "x".toList, .str "1".toList]]))
  else if t = "error".toList then some (const .null)
  else if t = "body".toList then some { src := t, reqFields := ["/f".toList] }
  else if t = "null".toList then some (const .null)
  else if t = "[['x-id', 'id']]".toList then
    some (const (.list [.list [.str "x-id".toList, .str "id".toList]]))
  else none

/-- The host state is the next token; `reuse` makes the host reuse tokens. -/
def world : Oracle Nat where
  attrs c _ := (.available (), c.host)
  resolve c _ _ := (none, c.host)
  parse := parse
  encode _ _ _ := some []
  dispatch c _ _ _ := (some c.host, c.host + 1)
  response c _ _ := (some .null, c.host)
  sendReply c _ _ _ := (true, c.host)
  getHeaders c _ := (.available [], c.host)
  setHeaders c _ _ := (.available (), c.host)
  setAttr c _ _ := (.available (), c.host)
  toBytes _ := some []
  readBody c _ _ _ := (.available none, c.host)
  exportSpans c _ := (some c.host, c.host + 1)
  hostname c := (.available (some "Example.com:80".toList), c.host)
  ensure c _ := c.host
  uuid c := ("id".toList, c.host)
  json := json

def svc (name : String) : Svc := { upstream := name.toList, service := "S".toList, method := "m".toList }

/-- A service with failure mode deny, one with failure mode allow, and tracing. -/
def services (t : Text) : Option SvcInst :=
  if t = "deny".toList then some (.call .dynamic (svc "deny") true)
  else if t = "allow".toList then some (.call .dynamic (svc "allow") false)
  else if t = "auth".toList then some (.call .auth (svc "auth") true)
  else if t = "tracing".toList then some (.tracing (some "traces".toList))
  else none

def grpc (service : String) (onReply : List TypedAction := []) (predicate : String := "true")
    (guard : Bool := true) (sequential : Bool := false) (message : String := "null") : ActionConfig :=
  .typed (.grpc { predicate := predicate.toList, guard, sequential } service.toList "v".toList
    message.toList onReply)

def deny (predicate : String := "true") (terminal : Bool := true) (value : String := "deny") : TypedAction :=
  .deny { predicate := predicate.toList, terminal } value.toList

def headers (predicate : String := "true") (terminal : Bool := false) : TypedAction :=
  .headers { predicate := predicate.toList, terminal } .request "headers".toList

def config (actions : List ActionConfig) (header : Option String := none) (tracing : Bool := false) :
    PluginConfig where
  services := services
  tracingService := if tracing then some "tracing".toList else none
  headerIdentifier := header.map (·.toList)
  actionSets := [{
    name := "demo".toList
    hostnames := ["*.com".toList, "Example.com".toList]
    predicates := ["true".toList]
    actions }]

def factory (cfg : PluginConfig) : Factory := (Factory.tryFrom parse cfg).getD {}

theorem factory_eq (cfg : PluginConfig) (h : (Factory.tryFrom parse cfg).isSome = true) :
    Factory.tryFrom parse cfg = some (factory cfg) := by
  unfold factory
  cases hf : Factory.tryFrom parse cfg <;> simp_all

/-- A request with the host state 0. -/
def request (actions : List ActionConfig) (events : List (Event Nat)) (header : Option String := none)
    (tracing : Bool := false) : List Effect :=
  (Filter.run world (factory (config actions header tracing)) 0 events).log

def text (t : Text) : String := String.ofList t

/-- A readable form of an effect. -/
def show1 : Effect → String
  | .dispatch id guard token .. =>
    "call " ++ text id ++ (if guard then " guard" else "") ++ " token " ++ toString token
  | .exported token => "export token " ++ toString token
  | .reply status _ _ accepted => "reply " ++ toString status ++ (if accepted then "" else " refused")
  | .headersSet _ hs => "headers " ++ ",".intercalate (hs.map fun p => text p.1 ++ "=" ++ text p.2)
  | .attrSet path .. => "property " ++ text path
  | .resumeRequest => "resume request"
  | .resumeResponse => "resume response"
  | .returned _ pause => if pause then "pause" else "continue"
  | .hits => "hits"
  | .misses => "misses"
  | .allowed => "allowed"
  | .denied => "denied"
  | .errors => "errors"
  | .applied id => "start " ++ text id
  | .completed id => "completed " ++ text id
  | .failed id => "failed " ++ text id
  | .callFailed id => "call failed " ++ text id
  | .stored path _ => "stored " ++ text path
  | .responded token status _ => "response " ++ toString token ++ " status " ++ toString status
  | .ended => "ended"
  | .teardown => "teardown"

def view (log : List Effect) : List String := log.map show1

end Verif.Demo
