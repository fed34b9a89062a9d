import Verif.Spec.Config
import Verif.Spec.HeaderList
/-!
# Where the effects of a request come from

What a request changes or sends (calls, replies, header replacements, attribute writes and stored values) and the
configured actions that may cause it.
-/
namespace Verif.Spec

variable {H : Type}

/-- One more effect: the values stored under paths, the latest for every path. -/
def noteStored (m : List (Text × Val)) : Effect → List (Text × Val)
  | .stored path v => mapInsert m path v
  | _ => m

/-- The values stored by the effects so far. -/
def storedIn (log : List Effect) : List (Text × Val) := log.foldl noteStored []

/-- When the effects were `log`, the predicate of action `x` was true and then its expression had the value `v`,
leaving the context `after`. Expressions saw the values stored so far, in a context of which `known` holds. -/
def EvaluatedIn (o : Oracle H) (known : Ctx H → Prop) (log : List Effect) (x : Text) (pred e : Expr) (v : Val)
    (after : Ctx H) : Prop :=
  ∃ c c' : Ctx H, c.log = log ∧ c.values = storedIn log ∧ known c ∧ tests o c x pred = (.available true, c') ∧
    evalExpr o c' x e = (.available v, after)

/-- The header that tells the request id, in developer mode. -/
def trackingPair (cfg : PluginConfig) (hs : Headers) : Prop :=
  match trackingHeader cfg with
  | none => hs = []
  | some name => ∃ r, hs = [(name, r)]

/-- The identifier of the action that developer mode adds. -/
def devModeId : Text := "kuadrant.devMode".toList

/-- The body of error replies. -/
def errorBody : Text := "Internal Server Error.\n".toList

/-- The effect `e`, directly after the effects `log`, comes from an action of the set, from developer mode, or is
the error reply. Of the contexts in which expressions were evaluated, `known` holds, and `fed` of those in which the
expressions of actions that keep values were. -/
inductive CausedIn (o : Oracle H) (known fed : Ctx H → Prop) (parse : Text → Option Expr) (cfg : PluginConfig)
    (s : ActionSet) : List Effect → Effect → Prop
  /-- A call of a configured action: its service, the encoding of its message, and a guard if it is one. -/
  | call {log x head service var message replies pred msg kind svc deny v c bytes token rid}
      (hat : At cfg.services s x (.grpc head service var message replies))
      (hp : parse head.predicate = some pred) (hm : parse message = some msg)
      (hs : cfg.services service = some (.call kind svc deny))
      (hv : EvaluatedIn o known (log ++ [.applied x]) x pred msg v c) (hb : o.encode c svc v = some bytes) :
      CausedIn o known fed parse cfg s (log ++ [.applied x]) (.dispatch x head.guard token svc bytes rid)
  /-- The headers that a header action lists are replaced. -/
  | headers {log x head target source pred e v c old new}
      (hat : At cfg.services s x (.headers head target source))
      (hp : parse head.predicate = some pred) (he : parse source = some e)
      (hv : EvaluatedIn o known (log ++ [.applied x]) x pred e v c) (ho : (o.getHeaders c target).1 = .available old)
      (hn : Replaced old (headerPairs v) new) :
      CausedIn o known fed parse cfg s (log ++ [.applied x]) (.headersSet target new)
  /-- A value is kept. -/
  | value {log x head path source pred e v c}
      (hat : At cfg.services s x (.store head path source false))
      (hp : parse head.predicate = some pred) (he : parse source = some e)
      (hv : EvaluatedIn o fed (log ++ [.applied x]) x pred e v c) :
      CausedIn o known fed parse cfg s (log ++ [.applied x]) (.stored path v)
  /-- A value is exported to the host. -/
  | attribute {log x head path source pred e v c bytes written}
      (hat : At cfg.services s x (.store head path source true))
      (hp : parse head.predicate = some pred) (he : parse source = some e)
      (hv : EvaluatedIn o fed (log ++ [.applied x]) x pred e v c) (hb : o.toBytes v = some bytes) :
      CausedIn o known fed parse cfg s (log ++ [.applied x]) (.attrSet path bytes written)
  /-- The exported value is kept, too. -/
  | exported {log x head path source pred e v c bytes written}
      (hat : At cfg.services s x (.store head path source true))
      (hp : parse head.predicate = some pred) (he : parse source = some e)
      (hv : EvaluatedIn o fed (log ++ [.applied x]) x pred e v c) (hb : o.toBytes v = some bytes) :
      CausedIn o known fed parse cfg s (log ++ [.applied x] ++ [.attrSet path bytes written]) (.stored path v)
  /-- The reply of a deny action. -/
  | deny {log x head source pred e name fields c tracking accepted}
      (hat : At cfg.services s x (.deny head source))
      (hp : parse head.predicate = some pred) (he : parse source = some e)
      (hv : EvaluatedIn o known (log ++ [.applied x]) x pred e (.struct name fields) c) (ht : trackingPair cfg tracking) :
      CausedIn o known fed parse cfg s (log ++ [.applied x] ++ [.denied])
        (.reply (readDeny fields).1 ((readDeny fields).2.1 ++ tracking) (readDeny fields).2.2 accepted)
  /-- The error reply. -/
  | error {log tracking accepted} (ht : trackingPair cfg tracking) :
      CausedIn o known fed parse cfg s (log ++ [.denied]) (.reply 500 tracking (some errorBody) accepted)
  /-- The error reply for requests that cannot be processed at all. -/
  | broken {accepted} : CausedIn o known fed parse cfg s [.errors] (.reply 500 [] (some errorBody) accepted)
  /-- Developer mode tells the request id in a response header. -/
  | tracking {log name r e v c old new} (hn : trackingHeader cfg = some name)
      (he : o.parse ("[['".toList ++ name ++ "', '".toList ++ r ++ "']]".toList) = some e)
      (hv : EvaluatedIn o known (log ++ [.applied devModeId]) devModeId truePred e v c)
      (ho : (o.getHeaders c .response).1 = .available old) (hr : Replaced old (headerPairs v) new) :
      CausedIn o known fed parse cfg s (log ++ [.applied devModeId]) (.headersSet .response new)
  /-- Developer mode with a tracing service of another kind calls that service with the value `true`. -/
  | devCall {log header service kind svc deny token bytes rid} {c : Ctx H} (hh : cfg.headerIdentifier = some header)
      (ht : cfg.tracingService = some service) (hs : cfg.services service = some (.call kind svc deny))
      (hl : c.log = log ++ [.applied devModeId]) (hk : known c) (hb : o.encode c svc (.bool true) = some bytes) :
      CausedIn o known fed parse cfg s (log ++ [.applied devModeId]) (.dispatch devModeId true token svc bytes rid)

/-- Effects that change the request or the response, send something or keep a value. -/
def _root_.Verif.Effect.acts : Effect → Bool
  | .dispatch .. => true
  | .reply .. => true
  | .headersSet .. => true
  | .attrSet .. => true
  | .stored .. => true
  | _ => false

end Verif.Spec
