import Verif.Model.Factory
import Verif.Spec.Truth
/-! Conditions on configurations, used in the statements of properties. -/
namespace Verif.Spec

open Verif

/-- `Q` holds of a typed action and of all its reply actions, at every depth. -/
inductive EveryAction (Q : TypedAction → Prop) : TypedAction → Prop
  | mk (a : TypedAction) (h : Q a)
      (hr : ∀ head service var message replies, a = .grpc head service var message replies →
        ∀ b ∈ replies, EveryAction Q b) : EveryAction Q a

/-- All deny actions are terminal, nested ones included. -/
def DeniesTerminal : ActionConfig → Prop
  | .typed a => EveryAction (fun b => ∀ h e, b = .deny h e → h.terminal = true) a
  | .legacy _ translation => ∀ kind,
      EveryAction (fun b => ∀ h e, b = .deny h e → h.terminal = true) (translation kind)

/-- The entry of the configuration is a gRPC call. -/
def IsCall : ActionConfig → Prop
  | .typed (.grpc ..) => True
  | .typed _ => False
  | .legacy _ translation => ∀ kind, ∃ head service var message replies,
      translation kind = .grpc head service var message replies

/-- The request is served by action set `s`: the factory selects its blueprint, to which developer mode
may add an action. -/
def ServedBy {H : Type} (o : Oracle H) (parse : Text → Option Expr) (cfg : PluginConfig)
    (factory : Factory) (host : H) (s : ActionSet) : Prop :=
  ∃ b b', (factory.select o { host := host }).1 = .found b ∧
    Blueprint.compile parse cfg.services s = some b' ∧
    b = { b' with actions := b'.actions ++ (devModeAction cfg).toList }

/-- How an action of the configuration is scheduled. -/
inductive Mode where
  | sequential | parallel | legacy

def mode : ActionConfig → Mode
  | .legacy .. => .legacy
  | .typed a => if a.head.sequential then .sequential else .parallel

/-- `i` waits for `j`, directly or through other actions, in a list of direct dependencies. -/
inductive Waits (deps : List (List Nat)) : Nat → Nat → Prop
  | direct {i j : Nat} {d : List Nat} (h : deps[i]? = some d) (hj : j ∈ d) : Waits deps i j
  | trans {i j k : Nat} (h : Waits deps i j) (g : Waits deps j k) : Waits deps i k

/-- `s` is the latest sequential action before `i`. -/
def LatestSequential (modes : List Mode) (i s : Nat) : Prop :=
  s < i ∧ modes[s]? = some .sequential ∧ ∀ k, s < k → k < i → modes[k]? ≠ some .sequential

/-- The entry is a call of a service with failure mode deny (`true`) or allow (`false`). -/
def FailureMode (services : Text → Option SvcInst) (deny : Bool) : ActionConfig → Prop
  | .typed (.grpc _ service _ _ _) => ∃ kind svc, services service = some (.call kind svc deny)
  | .typed _ => False
  | .legacy _ translation => ∀ kind, ∃ head service var message replies,
      translation kind = .grpc head service var message replies ∧
      ∃ kind svc, services service = some (.call kind svc deny)

/-- The entry is a call with this predicate, message and service. -/
def CallOf (parse : Text → Option Expr) (services : Text → Option SvcInst) (pred msg : Expr) (svc : Svc) :
    ActionConfig → Prop
  | .typed (.grpc head service _ message _) => parse head.predicate = some pred ∧
      parse message = some msg ∧ ∃ kind deny, services service = some (.call kind svc deny)
  | .typed _ => False
  | .legacy _ translation => ∀ kind, ∃ head service var message replies,
      translation kind = .grpc head service var message replies ∧ parse head.predicate = some pred ∧
      parse message = some msg ∧ ∃ kind deny, services service = some (.call kind svc deny)

/-- The entry is a call with reply actions. -/
def HasReplies : ActionConfig → Prop
  | .typed (.grpc _ _ _ _ replies) => replies ≠ []
  | .typed _ => False
  | .legacy _ translation => ∀ kind, ∃ head service var message replies,
      translation kind = .grpc head service var message replies ∧ replies ≠ []

/-- The expression refers to fields of a body that has ended: waiting for them is in vain. -/
def TooLate {H : Type} (c : Ctx H) (e : Expr) : Prop :=
  e.reqFields ≠ [] ∧ c.req.eos = true ∨ e.respFields ≠ [] ∧ c.resp.eos = true

/-- Sending the call fails in this context: its predicate or message cannot be evaluated or refers to body
data that will not come any more, or the message cannot be encoded or dispatched. -/
inductive CallFails {H : Type} (o : Oracle H) (c : Ctx H) (id : Text) (pred msg : Expr) (svc : Svc) : Prop
  | predicate (c' : Ctx H) (h : tests o c id pred = (.err, c'))
  | predicateLate (c' : Ctx H) (h : tests o c id pred = (.pending, c')) (hg : TooLate c' pred)
  | message (c' c'' : Ctx H) (h : tests o c id pred = (.available true, c'))
      (hm : evalExpr o c' id msg = (.err, c''))
  | messageLate (c' c'' : Ctx H) (h : tests o c id pred = (.available true, c'))
      (hm : evalExpr o c' id msg = (.pending, c'')) (hg : TooLate c'' msg)
  | dispatch (c' c'' : Ctx H) (v : Val) (h : tests o c id pred = (.available true, c'))
      (hm : evalExpr o c' id msg = (.available v, c'')) (hd : (dispatchValue o c'' svc v).1 = none)

/-- Requests export their traces: developer mode is on and the tracing service is a trace collector. -/
def exportsTraces (cfg : PluginConfig) : Bool :=
  cfg.headerIdentifier.isSome && match cfg.tracingService.bind cfg.services with
    | some (.tracing (some _)) => true
    | _ => false

/-- The typed action an entry of the configuration stands for: a legacy action is translated for the kind of
the service it names. -/
def standsFor (services : Text → Option SvcInst) : ActionConfig → Option TypedAction
  | .typed a => some a
  | .legacy service translation =>
    match services service with
    | some (.call kind _ _) => if kind = .dynamic then none else some (translation kind)
    | _ => none

/-- The actions of a set with their identifiers: `3` is the fourth action, `3.0` its first reply action. -/
inductive At (services : Text → Option SvcInst) (s : ActionSet) : Text → TypedAction → Prop
  | top {i : Nat} {a : ActionConfig} {t : TypedAction} (h : s.actions[i]? = some a)
      (hs : standsFor services a = some t) : At services s (natText i) t
  | reply {id : Text} {head : TypedHead} {service var message : Text} {replies : List TypedAction} {j : Nat}
      {t : TypedAction} (h : At services s id (.grpc head service var message replies))
      (hj : replies[j]? = some t) : At services s (id ++ '.' :: natText j) t

/-- The header that carries the request id in developer mode. If the setting for the tracing service names
another kind of service, that service is called and no header is used. -/
def trackingHeader (cfg : PluginConfig) : Option Text :=
  match cfg.tracingService.bind cfg.services with
  | some (.call ..) => none
  | _ => cfg.headerIdentifier

end Verif.Spec
