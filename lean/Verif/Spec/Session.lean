import Verif.Model.Session
import Verif.Spec.HeaderList
/-! What a request does to its host. -/
namespace Verif.Spec

open Verif

/-- The callbacks, each with the host and the attribute cache as the filter finds them. -/
def _root_.Verif.World.trailFrom {W : Type} (w : World W) : Session W → List (Event W) → List (Event (Attrs W))
  | _, [] => []
  | s, e :: es => e.map (fun world => { s.host with world }) :: w.trailFrom (w.callback s e) es

def _root_.Verif.World.trail {W : Type} (w : World W) (factory : Factory) (world : W) (events : List (Event W)) :
    List (Event (Attrs W)) :=
  w.trailFrom (w.begin factory world) events

/-- The header map written last. -/
def written (t : Target) (log : List Effect) : Option Headers :=
  log.foldl (fun last e => match e with
    | .headersSet t' hs => if t' = t then some hs else last
    | _ => last) none

/-- Hosts that change a header map only when they are told to. -/
structure KeepsMaps {W : Type} (abi : Abi W) : Prop where
  dispatch : ∀ x call t, abi.getMap (abi.dispatch x call).2 t = abi.getMap x t
  reply : ∀ x s hs b t, abi.getMap (abi.reply x s hs b).2 t = abi.getMap x t
  property : ∀ x p v t, abi.getMap (abi.setProperty x p v).2 t = abi.getMap x t
  other : ∀ x t t' hs, t' ≠ t → abi.getMap (abi.setMap x t hs).2 t' = abi.getMap x t'
  refused : ∀ x t hs e, (abi.setMap x t hs).1 = .error e → abi.getMap (abi.setMap x t hs).2 t = abi.getMap x t

/-- Hosts that do as they are told with a header map. -/
def TakesMaps {W : Type} (abi : Abi W) : Prop :=
  ∀ x t hs, (abi.setMap x t hs).1 = .ok () → abi.getMap (abi.setMap x t hs).2 t = .ok hs

/-- An effect that writes the attribute with this printed path. -/
def WritesKey (k : Text) : Effect → Prop
  | .headersSet t _ => k = (headersPath t).print
  | .attrSet path _ _ => k = (Path.parse path).print
  | _ => False

/-- Calls a host gets for a request, apart from reads, with its answer. -/
inductive HostCall where
  | grpc (call : GrpcCall) (answer : Except Status Nat)
  | reply (status : Nat) (headers : Headers) (body : Option Bytes) (answer : Except Status Unit)
  | setMap (t : Target) (headers : Headers) (answer : Except Status Unit)
  | setProperty (path : Path) (value : Bytes) (answer : Except Status Unit)

/-- `calls` is the list of calls a host got. -/
structure Records {W : Type} (abi : Abi W) (calls : W → List HostCall) : Prop where
  grpc : ∀ x c, calls (abi.dispatch x c).2 = calls x ++ [.grpc c (abi.dispatch x c).1]
  reply : ∀ x s hs b, calls (abi.reply x s hs b).2 = calls x ++ [.reply s hs b (abi.reply x s hs b).1]
  setMap : ∀ x t hs, calls (abi.setMap x t hs).2 = calls x ++ [.setMap t hs (abi.setMap x t hs).1]
  setProperty : ∀ x p v, calls (abi.setProperty x p v).2 = calls x ++ [.setProperty p v (abi.setProperty x p v).1]

/-- The call stands for the effect. -/
inductive StandsFor : HostCall → Effect → Prop where
  | grpc {call token svc rid id guard trace} (hu : call.upstream = svc.upstream) (hs : call.service = svc.service)
      (hm : call.method = svc.method) (ht : call.timeout = svc.timeout)
      (hh : call.headers = trace ++ [("x-request-id".toList, utf8 rid)]) :
      StandsFor (.grpc call (.ok token)) (.dispatch id guard token svc call.message rid)
  | exported {call token} (hs : call.service = "opentelemetry.proto.collector.trace.v1.TraceService".toList)
      (hm : call.method = "Export".toList) : StandsFor (.grpc call (.ok token)) (.exported token)
  | reply {status hs} {body : Option Text} : StandsFor (.reply status hs (body.map utf8) (.ok ())) (.reply status hs body true)
  | replyRefused {status hs e} {body : Option Text} :
      StandsFor (.reply status hs (body.map utf8) (.error e)) (.reply status hs body false)
  | setMap {t hs} : StandsFor (.setMap t hs (.ok ())) (.headersSet t hs)
  | setProperty {path v} :
      StandsFor (.setProperty (Attrs.hostPath (Path.parse path)) v (.ok ())) (.attrSet path v true)

/-- Refused calls without an effect. -/
inductive Refused : HostCall → Prop where
  | grpc {call e} : Refused (.grpc call (.error e))
  | setMap {t hs e} : Refused (.setMap t hs (.error e))
  | setProperty {p v e} : Refused (.setProperty p v (.error e))

/-- The effects that are requests to the host. -/
def Asks : Effect → Prop
  | .dispatch .. => True
  | .exported _ => True
  | .reply .. => True
  | .headersSet .. => True
  | .attrSet .. => True
  | _ => False

/-- The calls are those of the history, in the same order, each effect standing for one call; calls may be refused
in between. -/
inductive Told : List HostCall → List Effect → Prop where
  | nil : Told [] []
  | call {cs es c e} (h : Told cs es) (hc : StandsFor c e) : Told (cs ++ [c]) (es ++ [e])
  | refused {cs es c} (h : Told cs es) (hc : Refused c) : Told (cs ++ [c]) es
  | inner {cs es e} (h : Told cs es) (he : ¬ Asks e) : Told cs (es ++ [e])

end Verif.Spec
