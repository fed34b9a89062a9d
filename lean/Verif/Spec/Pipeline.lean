import Verif.Model.Filter
/-!
Notions on histories of effects, used to state the properties of the request pipeline. Nothing here
refers to the executor: a history is a list of effects, oldest first.
-/
namespace Verif.Spec

open Verif

/-- How one effect changes the calls in flight. A call is in flight from the moment it is sent until its
response arrives. Each entry has the token and whether the call is a guard. -/
def track (calls : List (Nat × Bool)) : Effect → List (Nat × Bool)
  | .dispatch _ guard token _ _ _ => (token, guard) :: calls
  | .exported token => (token, false) :: calls
  | .responded token _ _ => calls.filter (fun c => c.1 ≠ token)
  | _ => calls

/-- The calls in flight after a history, the last sent first. -/
def inFlight (log : List Effect) : List (Nat × Bool) := log.foldl track []

/-- Is a guard call in flight? -/
def guardOutstanding (log : List Effect) : Bool := (inFlight log).any (·.2)

/-- The token of a call that is sent. -/
def sentToken : Effect → Option Nat
  | .dispatch _ _ token _ _ _ => some token
  | .exported token => some token
  | _ => none

/-- Property `Q` holds of each effect together with the history before it. -/
def Everywhere (Q : List Effect → Effect → Prop) (log : List Effect) : Prop :=
  ∀ pre e post, log = pre ++ e :: post → Q pre e

/-- The host never gives a new call the token of a call in flight. -/
def Fresh (log : List Effect) : Prop :=
  Everywhere (fun pre e => ∀ token, sentToken e = some token → token ∉ (inFlight pre).map Prod.fst) log

/-- Has an action ended the request early? -/
def Ended (log : List Effect) : Prop := Effect.ended ∈ log

/-- Has the response phase begun? The `allowed` counter is increased exactly when the response headers
arrive. -/
def inResponse (log : List Effect) : Bool := log.any fun
  | .allowed => true
  | _ => false

/-- Effects by which policies act on the request: replies, calls, header changes, property writes and
stored values. Trace exports are not policy effects. -/
def isPolicy : Effect → Bool
  | .dispatch .. => true
  | .reply .. => true
  | .headersSet .. => true
  | .attrSet .. => true
  | .stored .. => true
  | _ => false

/-- The host is told to go on with the request or the response. -/
def isResume : Effect → Bool
  | .resumeRequest => true
  | .resumeResponse => true
  | _ => false

/-- A direct reply the host accepted. -/
def isAcceptedReply : Effect → Bool
  | .reply _ _ _ accepted => accepted
  | _ => false

/-- What the host is told when the stream goes on. -/
def resumeEffect (log : List Effect) : Effect :=
  if inResponse log then .resumeResponse else .resumeRequest

/-- What may still happen in callbacks after an early end: traffic is answered and accounted for, late
responses arrive and are ticked off. -/
def afterEnd : Effect → Bool
  | .responded .. => true
  | .completed _ => true
  | .returned .. => true
  | .resumeRequest => true
  | .resumeResponse => true
  | .allowed => true
  | _ => false

/-- The host delivers response bodies only after the response headers. -/
def BodyAfterHeaders {H : Type} (events : List (Event H)) : Prop :=
  ∀ pre host size eos post, events = pre ++ .responseBody host size eos :: post →
    ∃ host', .responseHeaders host' ∈ pre

/-- The effect starts the action or sends its call. -/
def Begins (id : Text) (e : Effect) : Prop :=
  e = .applied id ∨ ∃ guard token svc bytes rid, e = .dispatch id guard token svc bytes rid

/-- The action has completed, and every call it sent was answered. -/
def Finished (log : List Effect) (id : Text) : Prop :=
  .completed id ∈ log ∧ ∀ pre guard token svc bytes rid post,
    log = pre ++ .dispatch id guard token svc bytes rid :: post → ∃ s z, .responded token s z ∈ post

/-- How often the action was started. An action that had to wait for data is started again. -/
def timesStarted (id : Text) (log : List Effect) : Nat := log.countP fun
  | .applied id' => decide (id' = id)
  | _ => false

/-- What follows is the end of the request with a 500 reply. -/
def FailsClosed (post : List Effect) : Prop :=
  ∃ headers accepted rest, post = .errors :: .denied ::
    .reply 500 headers (some "Internal Server Error.\n".toList) accepted :: .ended :: rest

/-- What follows is the completion of the action, without a reply. -/
def FailsOpen (id : Text) (post : List Effect) : Prop :=
  ∃ rest, post = .errors :: .completed id :: rest

/-- The last call with the token was sent by the action and has not been answered. -/
def InFlightFor (log : List Effect) (token : Nat) (id : Text) : Prop :=
  ∃ pre guard svc bytes rid post, log = pre ++ .dispatch id guard token svc bytes rid :: post ∧
    (∀ s z, .responded token s z ∉ post) ∧ ∀ e ∈ post, sentToken e ≠ some token

/-- Number of teardown actions (trace exports) that were run. -/
def torn (log : List Effect) : Nat := log.countP fun
  | .teardown => true
  | _ => false

/-- Number of direct replies that were attempted. -/
def replies (log : List Effect) : Nat := log.countP fun
  | .reply .. => true
  | _ => false

/-- Increments of the denied counter. -/
def denials (log : List Effect) : Nat := log.countP fun
  | .denied => true
  | _ => false

/-- Effects of a request no policy applies to: the traffic continues. -/
def passesThrough : Effect → Bool
  | .returned _ pause => !pause
  | .allowed => true
  | .responded .. => true
  | _ => false

/-- What an action does once it is evaluated: its effects, a failure or its completion. -/
def byAction : Effect → Bool
  | .dispatch .. => true
  | .reply .. => true
  | .headersSet .. => true
  | .attrSet .. => true
  | .stored .. => true
  | .denied => true
  | .errors => true
  | .callFailed _ => true
  | .completed _ => true
  | .failed _ => true
  | _ => false

/-- In this part of the history the action was started and did nothing: it had to wait for data. -/
def WaitedIn (new : List Effect) (id : Text) : Prop :=
  ∃ pre post, new = pre ++ .applied id :: post ∧ ∀ e rest, post = e :: rest → byAction e = false

/-- Calls sent for an action. -/
def callsOf (id : Text) (log : List Effect) : Nat := log.countP fun
  | .dispatch id' .. => decide (id' = id)
  | _ => false

/-- How often an action is recorded as completed or failed. -/
def settled (id : Text) (log : List Effect) : Nat := log.countP fun
  | .completed id' => decide (id' = id)
  | .failed id' => decide (id' = id)
  | _ => false

/-- Identifiers of the first `n` reply actions of an action. -/
def replyIds (id : Text) (n : Nat) : List Text := (List.range n).map fun j => id ++ '.' :: natText j

/-- The actions started in a piece of history, in order. -/
def started (log : List Effect) : List Text := log.filterMap fun
  | .applied id => some id
  | _ => none

/-- A response of the call `id` with success status was processed before any early end. It decodes to `v` in the
context in which it was looked at, of which `hears` holds. -/
def Heard {H : Type} (o : Oracle H) (hears : Nat → Nat → Nat → Ctx H → Prop) (id : Text) (svc : Svc) (v : Val) (log : List Effect) : Prop :=
  ∃ a token size b, log = a ++ .responded token 0 size :: .completed id :: b ∧ .ended ∉ a ∧
    ∃ c : Ctx H, hears token 0 size c ∧ c.log = a ++ [.responded token 0 size] ∧ (o.response c svc size).1 = some v

end Verif.Spec
