import Verif.Model.Tracing
import Verif.Model.Path
/-! What is expected of the trace context of requests. -/
namespace Verif.Spec

variable {R B : Type}

/-- The value of a header: the values of its occurrences joined with commas. -/
def headerValue (hs : Headers) (name : Text) : Option Text :=
  if hs.getAll name = [] then none else some (joinWith [','] (hs.getAll name))

/-- The trace and the baggage that the headers of a request carry, nothing if the headers cannot be read. -/
def ownContext (lib : Propagator R B) : Option Headers → OtelCtx R B
  | none => {}
  | some hs => { remote := lib.trace (headerValue hs), baggage := lib.baggage (headerValue hs) }

/-- The requests with a span that was entered and not left yet, after one more step. -/
def openStep (l : List Nat) : TraceOp → List Nat
  | .start r _ n => if n = 0 then l.filter (· ≠ r) else r :: l.filter (· ≠ r)
  | .finish r _ => l.filter (· ≠ r)
  | .drop r => l.filter (· ≠ r)
  | .apply .. => l
  | .call _ => l

/-- The requests with a span that was entered and not left yet. -/
def openTraced (ops : List TraceOp) : List Nat := ops.foldl openStep []

/-- No request with a span starts, and `r` does not start again. -/
def Undisturbed (r : Nat) (ops : List TraceOp) : Prop :=
  ∀ op ∈ ops, ∀ q hs n, op = .start q hs n → q ≠ r ∧ n = 0

/-- The calls that request `r` makes in `during`, when `before` happened before. -/
def tracedCalls (lib : Propagator R B) (f : SpanFilter) (before during : List TraceOp) (r : Nat) :
    List (OtelCtx R B × List (Text × Bytes)) :=
  (((Traces.run lib f (before ++ during)).calls.drop (Traces.run lib f before).calls.length).filter
    (fun e => e.1 = r)).map Prod.snd

end Verif.Spec
