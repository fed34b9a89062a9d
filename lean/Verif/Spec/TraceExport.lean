import Verif.Spec.Spans
import Verif.Model.TraceExport
/-!
Which spans an export should carry.
-/
namespace Verif.Spec

variable {S Rs Sc P : Type}

/-- The spans that ended during a history, in order; the span of a request ends at its teardown. -/
def spansEnded : List (SpanEvent S) → List S
  | [] => []
  | .ended s :: es => s :: spansEnded es
  | .teardown _ _ own _ :: es => own.toList ++ spansEnded es

/-- The spans that ended since the last teardown. -/
def waiting (events : List (SpanEvent S)) : List S :=
  events.foldl (init := []) fun l e => match e with
    | .ended s => l ++ [s]
    | .teardown .. => []

/-- A history that is new, or whose last event is a teardown. -/
inductive Settled : List (SpanEvent S) → Prop where
  | new : Settled []
  | teardown (events endpoint timeout own answer) : Settled (events ++ [.teardown endpoint timeout own answer])

/-- The spans a call carries, in order. -/
def ExportCall.carried (c : ExportCall Rs Sc P) : List P := c.message.flatMap fun r => r.scopes.flatMap (·.spans)

/-- Never do more than `n` spans end before they are exported, counting the span of the request whose teardown it is. -/
def KeptUp (n : Nat) (events : List (SpanEvent S)) : Prop :=
  ∀ before after, events = before ++ after → (waiting before).length ≤ n ∧
    ∀ endpoint timeout own answer rest, after = .teardown endpoint timeout own answer :: rest →
      (waiting before ++ own.toList).length ≤ n

end Verif.Spec
