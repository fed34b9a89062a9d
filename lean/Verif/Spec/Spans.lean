import Verif.Model.SpanBuffer
/-!
What the span buffer should hold.
-/
namespace Verif.Spec

/-- The last `n` elements of a list, in order. -/
def lastN {S : Type} (n : Nat) (l : List S) : List S := l.drop (l.length - n)

/-- A history after which the buffer has just been emptied: the empty one, or one ending with an export
or a clear. -/
inductive Emptied {S : Type} : List (SpanBuffer.Op S) → Prop where
  | new : Emptied []
  | exported (ops) : Emptied (ops ++ [.exported])
  | cleared (ops) : Emptied (ops ++ [.cleared])

/-- The spans that ended during a history, in order. -/
def endedSpans {S : Type} : List (SpanBuffer.Op S) → List S
  | [] => []
  | .ended s :: ops => s :: endedSpans ops
  | .exported :: ops => endedSpans ops
  | .cleared :: ops => endedSpans ops

end Verif.Spec
