import Verif.Spec.Sse
import Verif.Model.Body
/-!
Vocabulary of C27-C29: reading a stream delivered in chunks, and the second to last element.
-/
namespace Verif.Sse
open Verif

/-- Feed byte chunks to the event parser one after the other, as the host delivers them. `none` if
some chunk was rejected. -/
def readStream (p : Parser) : List Bytes → Option (List Sse.Event)
  | [] => some []
  | c :: cs =>
    match parseBytes p c with
    | (_, none) => none
    | (p', some es) => (readStream p' cs).map (es ++ ·)

/-- The event the parser reports for a specified event. -/
def toModel (e : Spec.Sse.Event) : Sse.Event := ⟨e.name, e.data, e.id, e.retry⟩

/-- Second to last element. -/
def secondToLast {α : Type} (l : List α) : Option α := l.reverse[1]?

/-- Feed chunks to the store action's event-stream parser. -/
def feedBody (b : SseBody) : List Bytes → Option SseBody
  | [] => some b
  | c :: cs => (b.feed c).bind fun b => feedBody b cs

/-- Feed chunks to the token-usage task's event-stream strategy. -/
def feedStrategy (s : Strategy) (chunks : List Bytes) : Strategy := chunks.foldl Strategy.feed s

end Verif.Sse
