/-!
Model of `crates/kuadrant-filter/src/tracing/processor.rs`. The mutex is not modelled: every operation
holds it from beginning to end, so operations follow one another.
-/
namespace Verif

/-- `processor.rs` L39-49 `BufferState` and `BufferingSpanProcessor`. `S` is the type of spans.
`warnings` counts the warnings logged (L115-118). -/
structure SpanBuffer (S : Type) where
  queue : List S := []
  loggedFull : Bool := false
  max : Nat
  warnings : Nat := 0

namespace SpanBuffer

variable {S : Type}

/-- `processor.rs` L52-65 `new` and `with_capacity`. -/
def new (max : Nat := 100) : SpanBuffer S := { max }

/-- `processor.rs` L107-124 `on_end`. -/
def onEnd (b : SpanBuffer S) (span : S) : SpanBuffer S :=
  let b :=
    if b.queue.length ≥ b.max then
      let b := if b.loggedFull then b else { b with loggedFull := true, warnings := b.warnings + 1 }
      { b with queue := b.queue.tail }
    else b
  { b with queue := b.queue ++ [span] }

/-- `processor.rs` L68-72 `take_pending_spans`. -/
def take (b : SpanBuffer S) : List S × SpanBuffer S := (b.queue, { b with queue := [], loggedFull := false })

/-- `processor.rs` L87-91 `clear`, also called by `shutdown` (L131-134). -/
def clear (b : SpanBuffer S) : SpanBuffer S := { b with queue := [], loggedFull := false }

/-- `processor.rs` L75-78 `pending_count`. -/
def pendingCount (b : SpanBuffer S) : Nat := b.queue.length

/-- `processor.rs` L81-84 `has_pending_spans`. -/
def hasPending (b : SpanBuffer S) : Bool := !b.queue.isEmpty

/-- The operations on the buffer: a span ends, the spans are taken for export, the buffer is cleared. -/
inductive Op (S : Type) where
  | ended (span : S)
  | exported
  | cleared

/-- One operation; the second component collects the exported batches. -/
def step (s : SpanBuffer S × List (List S)) : Op S → SpanBuffer S × List (List S)
  | .ended span => (s.1.onEnd span, s.2)
  | .exported => let (batch, b) := s.1.take; (b, s.2 ++ [batch])
  | .cleared => (s.1.clear, s.2)

/-- A history of the buffer. -/
def run (max : Nat) (ops : List (Op S)) : SpanBuffer S × List (List S) :=
  ops.foldl step (new max, [])

end SpanBuffer

end Verif
