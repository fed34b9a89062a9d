import Verif.Lemmas.Spans
/-!
C41: the span buffer is bounded and keeps the newest spans.
-/
namespace Verif.Props
open Verif Spec

variable {S : Type}

/-- C41: in every history the number of buffered spans never exceeds the capacity. -/
theorem C41_bounded (n : Nat) (hn : 1 ≤ n) (ops : List (SpanBuffer.Op S)) :
    (SpanBuffer.run n ops).1.pendingCount ≤ n := by
  suffices ∀ s : SpanBuffer S × List (List S), s.1.max = n → s.1.queue.length ≤ n →
      (ops.foldl SpanBuffer.step s).1.queue.length ≤ n from this _ rfl (Nat.zero_le n)
  induction ops with
  | nil => exact fun s _ h => h
  | cons op ops ih =>
    intro s hm h
    rw [List.foldl_cons]
    cases op with
    | ended x =>
      refine ih _ ((onEnd_queue s.1 x).2.trans hm) ?_
      show (SpanBuffer.onEnd s.1 x).queue.length ≤ n
      rw [(onEnd_queue s.1 x).1, hm]
      split <;> simp <;> omega
    | exported => exact ih _ hm (Nat.zero_le n)
    | cleared => exact ih _ hm (Nat.zero_le n)

/-- C41: after the buffer was emptied and `spans` ended since, the buffer holds the newest of these
spans, in order, as many as fit, and nothing else was exported. -/
theorem C41_newest (n : Nat) (hn : 1 ≤ n) (before : List (SpanBuffer.Op S)) (h : Emptied before)
    (spans : List S) :
    (SpanBuffer.run n (before ++ spans.map .ended)).1.queue = lastN n spans ∧
    (SpanBuffer.run n (before ++ spans.map .ended)).2 = (SpanBuffer.run n before).2 :=
  run_spans n hn h spans

/-- C41: an export hands over exactly those spans and empties the buffer. -/
theorem C41_export (n : Nat) (hn : 1 ≤ n) (before : List (SpanBuffer.Op S)) (h : Emptied before)
    (spans : List S) :
    (SpanBuffer.run n (before ++ spans.map .ended ++ [.exported])).2
      = (SpanBuffer.run n before).2 ++ [lastN n spans] ∧
    (SpanBuffer.run n (before ++ spans.map .ended ++ [.exported])).1.hasPending = false := by
  rw [run_snoc']
  refine ⟨?_, rfl⟩
  show _ ++ [(SpanBuffer.run n (before ++ spans.map .ended)).1.queue] = _
  rw [(run_spans n hn h spans).1, (run_spans n hn h spans).2]

/-- C41: as long as no more spans end between two exports than the buffer holds, no span is lost. -/
theorem C41_complete (n : Nat) (hn : 1 ≤ n) (before : List (SpanBuffer.Op S)) (h : Emptied before)
    (spans : List S) (hfit : spans.length ≤ n) :
    (SpanBuffer.run n (before ++ spans.map .ended ++ [.exported])).2
      = (SpanBuffer.run n before).2 ++ [spans] := by
  rw [(C41_export n hn before h spans).1, lastN, show spans.length - n = 0 by omega, List.drop_zero]

/-- C41: over a whole history the spans exported, followed by those still buffered, are a selection of
the spans that ended, in their order, so none is exported twice, reordered or invented. -/
theorem C41_once (n : Nat) (ops : List (SpanBuffer.Op S)) :
    ((SpanBuffer.run n ops).2.flatten ++ (SpanBuffer.run n ops).1.queue).Sublist (endedSpans ops) :=
  run_sublist n ops

/-- C41: dropping spans is reported at most once between two moments at which the buffer is emptied. -/
theorem C41_warned (n : Nat) (ops : List (SpanBuffer.Op S)) :
    (SpanBuffer.run n ops).1.warnings ≤ emptying ops + 1 := by
  have := run_warnings n ops
  omega

/-- The bound needs a capacity of at least one: a buffer of capacity zero still holds a span. The code
only makes buffers of capacity 100 outside its tests. -/
theorem C41_zero : (SpanBuffer.run 0 [.ended 'a']).1.pendingCount = 1 := rfl

example : (SpanBuffer.run 2 [.ended 1, .exported, .ended 2, .ended 3, .ended 4, .exported, .ended 5]).2
    = [[1], [3, 4]] := rfl
example : Emptied ([.ended 1, .exported] : List (SpanBuffer.Op Nat)) := .exported [.ended 1]

end Verif.Props
