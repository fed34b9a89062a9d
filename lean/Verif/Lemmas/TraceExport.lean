import Verif.Spec.TraceExport
import Verif.Lemmas.Spans
/-! Lemmas about the export of spans. -/
namespace Verif
open Spec

variable {S Rs Sc P : Type} (lib : SpanLib S Sc P) (resource : Rs)

/-- The operations on the buffer an event causes. -/
def SpanEvent.ops : SpanEvent S → List (SpanBuffer.Op S)
  | .ended s => [.ended s]
  | .teardown _ _ own _ => own.toList.map .ended ++ [.exported]

theorem exports_snoc (es : List (SpanEvent S)) (e : SpanEvent S) :
    Exports.run lib resource (es ++ [e]) = (Exports.run lib resource es).step lib resource e := by
  simp [Exports.run]

theorem foldl_ended (l : List S) (b : SpanBuffer S × List (List S)) :
    (l.map SpanBuffer.Op.ended).foldl SpanBuffer.step b = (l.foldl SpanBuffer.onEnd b.1, b.2) := by
  induction l generalizing b with
  | nil => rfl
  | cons x l ih => rw [List.map_cons, List.foldl_cons, List.foldl_cons, ih]; rfl

theorem exports_buffer (es : List (SpanEvent S)) :
    (Exports.run lib resource es).buffer = (SpanBuffer.run 100 (es.flatMap SpanEvent.ops)).1 := by
  induction es using snoc_ind with
  | nil => rfl
  | snoc es e ih =>
    rw [exports_snoc, List.flatMap_append, List.flatMap_singleton]
    unfold SpanBuffer.run at ih ⊢
    rw [List.foldl_append]
    generalize List.foldl SpanBuffer.step (SpanBuffer.new 100, []) (es.flatMap SpanEvent.ops) = r at ih
    cases e with
    | ended s => show SpanBuffer.onEnd _ s = SpanBuffer.onEnd _ s; rw [ih]
    | teardown endpoint timeout own answer =>
      show _ = (List.foldl SpanBuffer.step r (own.toList.map SpanBuffer.Op.ended ++ [.exported])).1
      rw [List.foldl_append, foldl_ended]
      show _ = (SpanBuffer.take _).2
      unfold Exports.step exportTraces
      dsimp only
      rw [ih]
      split <;> rfl

/-- The export at a teardown. -/
theorem step_calls (e : Exports Rs Sc P S) (endpoint : Text) (timeout : Nat) (own : Option S) (answer : Option Nat) :
    (e.step lib resource (.teardown endpoint timeout own answer)).calls = e.calls ++
      (let batch := (own.toList.foldl SpanBuffer.onEnd e.buffer).queue
       if batch.isEmpty then []
       else [⟨tracingTarget endpoint timeout, [⟨some resource, [⟨batch.head?.map lib.scope, batch.map lib.proto⟩]⟩], answer⟩]) := by
  unfold Exports.step exportTraces dispatchExport buildExportRequest SpanBuffer.take
  dsimp only
  cases h : (own.toList.foldl SpanBuffer.onEnd e.buffer).queue <;> simp

theorem exports_carried (es : List (SpanEvent S)) :
    (Exports.run lib resource es).calls.flatMap ExportCall.carried
      = (SpanBuffer.run 100 (es.flatMap SpanEvent.ops)).2.flatten.map lib.proto := by
  induction es using snoc_ind with
  | nil => rfl
  | snoc es e ih =>
    have hb := exports_buffer lib resource es
    rw [exports_snoc, List.flatMap_append, List.flatMap_singleton]
    unfold SpanBuffer.run at ih hb ⊢
    rw [List.foldl_append]
    generalize List.foldl SpanBuffer.step (SpanBuffer.new 100, []) (es.flatMap SpanEvent.ops) = r at ih hb
    cases e with
    | ended s => exact ih
    | teardown endpoint timeout own answer =>
      show _ = List.map lib.proto
        (List.foldl SpanBuffer.step r (own.toList.map SpanBuffer.Op.ended ++ [.exported])).2.flatten
      rw [List.foldl_append, foldl_ended, step_calls, List.flatMap_append, ih, hb]
      show _ = List.map lib.proto (r.2 ++ [(own.toList.foldl SpanBuffer.onEnd r.1).queue]).flatten
      dsimp only
      cases h : (own.toList.foldl SpanBuffer.onEnd r.1).queue <;> simp [ExportCall.carried]

theorem ended_ops (es : List (SpanEvent S)) : endedSpans (es.flatMap SpanEvent.ops) = spansEnded es := by
  induction es with
  | nil => rfl
  | cons e es ih =>
    rw [List.flatMap_cons, endedSpans_append, ih]
    cases e with
    | ended s => rfl
    | teardown _ _ own _ => cases own <;> rfl

theorem spansEnded_append (a b : List (SpanEvent S)) : spansEnded (a ++ b) = spansEnded a ++ spansEnded b := by
  induction a with
  | nil => rfl
  | cons e a ih => cases e <;> simp [spansEnded, ih]

theorem waiting_snoc (es : List (SpanEvent S)) (s : S) : waiting (es ++ [.ended s]) = waiting es ++ [s] := by
  simp [waiting]

theorem foldl_onEnd_fits (l : List S) (b : SpanBuffer S) (h : b.queue.length + l.length ≤ b.max) :
    (l.foldl SpanBuffer.onEnd b).queue = b.queue ++ l := by
  induction l generalizing b with
  | nil => simp
  | cons x l ih =>
    rw [List.length_cons] at h
    have hx := onEnd_queue b x
    rw [if_neg (by omega)] at hx
    rw [List.foldl_cons, ih _ (by rw [hx.1, hx.2]; simp; omega), hx.1]
    simp

theorem keptUp_before {n : Nat} {a b : List (SpanEvent S)} (h : KeptUp n (a ++ b)) : KeptUp n a := by
  intro before after he
  obtain ⟨h1, h2⟩ := h before (after ++ b) (by rw [he, List.append_assoc])
  exact ⟨h1, fun endpoint timeout own answer rest hr => h2 endpoint timeout own answer (rest ++ b) (by rw [hr]; rfl)⟩

/-- As long as the buffer does not overflow, every span that ended was exported or is in the buffer. -/
theorem keptUp_run (es : List (SpanEvent S)) (h : KeptUp 100 es) :
    (Exports.run lib resource es).buffer.queue = waiting es ∧
    (Exports.run lib resource es).calls.flatMap ExportCall.carried ++ (waiting es).map lib.proto
      = (spansEnded es).map lib.proto := by
  induction es using snoc_ind with
  | nil => exact ⟨rfl, rfl⟩
  | snoc es e ih =>
    obtain ⟨ih1, ih2⟩ := ih (keptUp_before h)
    have hm : (Exports.run lib resource es).buffer.max = 100 := by rw [exports_buffer, run_max]
    rw [exports_snoc, spansEnded_append]
    cases e with
    | ended s =>
      have hl := (h (es ++ [.ended s]) [] (by simp)).1
      rw [waiting_snoc, List.length_append, List.length_singleton] at hl
      rw [waiting_snoc]
      refine ⟨?_, ?_⟩
      · show (SpanBuffer.onEnd _ s).queue = _
        rw [(onEnd_queue _ s).1, if_neg (by rw [ih1, hm]; omega), ih1]
      · show List.flatMap _ (Exports.run lib resource es).calls ++ _ = _
        rw [List.map_append, ← List.append_assoc, ih2, List.map_append]; rfl
    | teardown endpoint timeout own answer =>
      have hl := (h es [.teardown endpoint timeout own answer] rfl).2 endpoint timeout own answer [] rfl
      have hw : waiting (es ++ [.teardown endpoint timeout own answer]) = [] := by simp [waiting]
      rw [hw]
      have hq : (own.toList.foldl SpanBuffer.onEnd (Exports.run lib resource es).buffer).queue
          = waiting es ++ own.toList := by
        rw [foldl_onEnd_fits _ _ (by rw [ih1, hm, ← List.length_append]; exact hl), ih1]
      refine ⟨?_, ?_⟩
      · have := exports_buffer lib resource (es ++ [.teardown endpoint timeout own answer])
        rw [← exports_snoc, this]
        apply run_emptied
        rw [List.flatMap_append, List.flatMap_singleton]
        show Emptied (_ ++ (_ ++ [SpanBuffer.Op.exported]))
        rw [← List.append_assoc]
        exact .exported _
      · rw [step_calls, hq, List.flatMap_append, List.map_nil, List.append_nil]
        have : spansEnded [SpanEvent.teardown endpoint timeout own answer] = own.toList := by simp [spansEnded]
        rw [this, List.map_append, ← ih2, List.append_assoc, ← List.map_append]
        congr 1
        dsimp only
        cases hb : waiting es ++ own.toList <;> simp [ExportCall.carried]

end Verif
