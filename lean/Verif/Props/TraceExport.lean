import Verif.Lemmas.TraceExport
/-! C72: finished spans are exported whole, in order and at most once. -/
namespace Verif.Props
open Spec

variable {S Rs Sc P : Type} (lib : SpanLib S Sc P) (resource : Rs)

/-- C72: the teardown of a request makes one export call with the newest hundred of the spans that ended since the
last teardown, the request's own span last. The call goes to the configured service, names the resource once and the
scope of its first span. No call is made when there is no span. -/
theorem C72_call (before : List (SpanEvent S)) (h : Settled before) (spans : List S) (endpoint : Text)
    (timeout : Nat) (own : Option S) (answer : Option Nat) :
    (Exports.run lib resource (before ++ spans.map .ended ++ [.teardown endpoint timeout own answer])).calls
      = (Exports.run lib resource before).calls ++
        match lastN 100 (spans ++ own.toList) with
        | [] => []
        | first :: rest => [{
            target :=
              { upstream := endpoint, service := "opentelemetry.proto.collector.trace.v1.TraceService".toList,
                method := "Export".toList, timeout }
            token := answer, message := [{ resource := some resource, scopes :=
            [{ scope := some (lib.scope first), spans := (first :: rest).map lib.proto }] }] }] := by
  have hend : ∀ l : List S, (l.map SpanEvent.ended).flatMap SpanEvent.ops = l.map SpanBuffer.Op.ended := by
    intro l; induction l with
    | nil => rfl
    | cons x l ih => rw [List.map_cons, List.flatMap_cons, ih]; rfl
  have he : Emptied (before.flatMap SpanEvent.ops) := by
    cases h with
    | new => exact .new
    | teardown es ep ti o a =>
      rw [List.flatMap_append, List.flatMap_singleton]
      show Emptied (_ ++ (_ ++ [SpanBuffer.Op.exported]))
      rw [← List.append_assoc]
      exact .exported _
  have hcalls : (Exports.run lib resource (before ++ spans.map .ended)).calls
      = (Exports.run lib resource before).calls := by
    unfold Exports.run
    rw [List.foldl_append]
    generalize List.foldl (Exports.step lib resource) {} before = e
    induction spans generalizing e with
    | nil => rfl
    | cons x l ih => exact ih _
  have hq : (own.toList.foldl SpanBuffer.onEnd (Exports.run lib resource (before ++ spans.map .ended)).buffer).queue
      = lastN 100 (spans ++ own.toList) := by
    have h1 := (run_spans 100 (by omega) he (spans ++ own.toList)).1
    rw [List.map_append, ← List.append_assoc] at h1
    unfold SpanBuffer.run at h1
    rw [List.foldl_append, foldl_ended] at h1
    rw [exports_buffer, List.flatMap_append, hend]
    exact h1
  rw [exports_snoc, step_calls, hcalls, hq]
  dsimp only
  cases lastN 100 (spans ++ own.toList) <;> rfl

/-- C72: over a whole history the spans in the calls are a selection of the spans that ended, in their order. So no
span is sent twice, not even after a call the host refused. -/
theorem C72_once (events : List (SpanEvent S)) :
    ((Exports.run lib resource events).calls.flatMap ExportCall.carried).Sublist
      ((spansEnded events).map lib.proto) := by
  rw [exports_carried, ← ended_ops]
  exact List.Sublist.map _ (List.Sublist.trans (List.sublist_append_left _ _) (run_sublist 100 _))

/-- C72: if never more than a hundred spans wait, every span that ended was put into exactly one call, except those
that ended after the last teardown. -/
theorem C72_complete (events : List (SpanEvent S)) (h : KeptUp 100 events) :
    (Exports.run lib resource events).calls.flatMap ExportCall.carried ++ (waiting events).map lib.proto
      = (spansEnded events).map lib.proto :=
  (keptUp_run lib resource events h).2

/-- C72: every call has spans, one resource and one scope. If all spans have the same scope, as those of the filter's
only tracer do (`tracing/mod.rs` L63), that is the scope of each of its spans. -/
theorem C72_scope (scope : Sc) (hs : ∀ s, lib.scope s = scope) (events : List (SpanEvent S))
    (c : ExportCall Rs Sc P) (hc : c ∈ (Exports.run lib resource events).calls) :
    ∃ spans : List P, spans ≠ [] ∧ c.message = [{ resource := some resource, scopes := [{ scope := some scope, spans }] }] := by
  induction events using snoc_ind with
  | nil => simp [Exports.run] at hc
  | snoc es e ih =>
    rw [exports_snoc] at hc
    cases e with
    | ended s => exact ih hc
    | teardown endpoint timeout own answer =>
      rw [step_calls, List.mem_append] at hc
      rcases hc with hc | hc
      · exact ih hc
      · dsimp only at hc
        generalize (own.toList.foldl SpanBuffer.onEnd (Exports.run lib resource es).buffer).queue = q at hc
        cases q with
        | nil => simp at hc
        | cons x q =>
          simp only [List.isEmpty_cons, Bool.false_eq_true, if_false, List.mem_singleton] at hc
          subst hc
          exact ⟨(x :: q).map lib.proto, by simp, by simp [hs]⟩

/-- The library of the examples: a span is a number, its scope does not matter. -/
def plainSpans : SpanLib Nat Unit Nat := ⟨fun _ => (), id⟩

/-- The collector of the examples. -/
def collector : Text := "collector".toList

/-- C72, finding: when the host refuses an export call, its spans are gone; the next export does not carry them. -/
theorem C72_refused_deviation :
    ((Exports.run plainSpans () [.ended 1, .teardown collector 20 (some 2) none, .ended 3,
        .teardown collector 20 none (some 7)]).calls.filter (·.token.isSome)).flatMap ExportCall.carried = [3] ∧
    spansEnded [.ended 1, .teardown collector 20 (some 2) none, .ended 3, .teardown collector 20 none (some 7)] = [1, 2, 3] := by
  decide

example : Settled [SpanEvent.ended 1, .teardown collector 20 (some 2) none] := .teardown [.ended 1] ..
example : (Exports.run plainSpans () ([.ended 1, .teardown collector 20 (some 2) none] ++ [3, 4].map .ended ++
    [.teardown collector 20 (some 5) (some 9)])).calls =
    [⟨⟨collector, "opentelemetry.proto.collector.trace.v1.TraceService".toList, "Export".toList, 20⟩, [⟨some (), [⟨some (), [1, 2]⟩]⟩], none⟩, ⟨⟨collector, "opentelemetry.proto.collector.trace.v1.TraceService".toList, "Export".toList, 20⟩, [⟨some (), [⟨some (), [3, 4, 5]⟩]⟩], some 9⟩] := by
  decide
example : KeptUp 100 [SpanEvent.ended 1, .teardown collector 20 (some 2) none, .ended 3] := by
  intro before after h
  have hl : before.length ≤ 3 := by
    have := congrArg List.length h
    simp at this; omega
  have hw : (waiting before).length ≤ before.length := by
    clear h hl
    induction before using snoc_ind with
    | nil => exact Nat.le_refl 0
    | snoc l e ih => cases e <;> simp [waiting] at ih ⊢ <;> omega
  refine ⟨by omega, fun endpoint timeout own answer rest _ => ?_⟩
  have : own.toList.length ≤ 1 := by cases own <;> simp
  rw [List.length_append]; omega

end Verif.Props
