import Verif.Spec.Spans
import Verif.Lemmas.Basic
/-! Lemmas about the span buffer. -/
namespace Verif
open Spec

variable {S : Type}

theorem lastN_length (n : Nat) (l : List S) : (lastN n l).length = min n l.length := by
  simp [lastN]; omega

theorem lastN_snoc (n : Nat) (h : 1 ≤ n) (l : List S) (x : S) :
    lastN n (l ++ [x]) = (if (lastN n l).length ≥ n then (lastN n l).tail else lastN n l) ++ [x] := by
  rw [lastN_length]
  unfold lastN
  split
  · rename_i hn
    have : n ≤ l.length := by omega
    rw [List.tail_drop, List.length_append, List.length_singleton]
    rw [show l.length + 1 - n = l.length - n + 1 by omega]
    rw [List.drop_append_of_le_length (by omega)]
  · have : l.length < n := by omega
    rw [show l.length - n = 0 by omega, List.length_append, List.length_singleton,
      show l.length + 1 - n = 0 by omega]
    simp

theorem onEnd_queue (b : SpanBuffer S) (x : S) :
    (b.onEnd x).queue = (if b.queue.length ≥ b.max then b.queue.tail else b.queue) ++ [x] ∧
    (b.onEnd x).max = b.max := by
  unfold SpanBuffer.onEnd
  by_cases h : b.queue.length ≥ b.max <;> by_cases h' : b.loggedFull <;> simp [h, h']

theorem run_snoc' (n : Nat) (ops : List (SpanBuffer.Op S)) (op : SpanBuffer.Op S) :
    SpanBuffer.run n (ops ++ [op]) = SpanBuffer.step (SpanBuffer.run n ops) op := by
  simp [SpanBuffer.run]

theorem run_max (n : Nat) (ops : List (SpanBuffer.Op S)) : (SpanBuffer.run n ops).1.max = n := by
  suffices ∀ s : SpanBuffer S × List (List S), (ops.foldl SpanBuffer.step s).1.max = s.1.max from this _
  induction ops with
  | nil => intro s; rfl
  | cons op ops ih =>
    intro s
    rw [List.foldl_cons, ih]
    cases op with
    | ended x => exact (onEnd_queue s.1 x).2
    | exported => rfl
    | cleared => rfl

theorem run_emptied (n : Nat) {ops : List (SpanBuffer.Op S)} (h : Emptied ops) :
    (SpanBuffer.run n ops).1.queue = [] := by
  cases h with
  | new => rfl
  | exported ops => rw [run_snoc']; rfl
  | cleared ops => rw [run_snoc']; rfl

theorem run_spans (n : Nat) (hn : 1 ≤ n) {ops : List (SpanBuffer.Op S)} (h : Emptied ops) (spans : List S) :
    (SpanBuffer.run n (ops ++ spans.map .ended)).1.queue = lastN n spans ∧
    (SpanBuffer.run n (ops ++ spans.map .ended)).2 = (SpanBuffer.run n ops).2 := by
  induction spans using snoc_ind with
  | nil => simp [run_emptied n h, lastN]
  | snoc l x ih =>
    rw [List.map_append, ← List.append_assoc, List.map_cons, List.map_nil, run_snoc']
    refine ⟨?_, ih.2⟩
    show (SpanBuffer.onEnd _ x).queue = _
    rw [(onEnd_queue _ x).1, run_max, ih.1, lastN_snoc n hn]

theorem endedSpans_append (a b : List (SpanBuffer.Op S)) :
    endedSpans (a ++ b) = endedSpans a ++ endedSpans b := by
  induction a with
  | nil => rfl
  | cons op a ih => cases op <;> simp [endedSpans, ih]

theorem run_sublist (n : Nat) (ops : List (SpanBuffer.Op S)) :
    ((SpanBuffer.run n ops).2.flatten ++ (SpanBuffer.run n ops).1.queue).Sublist (endedSpans ops) := by
  induction ops using snoc_ind with
  | nil => simp [SpanBuffer.run, SpanBuffer.new]
  | snoc l op ih =>
    rw [run_snoc', endedSpans_append]
    cases op with
    | ended x =>
      show (_ ++ (SpanBuffer.onEnd _ x).queue).Sublist (_ ++ [x])
      rw [(onEnd_queue _ x).1, ← List.append_assoc]
      refine List.Sublist.append ?_ (List.Sublist.refl _)
      refine List.Sublist.trans (List.Sublist.append (List.Sublist.refl _) ?_) ih
      split
      · exact List.tail_sublist _
      · exact List.Sublist.refl _
    | exported =>
      show ((_ ++ [_]).flatten ++ []).Sublist (_ ++ [])
      simpa [SpanBuffer.take] using ih
    | cleared =>
      show (_ ++ []).Sublist (_ ++ [])
      simp only [List.append_nil]
      exact List.Sublist.trans (List.sublist_append_left _ _) ih

/-- The operations that empty the buffer. -/
def emptying : List (SpanBuffer.Op S) → Nat
  | [] => 0
  | .ended _ :: ops => emptying ops
  | _ :: ops => emptying ops + 1

theorem emptying_append (a b : List (SpanBuffer.Op S)) : emptying (a ++ b) = emptying a + emptying b := by
  induction a with
  | nil => simp [emptying]
  | cons op a ih => cases op <;> simp [emptying, ih] <;> omega

theorem run_warnings (n : Nat) (ops : List (SpanBuffer.Op S)) :
    (SpanBuffer.run n ops).1.warnings + (if (SpanBuffer.run n ops).1.loggedFull then 0 else 1)
      ≤ emptying ops + 1 := by
  induction ops using snoc_ind with
  | nil => simp [SpanBuffer.run, SpanBuffer.new]
  | snoc l op ih =>
    rw [run_snoc', emptying_append]
    generalize SpanBuffer.run n l = s at ih ⊢
    cases op with
    | ended x =>
      show (SpanBuffer.onEnd s.1 x).warnings + (if (SpanBuffer.onEnd s.1 x).loggedFull then 0 else 1) ≤ _
      unfold SpanBuffer.onEnd
      by_cases h : s.1.queue.length ≥ s.1.max <;> by_cases h' : s.1.loggedFull <;>
        simp [h, h', emptying] at ih ⊢ <;> omega
    | exported =>
      simp only [SpanBuffer.step, SpanBuffer.take, emptying]
      split at ih <;> simp at ih ⊢ <;> omega
    | cleared =>
      simp only [SpanBuffer.step, SpanBuffer.clear, emptying]
      split at ih <;> simp at ih ⊢ <;> omega

end Verif
