import Verif.Props.Bindings
import Verif.Props.DueDemo
/-! Examples for C26 along whole requests. -/
namespace Verif.Props.Writers
open Verif Spec

/-- While the reply action of the second action is run, it sees the variable of its call; the first action does not. -/
example : (Filter.turnsAt (world late).oracle (factory late) { world := {} } [] ((answered 0).head?)).map
      (fun m => (freshFrom [] m.1.log, ((scopeVars m.1.bindings (actionId [1, 0])).lookup "v".toList).isSome,
        ((scopeVars m.1.bindings (actionId [0])).lookup "v".toList).isSome)) =
    [(true, true, false), (true, true, false)] := by
  decide +kernel

/-- The hypotheses of `C26_session` are met then, and so is the conclusion that the call was answered. -/
example : ∃ m ∈ Filter.turnsAt (world late).oracle (factory late) { world := {} } [] ((answered 0).head?),
    Fresh m.1.log ∧ ((scopeVars m.1.bindings (actionId [1, 0])).lookup "v".toList).isSome = true ∧
    ∃ p, Innermost Demo.services (set late) m.1.log "v".toList [1, 0] p := by
  have hall : (Filter.turnsAt (world late).oracle (factory late) { world := {} } [] ((answered 0).head?)).all
      (fun m => freshFrom [] m.1.log && ((scopeVars m.1.bindings (actionId [1, 0])).lookup "v".toList).isSome) = true ∧
      (Filter.turnsAt (world late).oracle (factory late) { world := {} } [] ((answered 0).head?)).length = 2 := by
    decide +kernel
  obtain ⟨m, hm⟩ : ∃ m, m ∈ Filter.turnsAt (world late).oracle (factory late) { world := {} } [] ((answered 0).head?) :=
    List.exists_mem_of_length_pos (by rw [hall.2]; decide)
  have h := List.all_eq_true.1 hall.1 m hm
  rw [Bool.and_eq_true] at h
  have hf := fresh_of_check h.1
  refine ⟨m, hm, hf, h.2, ?_⟩
  have hc := C26_session served_late [] _ m.1 m.2 hm hf [1, 0] (by decide) "v".toList
  cases hl : (scopeVars m.1.bindings (actionId [1, 0])).lookup "v".toList with
  | none => rw [hl] at h; cases h.2
  | some v =>
    rw [hl] at hc
    obtain ⟨p, _, _, _, _, _, _, _, hi, _⟩ := hc
    exact ⟨p, hi⟩

end Verif.Props.Writers
