/-! General helper lemmas about lists. -/
namespace Verif

/-- Induction from the end of a list. -/
@[elab_as_elim]
theorem snoc_ind {α : Type _} {P : List α → Prop} (nil : P [])
    (snoc : ∀ xs x, P xs → P (xs ++ [x])) (l : List α) : P l := by
  have h : ∀ r : List α, P r.reverse := by
    intro r
    induction r with
    | nil => exact nil
    | cons x xs ih => rw [List.reverse_cons]; exact snoc _ _ ih
  have := h l.reverse
  rwa [List.reverse_reverse] at this

end Verif
