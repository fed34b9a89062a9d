import Verif.Spec.Moments
/-! Contexts inside an action. -/
namespace Verif
open Spec

variable {H : Type} {o : Oracle H}

theorem Spec.Asked.trans {a b c : Ctx H} (h1 : Asked o a b) (h2 : Asked o b c) : Asked o a c := by
  induction h2 with
  | none => exact h1
  | attributes e _ ih => exact ih.attributes e
  | value vars e _ ih => exact ih.value vars e
  | headers t _ ih => exact ih.headers t
  | body _ hr ih => exact ih.body hr

/-- Evaluating an expression asks the host. -/
theorem evalExpr_asked (c : Ctx H) (id : Text) (e : Expr) : Asked o c (evalExpr o c id e).2 := by
  have h1 := Asked.none.attributes e (o := o) (a := c)
  unfold evalExpr
  split
  · exact .none
  · split <;> rename_i heq <;> rw [heq] at h1
    · exact h1
    · exact h1
    · dsimp only
      split
      · have h2 := h1.value (scopeVars c.bindings id) e
        split <;> rename_i heq2 <;> rw [show o.resolve (c.withHost _) (scopeVars c.bindings id) e = _ from heq2] at h2 <;> exact h2
      · exact h1

theorem testPred_asked (c : Ctx H) (id : Text) (e : Expr) : Asked o c (testPred o c id e).2 := by
  have h := evalExpr_asked (o := o) c id e
  unfold testPred
  split <;> rename_i heq <;> rw [heq] at h <;> exact h

theorem Spec.Prepared.trans {a b c : Ctx H} (h1 : Prepared o a b) (h2 : Prepared o b c) : Prepared o a c := by
  induction h2 with
  | none => exact h1
  | hostname _ ih => exact ih.hostname
  | ensured es _ ih => exact ih.ensured es
  | attributes e _ ih => exact ih.attributes e
  | value vars e _ ih => exact ih.value vars e
  | headers t _ ih => exact ih.headers t
  | named name _ ih => exact ih.named name

theorem Spec.Prepared.log {a c : Ctx H} (h : Prepared o a c) : c.log = a.log := by
  induction h with
  | none => rfl
  | _ => assumption

theorem evalExpr_prepared (c : Ctx H) (id : Text) (e : Expr) : Prepared o c (evalExpr o c id e).2 := by
  have h1 := Prepared.none.attributes e (o := o) (a := c)
  unfold evalExpr
  split
  · exact .none
  · split <;> rename_i heq <;> rw [heq] at h1
    · exact h1
    · exact h1
    · dsimp only
      split
      · have h2 := h1.value (scopeVars c.bindings id) e
        split <;> rename_i heq2 <;> rw [show o.resolve (c.withHost _) (scopeVars c.bindings id) e = _ from heq2] at h2 <;> exact h2
      · exact h1

theorem testPred_prepared (c : Ctx H) (id : Text) (e : Expr) : Prepared o c (testPred o c id e).2 := by
  have h := evalExpr_prepared (o := o) c id e
  unfold testPred
  split <;> rename_i heq <;> rw [heq] at h <;> exact h

end Verif
