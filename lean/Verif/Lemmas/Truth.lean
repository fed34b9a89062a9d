import Verif.Spec.Truth
/-! Predicates are tested as specified. -/
namespace Verif
open Spec

variable {H : Type}

theorem testPred_tests : @testPred H = @tests H := by
  funext o c id p
  unfold testPred tests
  cases h : evalExpr o c id p with
  | mk a d => cases a with
    | available v => cases v <;> rfl
    | pending => rfl
    | err => rfl

theorem tests_true {o : Oracle H} {c d : Ctx H} {id : Text} {p : Expr} :
    tests o c id p = (.available true, d) ↔ evalExpr o c id p = (.available (.bool true), d) := by
  unfold tests
  cases h : evalExpr o c id p with
  | mk a d => cases a with
    | available v => cases v <;> simp [truth]
    | pending => simp [truth]
    | err => simp [truth]

end Verif
