import Verif.Model.Ctx
/-!
# When a predicate holds
-/
namespace Verif.Spec

variable {H : Type}

/-- What the value of an expression says of a predicate: only the truth values say yes or no, any other value is
an error. -/
def truth : Ans Val → Ans Bool
  | .available (.bool b) => .available b
  | .available _ => .err
  | .pending => .pending
  | .err => .err

/-- The outcome of the predicate of action `id`: its expression is evaluated once. -/
def tests (o : Oracle H) (c : Ctx H) (id : Text) (p : Expr) : Ans Bool × Ctx H :=
  (truth (evalExpr o c id p).1, (evalExpr o c id p).2)

end Verif.Spec
