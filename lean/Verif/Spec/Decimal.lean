import Verif.Model.Text
/-!
Decimal numbers.
-/
namespace Verif.Spec

/-- The number a sequence of decimal digits stands for. -/
def digitsValue (t : Text) : Nat := t.foldl (fun n c => 10 * n + (c.toNat - '0'.toNat)) 0

/-- The text is a non-empty sequence of the digits `0` to `9`, standing for the number. -/
def Digits (t : Text) (n : Nat) : Prop := t ≠ [] ∧ (∀ c ∈ t, '0' ≤ c ∧ c ≤ '9') ∧ n = digitsValue t

/-- The text is a decimal number without sign or with a plus sign. -/
inductive Unsigned : Text → Nat → Prop where
  | plain {t n} (h : Digits t n) : Unsigned t n
  | plus {t n} (h : Digits t n) : Unsigned ('+' :: t) n

/-- The text is a decimal number with or without sign. -/
inductive Signed : Text → Int → Prop where
  | unsigned {t n} (h : Unsigned t n) : Signed t n
  | minus {t n} (h : Digits t n) : Signed ('-' :: t) (-n)

end Verif.Spec
