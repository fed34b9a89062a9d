import Verif.Model.Text
/-!
Values of the CEL interpreter as far as the filter's code looks at them.
-/
namespace Verif

/-- Keys of CEL maps (`cel::objects::Key`). -/
inductive Key where
  | int (i : Int)
  | uint (n : Nat)
  | bool (b : Bool)
  | str (t : Text)
deriving DecidableEq, Repr

/-- CEL values (`cel::Value`). A float is its bit pattern, a timestamp its seconds and nanoseconds,
a duration its nanoseconds. `other` stands for the remaining variants (functions and opaque values),
which the filter's code treats alike. Maps are association lists with unique keys. -/
inductive Val where
  | null
  | bool (b : Bool)
  | int (i : Int)
  | uint (n : Nat)
  | float (bits : UInt64)
  | str (t : Text)
  | bytes (b : Bytes)
  | list (l : List Val)
  | map (m : List (Key × Val))
  | struct (name : Text) (fields : List (Text × Val))
  | timestamp (secs : Int) (nanos : Nat)
  | duration (nanos : Int)
  | other
deriving Repr

instance : Inhabited Val := ⟨.null⟩

end Verif
