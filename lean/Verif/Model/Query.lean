import Verif.Model.Strings
import Verif.Model.Body
/-!
`queryMap`, the function for query strings that route-rule predicates have (`data/cel.rs` L440-506).
-/
namespace Verif

/-- A hexadecimal digit (`urlencoding` crate, `from_hex_digit`). -/
def hexDigit (b : UInt8) : Option UInt8 :=
  if 48 ≤ b ∧ b ≤ 57 then some (b - 48)
  else if 65 ≤ b ∧ b ≤ 70 then some (b - 55)
  else if 97 ≤ b ∧ b ≤ 102 then some (b - 87)
  else none

/-- `urlencoding::decode_binary` (crate `urlencoding` 2.1.3): `%` and two hexadecimal digits stand for a
byte; everything else, also a `%` that is not followed by two such digits, stands for itself. -/
def percentDecode : Bytes → Bytes
  | [] => []
  | [c] => [c]
  | [c, a] => [c, a]
  | c :: a :: b :: rest =>
    if c = 37 then
      match hexDigit a, hexDigit b with
      | some x, some y => (x * 16 + y) :: percentDecode rest
      | _, _ => c :: percentDecode (a :: b :: rest)
    else c :: percentDecode (a :: b :: rest)

/-- `urlencoding::decode` with the fallback to the text itself when the bytes are not UTF-8 (`cel.rs`
L457-462, L464-469). -/
def urlDecode (t : Text) : Text := (fromUtf8 (percentDecode (utf8 t))).getD t

/-- `cel.rs` L445-452. `args` are all arguments of the call `queryMap(query, repeats)`, the query
included. -/
def allowRepeats : List Val → Bool
  | [_, .bool b] => b
  | _ => false

/-- `cel.rs` L455-456: name and value of one part of the query, not decoded. -/
def rawParam (part : Text) : Text × Text :=
  match splitText part ['='] with
  | [] => ([], [])
  | [key] => (key, [])
  | key :: value :: _ => (key, value)

/-- `cel.rs` L454-504: one round of the loop. The list in the map is never shared, so that L474-480
does not fail. -/
def addParam (repeats : Bool) (map : List (Key × Val)) (part : Text) : List (Key × Val) :=
  let key := Key.str (urlDecode (rawParam part).1)
  let value := Val.str (urlDecode (rawParam part).2)
  match mapGet map key with
  | none => mapInsert map key value
  | some old =>
    if repeats then
      match old with
      | .list l => mapInsert map key (.list (l ++ [value]))
      | v => mapInsert map key (.list [v, value])
    else map

/-- `cel.rs` L444-506 `decode_query_string`, called as a function; `s` is the first argument. -/
def queryMap (s : Text) (args : List Val) : List (Key × Val) :=
  (splitText s ['&']).foldl (addParam (allowRepeats args)) []

end Verif
