/-!
Independent specification of event-stream decoding, after the "event stream interpretation" chapter
of the HTML standard: split into lines, group lines into blocks, read the fields of each block.
It does not use the parser model.
-/
namespace Verif.Spec.Sse

/-- Complete lines of a text and the unfinished rest. A line ends at CR LF, LF or CR. A CR at the very
end of the text does not end the line yet, since an LF may follow. `acc` is the current line so far. -/
def splitLines (acc : List Char) : List Char → List (List Char) × List Char
  | [] => ([], acc)
  | '\n' :: cs => let r := splitLines [] cs; (acc :: r.1, r.2)
  | '\r' :: [] => ([], acc ++ ['\r'])
  | '\r' :: '\n' :: cs => let r := splitLines [] cs; (acc :: r.1, r.2)
  | '\r' :: c :: cs => let r := splitLines [] (c :: cs); (acc :: r.1, r.2)
  | c :: cs => splitLines (acc ++ [c]) cs

/-- Complete blocks (without the empty line that ends each of them) and the lines of the block that is
still open. `acc` is the current block so far. -/
def blocks (acc : List (List Char)) : List (List Char) → List (List (List Char)) × List (List Char)
  | [] => ([], acc)
  | [] :: ls => let r := blocks [] ls; (acc :: r.1, r.2)
  | l :: ls => blocks (acc ++ [l]) ls

/-- Field name and value of a line; `none` for a comment. The value starts after the first colon,
minus one optional space; a line without colon is a name with an empty value. -/
def fieldOf (l : List Char) : Option (List Char × List Char) :=
  match l with
  | ':' :: _ => none
  | _ =>
    let name := l.takeWhile (· ≠ ':')
    match l.dropWhile (· ≠ ':') with
    | _ :: ' ' :: v => some (name, v)
    | _ :: v => some (name, v)
    | [] => some (name, [])

/-- The values a block gives for a field, in order. -/
def values (name : List Char) (block : List (List Char)) : List (List Char) :=
  block.filterMap fun l => match fieldOf l with
    | some (n, v) => if n = name then some v else none
    | none => none

/-- What the code makes of the data values: leading empty values are lost, the rest is joined with
line feeds, and one final line feed is removed. -/
def joinData (vs : List (List Char)) : List Char :=
  let j := List.intercalate ['\n'] (vs.dropWhile (· = []))
  if j.getLast? = some '\n' then j.dropLast else j

/-- What the standard makes of the data values: they are joined with line feeds. -/
def standardData (vs : List (List Char)) : List Char := List.intercalate ['\n'] vs

/-- An interpreted event. -/
structure Event where
  name : List Char
  data : List Char
  id : List Char
  retry : Option Nat

/-- Unsigned decimal 64-bit numbers as the `retry` field accepts them. -/
def number (v : List Char) : Option Nat :=
  let ds := match v with
    | '+' :: r => r
    | _ => v
  if ds ≠ [] ∧ ds.all (fun c => '0' ≤ c && c ≤ '9') then
    let n := ds.foldl (fun a c => a * 10 + (c.toNat - 48)) 0
    if n < 2 ^ 64 then some n else none
  else none

/-- The event of a block, if it has non-empty data. The last `event`, `id` (without NUL) and `retry`
(if a number) fields of the block win; the default name is `message`. -/
def eventOf (block : List (List Char)) : Option Event :=
  let vs := values "data".toList block
  if vs.all (· = []) then none
  else
    let name := ((values "event".toList block).getLast?).getD []
    some {
      name := if name = [] then "message".toList else name
      data := joinData vs
      id := (((values "id".toList block).filter (fun v => !v.contains '\x00')).getLast?).getD []
      retry := ((values "retry".toList block).filterMap number).getLast? }

/-- All events of a text. -/
def events (text : List Char) : List Event :=
  (blocks [] (splitLines [] text).1).1.filterMap eventOf

end Verif.Spec.Sse
