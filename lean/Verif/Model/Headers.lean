import Verif.Model.Val
/-!
Model of `crates/kuadrant-filter/src/data/headers.rs` and of the reading of header lists from CEL
values (`services/dynamic/converters.rs` L154-201).
-/
namespace Verif

/-- `headers.rs` L5 `Headers`: the ordered list of header pairs. -/
abbrev Headers := List (Text × Text)

namespace Headers

/-- `headers.rs` L12-14 `append`. -/
def append (h : Headers) (k v : Text) : Headers := List.append h [(k, v)]

/-- `headers.rs` L21-23 `remove`. -/
def remove (h : Headers) (k : Text) : Headers := h.filter (fun e => e.1 ≠ k)

/-- `headers.rs` L16-19 `set`. -/
def set (h : Headers) (k v : Text) : Headers := List.append (h.filter (fun e => e.1 ≠ k)) [(k, v)]

/-- `headers.rs` L25-31 `get_all`. -/
def getAll (h : Headers) (k : Text) : List Text := (h.filter (fun e => e.1 = k)).map Prod.snd

/-- `headers.rs` L33-38 `get`. -/
def get (h : Headers) (k : Text) : Option Text := (h.find? (fun e => e.1 = k)).map Prod.snd

/-- `headers.rs` L63-65 `extend`. -/
def extend (h other : Headers) : Headers := List.append h other

/-- `headers.rs` L86-99: the conversion to a map joins the values of a name with commas. The order of
the entries carries no meaning in Rust; here it is the order of first occurrence. -/
def toMap (h : Headers) : List (Text × Text) :=
  h.foldl (init := []) fun m (k, v) =>
    if m.any (fun e => e.1 = k) then m.map (fun e => if e.1 = k then (k, e.2 ++ ',' :: v) else e)
    else List.append m [(k, v)]

end Headers

/-- A struct's field (`CelStruct::field_value`). -/
def fieldValue (fields : List (Text × Val)) (name : Text) : Option Val :=
  (fields.find? (fun e => e.1 = name)).map Prod.snd

/-- `downcast_ref::<CelString>`. -/
def Val.asStr : Val → Option Text
  | .str t => some t
  | _ => none

/-- The pair given by the fields `key` and `value` of a struct, if both are strings. -/
def keyValue (fields : List (Text × Val)) : Option (Text × Text) :=
  match (fieldValue fields "key".toList).bind Val.asStr,
    (fieldValue fields "value".toList).bind Val.asStr with
  | some k, some v => some (k, v)
  | _, _ => none

/-- The pair one list item contributes, `converters.rs` L161-197. -/
def headerPair : Val → Option (Text × Text)
  | .list [.str k, .str v] => some (k, v)
  | .struct _ fields =>
    match keyValue fields with
    | some p => some p
    | none => match fieldValue fields "header".toList with
      | some (.struct _ inner) => keyValue inner
      | _ => none
  | _ => none

/-- `converters.rs` L154-201 `cel_value_to_header_pairs`. -/
def headerPairs : Val → Headers
  | .list items => items.filterMap headerPair
  | _ => []

end Verif
