import Verif.Model.Headers
/-!
Which header pair an entry of a CEL list stands for.
-/
namespace Verif.Spec

/-- The first field with the given name. -/
inductive HasField : List (Text × Val) → Text → Val → Prop where
  | here (name v rest) : HasField ((name, v) :: rest) name v
  | later {name v rest other w} (hne : other ≠ name) (h : HasField rest name v) :
      HasField ((other, w) :: rest) name v

/-- A structure whose fields `key` and `value` are strings. -/
def KeyValue (fields : List (Text × Val)) (k v : Text) : Prop :=
  HasField fields "key".toList (.str k) ∧ HasField fields "value".toList (.str v)

/-- The entry stands for the pair: it is the list of both strings, or a structure with string fields
`key` and `value`, or a structure that is not of that form with a field `header` that is. -/
inductive Stands : Val → Text → Text → Prop where
  | pair (k v) : Stands (.list [.str k, .str v]) k v
  | keyValue {name fields k v} (h : KeyValue fields k v) : Stands (.struct name fields) k v
  | header {name fields inner iname k v} (hno : ∀ k v, ¬KeyValue fields k v)
      (hf : HasField fields "header".toList (.struct iname inner)) (h : KeyValue inner k v) :
      Stands (.struct name fields) k v

/-- The pairs are exactly those the entries stand for, in order; other entries are left out. -/
inductive Pairs : List Val → List (Text × Text) → Prop where
  | nil : Pairs [] []
  | entry {item items k v ps} (h : Stands item k v) (hs : Pairs items ps) : Pairs (item :: items) ((k, v) :: ps)
  | other {item items ps} (h : ∀ k v, ¬Stands item k v) (hs : Pairs items ps) : Pairs (item :: items) ps

/-- What setting headers is to achieve: every listed header has exactly one value, the last one listed for it, and
the other headers keep their values, multiplicity and relative order. -/
structure Replaced (old pairs new : Headers) : Prop where
  listed : ∀ before k v after, pairs = before ++ (k, v) :: after → (∀ w, (k, w) ∉ after) →
    new.filter (fun p => p.1 = k) = [(k, v)]
  others : new.filter (fun p => p.1 ∉ pairs.map (·.1)) = old.filter (fun p => p.1 ∉ pairs.map (·.1))

end Verif.Spec
