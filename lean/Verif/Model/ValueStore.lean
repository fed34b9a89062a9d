import Verif.Model.Ctx
/-!
Model of the value store of `crates/kuadrant-filter/src/kuadrant/context.rs`. The mutex around the
registry is not modelled: a request is handled by one thread.
-/
namespace Verif

/-- `context.rs` L587-591 `ValueStore`. `values` are the entries of the Rust `BTreeMap` in ascending order
of keys, `reserved` the registry of reservations with their counts (L550). -/
structure ValueStore where
  values : List (Text × Val) := []
  reserved : List (Text × Nat) := []

namespace ValueStore

/-- `BTreeMap::insert` on the ascending list of entries. -/
def treeInsert (k : Text) (v : Val) : List (Text × Val) → List (Text × Val)
  | [] => [(k, v)]
  | e :: es =>
    if e.1 = k then (k, v) :: es
    else if textLe k e.1 then (k, v) :: e :: es
    else e :: treeInsert k v es

/-- `context.rs` L594-596 `get`. -/
def get (s : ValueStore) (path : Text) : Option Val := (s.values.find? fun e => e.1 = path).map (·.2)

/-- `context.rs` L598-605 `is_pending`. -/
def isPending (s : ValueStore) (path : Text) : Bool :=
  !s.values.any (fun e => e.1 = path) && s.reserved.any (fun e => e.1 = path)

/-- `context.rs` L607-618 `has_prefix`: only the first key not below the prefix is inspected. -/
def hasPrefix (s : ValueStore) (pre : Text) : Bool :=
  ((s.values.find? fun e => textLe pre e.1).any fun e => startsWith e.1 pre) ||
    s.reserved.any (fun e => startsWith e.1 pre)

/-- `context.rs` L620-622 `store`. -/
def store (s : ValueStore) (path : Text) (v : Val) : ValueStore := { s with values := treeInsert path v s.values }

/-- `context.rs` L554-564 `PathReservation::new`. -/
def reserve (s : ValueStore) (path : Text) : ValueStore :=
  { s with reserved := mapInsert s.reserved path ((mapGet s.reserved path).getD 0 + 1) }

/-- `context.rs` L567-585: a reservation is dropped. -/
def release (s : ValueStore) (path : Text) : ValueStore :=
  match mapGet s.reserved path with
  | none => s
  | some n =>
    if n - 1 = 0 then { s with reserved := s.reserved.filter fun e => e.1 ≠ path }
    else { s with reserved := mapInsert s.reserved path (n - 1) }

end ValueStore

end Verif
