import Verif.Model.ValueStore
import Verif.Model.Path
import Verif.Model.Blueprint
/-! Histories of the value store, and the scopes of response variables. -/
namespace Verif.Spec

open Verif

/-- Histories of a value store: the final store, the writers that are alive (the paths they may write) and what
was stored, latest first. A writer that is alive may end; writers may also store values without ending. -/
inductive StoreHistory : ValueStore → List Text → List (Text × Val) → Prop
  | start : StoreHistory {} [] []
  | begins {s alive stored} (path : Text) (h : StoreHistory s alive stored) :
      StoreHistory (s.reserve path) (path :: alive) stored
  | ends {s alive stored} (path : Text) (h : StoreHistory s alive stored) (hp : path ∈ alive) :
      StoreHistory (s.release path) (alive.erase path) stored
  | stores {s alive stored} (path : Text) (v : Val) (h : StoreHistory s alive stored) :
      StoreHistory (s.store path v) alive ((path, v) :: stored)

/-- Identifier of the action reached by a list of indices: `[3, 0]` is the first reply action of the fourth
action. -/
def actionId (p : List Nat) : Text := joinWith ['.'] (p.map natText)

/-- Bindings made by actions, in order of time: the action, the name and the value. -/
abbrev Bound := List (List Nat × (Text × Val))

/-- The action at `q` sees the value `v` under `name`: it was bound by that action or one it is nested in, no action
between them binds the name, and it is the latest one bound by that action. -/
def Sees (made : Bound) (q : List Nat) (name : Text) (v : Val) : Prop :=
  ∃ before p after, made = before ++ (p, (name, v)) :: after ∧ p <+: q ∧
    (∀ p' v', (p', (name, v')) ∈ made → p' <+: q → p' <+: p) ∧ ∀ v', (p, (name, v')) ∉ after

end Verif.Spec
