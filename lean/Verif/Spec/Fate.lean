import Verif.Spec.Pipeline
import Verif.Spec.Config
/-! Why an action of a request has not completed. -/
namespace Verif.Spec

/-- The action has a result. -/
def HasResult (log : List Effect) (id : Text) : Prop := .completed id ∈ log ∨ .failed id ∈ log

/-- A call of the action has not been answered. -/
def CallOut (log : List Effect) (id : Text) : Prop := ∃ token, InFlightFor log token id

/-- In the callback that began with the history `before` the action was started and had to wait for data. -/
def WaitsNow (before log : List Effect) (id : Text) : Prop := ∃ new, log = before ++ new ∧ WaitedIn new id

/-- Only calls wait for the actions they depend on; every legacy action may be one. -/
def MayCall : ActionConfig → Prop
  | .typed (.grpc ..) => True
  | .typed _ => False
  | .legacy .. => True

/-- Why the action at a position has not completed at the end of the callback that began with the history
`before`: it failed, its call is out, it was started in this callback and had to wait for data, or it is a call
behind an action that has not completed. -/
inductive HeldBack (actions : List ActionConfig) (deps : List (List Nat)) (before log : List Effect) : Nat → Prop
  | failed {i : Nat} : .failed (natText i) ∈ log → HeldBack actions deps before log i
  | out {i : Nat} : CallOut log (natText i) → HeldBack actions deps before log i
  | waits {i : Nat} : WaitsNow before log (natText i) → HeldBack actions deps before log i
  | behind {i j : Nat} {a : ActionConfig} {ds : List Nat} : actions[i]? = some a → MayCall a → deps[i]? = some ds →
      j ∈ ds → HeldBack actions deps before log j → HeldBack actions deps before log i

end Verif.Spec
