import Verif.Spec.Due
import Verif.Spec.Store
/-!
# Which response variables there are

A call with reply actions binds its response to a variable, for its reply actions and what is nested in them.
-/
namespace Verif.Spec

/-- The action at `p` is a call with reply actions that binds its response to `name`, and it was answered well. -/
def ToldBy (services : Text → Option SvcInst) (s : ActionSet) (log : List Effect) (name : Text) (p : List Nat) : Prop :=
  ∃ head service message replies, At services s (actionId p) (.grpc head service name message replies) ∧
    replies ≠ [] ∧ WellAnswered log (actionId p)

/-- Of the calls the action at `q` is nested in, `p` is the innermost one that was answered well and binds `name`. -/
def Innermost (services : Text → Option SvcInst) (s : ActionSet) (log : List Effect) (name : Text) (q p : List Nat) :
    Prop :=
  p <+: q ∧ ToldBy services s log name p ∧ ∀ p', p' <+: q → ToldBy services s log name p' → p' <+: p

end Verif.Spec
