import Verif.Spec.Config
/-!
Which actions are still to come, as far as the history of a request tells.
-/
namespace Verif.Spec

/-- The action was recorded as completed or failed. -/
def Concluded (log : List Effect) (id : Text) : Prop := Effect.completed id ∈ log ∨ Effect.failed id ∈ log

/-- The action's call was sent, a response came and could be used. -/
def WellAnswered (log : List Effect) (id : Text) : Prop :=
  (∃ guard token svc bytes rid, Effect.dispatch id guard token svc bytes rid ∈ log) ∧ Effect.completed id ∈ log ∧
    Effect.callFailed id ∉ log

/-- The action has not finished and can still do so: for a reply action, its call is still to come or in flight, or
was answered well. -/
inductive Due (services : Text → Option SvcInst) (s : ActionSet) (log : List Effect) : Text → TypedAction → Prop
  | top {i : Nat} {a : ActionConfig} {t : TypedAction} (h : s.actions[i]? = some a)
      (hs : standsFor services a = some t) (hf : ¬Concluded log (natText i)) : Due services s log (natText i) t
  | within {id : Text} {head : TypedHead} {service var message : Text} {replies : List TypedAction} {j : Nat}
      {t : TypedAction} (h : Due services s log id (.grpc head service var message replies))
      (hj : replies[j]? = some t) (hf : ¬Concluded log (id ++ '.' :: natText j)) :
      Due services s log (id ++ '.' :: natText j) t
  | after {id : Text} {head : TypedHead} {service var message : Text} {replies : List TypedAction} {j : Nat}
      {t : TypedAction} (h : At services s id (.grpc head service var message replies)) (ha : WellAnswered log id)
      (hj : replies[j]? = some t) (hf : ¬Concluded log (id ++ '.' :: natText j)) :
      Due services s log (id ++ '.' :: natText j) t

/-- An action that keeps a value under this path is still to come. -/
def WriterDue (services : Text → Option SvcInst) (s : ActionSet) (log : List Effect) (path : Text) : Prop :=
  ∃ id head source exported, Due services s log id (.store head path source exported)

/-- The expressions of an action: its predicate, and the one of its operation. -/
def expressionsOf : TypedAction → List Text
  | .grpc head _ _ message _ => [head.predicate, message]
  | .deny head source => [head.predicate, source]
  | .headers head _ source => [head.predicate, source]
  | .store head _ source _ => [head.predicate, source]
  | .fail head => [head.predicate]

end Verif.Spec
