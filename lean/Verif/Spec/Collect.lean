import Verif.Spec.Config
/-!
Which fields of the response body an action of the configuration refers to.
-/
namespace Verif.Spec

/-- The sources of the expressions of an action, without its reply actions. -/
def ownSources : TypedAction → List Text
  | .grpc head _ _ message _ => [head.predicate, message]
  | .deny head denyWith => [head.predicate, denyWith]
  | .headers head _ value => [head.predicate, value]
  | .store head _ value _ => [head.predicate, value]
  | .fail head => [head.predicate]

/-- The action itself, or a reply action of it at any depth. -/
inductive PartOf : TypedAction → TypedAction → Prop
  | self (t : TypedAction) : PartOf t t
  | reply {t r : TypedAction} {head : TypedHead} {service var message : Text} {replies : List TypedAction}
      (hr : r ∈ replies) (h : PartOf t r) : PartOf t (.grpc head service var message replies)

/-- The source refers to the field of the response body. -/
def SourceReads (parse : Text → Option Expr) (source field : Text) : Prop :=
  ∃ e, parse source = some e ∧ field ∈ e.respFields

/-- The action or one of its reply actions, at any depth, refers to the field of the response body. -/
def ActionReads (parse : Text → Option Expr) (t : TypedAction) (field : Text) : Prop :=
  ∃ u source, PartOf u t ∧ source ∈ ownSources u ∧ SourceReads parse source field

/-- The request data of the configuration, which is part of the message of every call translated from the old form of
configuration, refers to the field of the response body. -/
def DataReads (parse : Text → Option Expr) (cfg : PluginConfig) (field : Text) : Prop :=
  ∃ d ∈ cfg.requestData, SourceReads parse d.2 field

end Verif.Spec
