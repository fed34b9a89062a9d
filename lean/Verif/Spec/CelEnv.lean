import Verif.Model.CelEnv
/-! What an expression refers to, and what is found by following a path in a value. -/
namespace Verif.Spec

open Verif

/-- The expressions an expression consists of. -/
def parts : CelExpr → List CelExpr
  | .call _ args => args
  | .method target _ args => target :: args
  | .select operand _ => [operand]
  | .ident _ => []
  | .list elems => elems
  | .map kvs => kvs
  | .struct _ values => values
  | .comprehension range init cond step result => [range, init, cond, step, result]
  | .string _ => []
  | .literal => []
  | .unspecified => []

/-- `b` occurs in `a`. -/
inductive Part : CelExpr → CelExpr → Prop
  | self (e : CelExpr) : Part e e
  | inside {e q p : CelExpr} (hq : q ∈ parts e) (h : Part q p) : Part e p

/-- An identifier followed by field selections, such as `request.url.path`. -/
inductive Chain : CelExpr → Path → Prop
  | ident (name : Text) : Chain (.ident name) [name]
  | select {e : CelExpr} {p : Path} (field : Text) (h : Chain e p) : Chain (.select e field) (p ++ [field])

/-- The expression contains `p`, an identifier followed by at least one field selection, as long as it can be
made. -/
inductive Refers : CelExpr → Path → Prop
  | chain {e : CelExpr} {p : Path} (h : Chain e p) (hlen : 2 ≤ p.length) : Refers e p
  | inside {e q : CelExpr} {p : Path} (hn : ¬∃ c, Chain e c) (hq : q ∈ parts e) (h : Refers q p) : Refers e p

/-- An identifier or a function call, followed by field selections. -/
inductive Rooted : CelExpr → Prop
  | ident (name : Text) : Rooted (.ident name)
  | call (func : Text) (args : List CelExpr) : Rooted (.call func args)
  | select {e : CelExpr} (field : Text) (h : Rooted e) : Rooted (.select e field)

/-- Fields are selected from identifiers and from the results of functions only, not from the results of methods,
from lists, maps, messages or literals written in the expression, or from the results of macros. -/
def PlainExpr (e : CelExpr) : Prop := ∀ operand field, Part e (.select operand field) → Rooted operand

/-- Following the fields `p` from a value. -/
def follow : Val → Path → Option Val
  | v, [] => some v
  | .map m, t :: ts => (mapGet m (Key.str t)).bind fun v => follow v ts
  | _, _ :: _ => none

/-- The value found by following a path from the variables of an expression. -/
def seenAt (vars : List (Text × Val)) : Path → Option Val
  | [] => none
  | t :: ts => (mapGet vars t).bind fun v => follow v ts

/-- `r` is a beginning of `q`, shorter than it and not empty. -/
def Above (r q : Path) : Prop := r ≠ [] ∧ r <+: q ∧ r ≠ q

/-- The path below which the calls of gRPC requests are described. -/
def grpcRoot : Path := ["request".toList, "grpc".toList]

/-- The text of a path, as in the configuration of actions that store values. -/
def dotted (p : Path) : Text := joinWith ['.'] p

/-- The roots of the attributes of the host. -/
def rootsOfHost : List Text :=
  ["request".toList, "response".toList, "source".toList, "destination".toList, "connection".toList,
    "ratelimit".toList, "filter_state".toList, "metadata".toList]

/-- The roots of those that expressions can see. -/
def visibleRoots : List Text :=
  ["request".toList, "source".toList, "destination".toList, "metadata".toList]

/-- The roots of those that expressions cannot see. -/
def hiddenRoots : List Text :=
  ["response".toList, "connection".toList, "ratelimit".toList, "filter_state".toList]

/-- Names used for the fields of the bodies; they are not identifiers of the language. -/
def bodyNames : List Text := ["@requestBodyJSON".toList, "@responseBodyJSON".toList]

end Verif.Spec
