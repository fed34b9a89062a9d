import Verif.Model.Turns
/-!
# The moments of a request

The contexts that really occur while the callbacks of a request run: those in which an action is evaluated, and those
in which the response of a call is looked at. Statements about what expressions and services gave are about these.
-/
namespace Verif.Spec

variable {H : Type}

/-- An action is evaluated in the context `c`, in one of the callbacks of the request. -/
def Acting (o : Oracle H) (factory : Factory) (host : H) (events : List (Event H)) (c : Ctx H) : Prop :=
  ∃ (before : List (Event H)) (e : Option (Event H)) (ts : List PTask), before ++ e.toList <+: events ∧
    (c, ts) ∈ Filter.turnsAt o factory host before e

/-- A response is looked at in the context `c`: the one that the earlier callbacks left, with the host as it is in
this callback. -/
def Hearing (o : Oracle H) (factory : Factory) (host : H) (events : List (Event H)) (token status size : Nat)
    (c : Ctx H) : Prop :=
  ∃ (before : List (Event H)) (now : H) (p : Pipe H),
    before ++ [.grpcResponse now token status size] <+: events ∧
    (Filter.run o factory host before).crashed = false ∧
    (Filter.run o factory host before).pipeline = some p ∧
    c = ((Filter.run o factory host before).enter now p).ctx.push (.responded token status size)

/-- The context is `a` some way into an action: the host was asked for attributes, for the value of an expression or
for headers, or more of a body was read. -/
inductive Asked (o : Oracle H) (a : Ctx H) : Ctx H → Prop
  | none : Asked o a a
  | attributes {c : Ctx H} (e : Expr) : Asked o a c → Asked o a (c.withHost (o.attrs c e).2)
  | value {c : Ctx H} (vars : List (Text × Val)) (e : Expr) : Asked o a c → Asked o a (c.withHost (o.resolve c vars e).2)
  | headers {c : Ctx H} (t : Target) : Asked o a c → Asked o a (c.withHost (o.getHeaders c t).2)
  | body {c d : Ctx H} {s s' : ParseState} : Asked o a c → storeBody o c s = .ready s' d → Asked o a d

/-- The context `c` occurs while an action is carried out, in one of the callbacks of the request. -/
def Fetching (o : Oracle H) (factory : Factory) (host : H) (events : List (Event H)) (c : Ctx H) : Prop :=
  ∃ a, Acting o factory host events a ∧ Asked o a c

/-- The context is `a` some way into the setting up of the actions of a request: the host was asked for its name, for
attributes, for the value of an expression or for headers, and the name of the tracking header was noted. -/
inductive Prepared (o : Oracle H) (a : Ctx H) : Ctx H → Prop
  | none : Prepared o a a
  | hostname {c : Ctx H} : Prepared o a c → Prepared o a (c.withHost (o.hostname c).2)
  | ensured {c : Ctx H} (es : List Expr) : Prepared o a c → Prepared o a (c.withHost (o.ensure c es))
  | attributes {c : Ctx H} (e : Expr) : Prepared o a c → Prepared o a (c.withHost (o.attrs c e).2)
  | value {c : Ctx H} (vars : List (Text × Val)) (e : Expr) : Prepared o a c →
      Prepared o a (c.withHost (o.resolve c vars e).2)
  | headers {c : Ctx H} (t : Target) : Prepared o a c → Prepared o a (c.withHost (o.getHeaders c t).2)
  | named {c : Ctx H} (name : Text) : Prepared o a c → Prepared o a { c with trackerId := some name }

/-- The context `c` occurs in the request: while its actions are set up, or while one of them is carried out. -/
def Occurs (o : Oracle H) (factory : Factory) (host : H) (events : List (Event H)) (c : Ctx H) : Prop :=
  Prepared o { host := host } c ∨ Fetching o factory host events c

/-- A reply is sent in the context `c`, by an action carried out in a context of `known`, perhaps after an error was
counted. The request id is fixed for the tracking header, and the denial is counted. -/
def Replying (o : Oracle H) (known : Ctx H → Prop) (c : Ctx H) : Prop :=
  ∃ a, known a ∧ (c = (tracker o a).2.push .denied ∨ c = (tracker o (a.push .errors)).2.push .denied)

end Verif.Spec
