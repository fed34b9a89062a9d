import Verif.Spec.Cel
import Verif.Model.Ctx
/-!
The meaning of a part of the Common Expression Language, following the language definition
(https://github.com/google/cel-spec, doc/langdef.md): variables, literals, selection of fields and the test for
them, comparison of numbers, logic, the conditional operator, sizes, conversions to text and to unsigned numbers,
and the construction of lists, maps and messages. Everything else has no value here, so nothing is said about it. The interpreter the
filter links is external; `Interprets` says what is assumed about it.
-/
namespace Verif.Cel
open Verif

/-- The field of a message or the entry of a map. -/
def field (name : Text) : Val → Option Val
  | .struct _ fs => fs.lookup name
  | .map es => es.lookup (.str name)
  | _ => none

/-- Does the message or map have the field? -/
def hasField (name : Text) : Val → Option Bool
  | .struct _ fs => some (fs.lookup name).isSome
  | .map es => some (es.lookup (.str name)).isSome
  | _ => none

def digitsVal (t : Text) : Option Nat :=
  if t ≠ [] ∧ t.all isDigit = true then some (t.foldl (fun n c => 10 * n + (c.toNat - '0'.toNat)) 0) else none

/-- Decimal integers; a trailing `u` marks unsigned ones. -/
def numVal (t : Text) : Option Val :=
  if t.getLast? = some 'u' then (digitsVal t.dropLast).map .uint else (digitsVal t).map fun n => .int n

def eqVal : Val → Val → Option Bool
  | .int a, .int b => some (a = b)
  | .uint a, .uint b => some (a = b)
  | .bool a, .bool b => some (a = b)
  | .str a, .str b => some (a = b)
  | _, _ => none

def gtVal : Val → Val → Option Bool
  | .int a, .int b => some (decide (b < a))
  | .uint a, .uint b => some (decide (b < a))
  | _, _ => none

def sizeVal : Val → Option Val
  | .list l => some (.int l.length)
  | .map m => some (.int m.length)
  | .str t => some (.int t.length)
  | .bytes b => some (.int b.length)
  | _ => none

/-- `uint(x)`. -/
def toUint : Val → Option Val
  | .uint n => some (.uint n)
  | .int i => if 0 ≤ i then some (.uint i.toNat) else none
  | _ => none

/-- `string(x)`. -/
def toText : Val → Option Val
  | .str t => some (.str t)
  | .int i => some (.str (toString i).toList)
  | .uint n => some (.str (toString n).toList)
  | _ => none

/-- `+`, here of lists only. -/
def addVal : Option Val → Option Val → Option Val
  | some (.list a), some (.list b) => some (.list (a ++ b))
  | _, _ => none

/-- `&&`: false if one side is false, even if the other is an error. -/
def andVal : Option Val → Option Val → Option Val
  | some (.bool false), _ => some (.bool false)
  | _, some (.bool false) => some (.bool false)
  | some (.bool true), some (.bool true) => some (.bool true)
  | _, _ => none

/-- `||`: true if one side is true, even if the other is an error. -/
def orVal : Option Val → Option Val → Option Val
  | some (.bool true), _ => some (.bool true)
  | _, some (.bool true) => some (.bool true)
  | some (.bool false), some (.bool false) => some (.bool false)
  | _, _ => none

def notVal : Option Val → Option Val
  | some (.bool b) => some (.bool !b)
  | _ => none

def compare (f : Val → Val → Option Bool) (l r : Option Val) : Option Val :=
  match l, r with
  | some l, some r => (f l r).map .bool
  | _, _ => none

def condVal (c a b : Option Val) : Option Val :=
  match c with
  | some (.bool true) => a
  | some (.bool false) => b
  | _ => none

/-- Operators. -/
def binaryVal : Binary → Option Val → Option Val → Option Val
  | .and, l, r => andVal l r
  | .or, l, r => orVal l r
  | .eq, l, r => compare eqVal l r
  | .ne, l, r => notVal (compare eqVal l r)
  | .gt, l, r => compare gtVal l r
  | .add, l, r => addVal l r
  | _, _, _ => none

/-- Functions of one argument: its value and, if it is a selection, whether it is present. -/
def callVal (fn : Text) (vals : List (Option Val × Option Bool)) : Option Val :=
  match vals with
  | [(v, present)] =>
    if fn = "has".toList then present.map .bool
    else if fn = "uint".toList then v.bind toUint
    else if fn = "string".toList then v.bind toText
    else none
  | _ => none

/-- All fields of a message under construction, if all have values. -/
def allFields : List (Text × Option Val) → Option (List (Text × Val))
  | [] => some []
  | (n, v) :: fs => match v, allFields fs with
    | some v, some fs => some ((n, v) :: fs)
    | _, _ => none

/-- The name of a type, which may have dots. -/
def typeNameOf : Ast → Option Text
  | .ident n => some n
  | .select e f => (typeNameOf e).map fun t => t ++ ".".toList ++ f
  | _ => none

def messageVal (name : Ast) (fields : List (Text × Option Val)) : Option Val :=
  match typeNameOf name with
  | some n => (allFields fields).map (.struct n)
  | none => none

/-- All items of a list, if all have values. -/
def allItems : List (Option Val) → Option (List Val)
  | [] => some []
  | v :: vs => match v, allItems vs with
    | some v, some vs => some (v :: vs)
    | _, _ => none

/-- All entries of a map whose keys are strings, if all have values and no key is there twice. -/
def allEntries : List (Option Val × Option Val) → Option (List (Key × Val))
  | [] => some []
  | (k, v) :: es => match k, v, allEntries es with
    | some (.str k), some v, some es => if Key.str k ∈ es.map Prod.fst then none else some ((.str k, v) :: es)
    | _, _, _ => none

/-- The constants that are written like names. -/
def constant (n : Text) : Option Val :=
  if n = "true".toList then some (.bool true)
  else if n = "false".toList then some (.bool false)
  else if n = "null".toList then some .null
  else none

mutual

/-- The value of an expression; `none` if it is an error or outside the part described here. -/
def eval (env : Text → Option Val) : Ast → Option Val
  | .ident n => (constant n).or (env n)
  | .num t => numVal t
  | .str false v => some (.str v)
  | .select e f => (eval env e).bind (field f)
  | .call fn args => callVal fn (evalArgs env args)
  | .method e fn args =>
    if fn = "size".toList ∧ args.isEmpty = true then (eval env e).bind sizeVal else none
  | .list es => (allItems (evalItems env es)).map .list
  | .map es => (allEntries (evalEntries env es)).map .map
  | .message name fields => messageVal name (evalFields env fields)
  | .unary .not e => notVal (eval env e)
  | .binary op l r => binaryVal op (eval env l) (eval env r)
  | .cond c a b => condVal (eval env c) (eval env a) (eval env b)
  | _ => none

/-- Is the selected field present (`has`)? -/
def present (env : Text → Option Val) : Ast → Option Bool
  | .select e f => (eval env e).bind (hasField f)
  | _ => none

def evalArgs (env : Text → Option Val) : List Ast → List (Option Val × Option Bool)
  | [] => []
  | a :: as => (eval env a, present env a) :: evalArgs env as

def evalFields (env : Text → Option Val) : List (Text × Ast) → List (Text × Option Val)
  | [] => []
  | (n, a) :: fs => (n, eval env a) :: evalFields env fs

def evalItems (env : Text → Option Val) : List Ast → List (Option Val)
  | [] => []
  | a :: as => eval env a :: evalItems env as

def evalEntries (env : Text → Option Val) : List (Ast × Ast) → List (Option Val × Option Val)
  | [] => []
  | (k, a) :: es => (eval env k, eval env a) :: evalEntries env es

end

/-- One variable. -/
def bound (name : Text) (v : Val) : Text → Option Val := fun n => if n = name then some v else none

variable {H : Type}

/-- What is assumed about the interpreter, for the expressions `texts` of the action `id` in the contexts `R`: none
needs a body, and one that has a value according to `eval`, when the variables are those of `env`, evaluates to it. -/
def Interprets (o : Oracle H) (parse : Text → Option Expr) (texts : List Text) (id : Text) (env : Text → Option Val)
    (R : Ctx H → Prop) : Prop :=
  ∀ t ∈ texts, ∀ a e, Parses t a → parse t = some e → e.reqFields = [] ∧ e.respFields = [] ∧
    ∀ w, eval env a = some w → ∀ c, R c → (evalExpr o c id e).1 = .available w

/-- The same for an expression without value: it is an error. -/
def Rejects (o : Oracle H) (parse : Text → Option Expr) (texts : List Text) (id : Text) (env : Text → Option Val)
    (R : Ctx H → Prop) : Prop :=
  ∀ t ∈ texts, ∀ a e, Parses t a → parse t = some e → eval env a = none →
    ∀ c, R c → (evalExpr o c id e).1 = .err

end Verif.Cel
