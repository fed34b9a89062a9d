import Verif.Spec.CelEval
import Verif.Spec.CelEnv
import Verif.Model.World
/-!
What is assumed about the CEL library for an expression: its syntax tree mentions the variables and functions that are
written in the text, and the expression has the value that the language gives it.
-/
namespace Verif.Cel
open Verif

mutual

/-- The variables an expression mentions. -/
def variables : Ast → List Text
  | .ident n => [n]
  | .root n => [n]
  | .num _ => []
  | .str _ _ => []
  | .select e _ => variables e
  | .index e i => variables e ++ variables i
  | .call _ args => variablesOf args
  | .method e _ args => variables e ++ variablesOf args
  | .list es => variablesOf es
  | .map es => variablesOfEntries es
  | .message _ fs => variablesOfFields fs
  | .unary _ e => variables e
  | .binary _ l r => variables l ++ variables r
  | .cond c a b => variables c ++ variables a ++ variables b

def variablesOf : List Ast → List Text
  | [] => []
  | a :: as => variables a ++ variablesOf as

def variablesOfEntries : List (Ast × Ast) → List Text
  | [] => []
  | (k, a) :: es => variables k ++ variables a ++ variablesOfEntries es

def variablesOfFields : List (Text × Ast) → List Text
  | [] => []
  | (_, a) :: fs => variables a ++ variablesOfFields fs

end

mutual

/-- The functions an expression calls. -/
def functions : Ast → List Text
  | .ident _ => []
  | .root _ => []
  | .num _ => []
  | .str _ _ => []
  | .select e _ => functions e
  | .index e i => functions e ++ functions i
  | .call fn args => fn :: functionsOf args
  | .method e _ args => functions e ++ functionsOf args
  | .list es => functionsOf es
  | .map es => functionsOfEntries es
  | .message _ fs => functionsOfFields fs
  | .unary _ e => functions e
  | .binary _ l r => functions l ++ functions r
  | .cond c a b => functions c ++ functions a ++ functions b

def functionsOf : List Ast → List Text
  | [] => []
  | a :: as => functions a ++ functionsOf as

def functionsOfEntries : List (Ast × Ast) → List Text
  | [] => []
  | (k, a) :: es => functions k ++ functions a ++ functionsOfEntries es

def functionsOfFields : List (Text × Ast) → List Text
  | [] => []
  | (_, a) :: fs => functions a ++ functionsOfFields fs

end

/-- The functions for fields of the bodies. -/
def bodyFunctions : List Text := ["requestBodyJSON".toList, "responseBodyJSON".toList]

/-- The library follows the language for the expression with this text. -/
structure Follows (lib : Lib) (t : Text) : Prop where
  /-- It finds no variable in the text that is not there. -/
  variables : ∀ a x, Parses t a → lib.cel t = some x → ∀ n, Spec.Part x (.ident n) → n ∈ variables a
  /-- Nor a call of one of the functions for fields of the bodies. -/
  functions : ∀ a x, Parses t a → lib.cel t = some x → ∀ f ∈ bodyFunctions, ∀ args,
    Spec.Part x (.call f args) → f ∈ functions a
  /-- If the expression has a value, with the given variables, this is what the library makes of it. -/
  value : ∀ a vars v, Parses t a → eval (mapGet vars) a = some v → lib.exec t vars = some v

/-- If it has none, the library reports an error. -/
def Fails (lib : Lib) (t : Text) : Prop :=
  ∀ a vars, Parses t a → eval (mapGet vars) a = none → lib.exec t vars = none

end Verif.Cel
