import Verif.Spec.WireRequest
import Verif.Spec.CelLib
import Verif.Spec.AttrTypes
import Verif.Spec.Obliging
import Verif.Spec.Session
import Verif.Spec.CelEnv
/-!
What a host says about a request, as expressions see it, and the attributes that the text of an expression mentions.
-/
namespace Verif.Cel
open Verif

/-- The names of `a.b.c`. -/
def chainOf : Ast → Option Path
  | .ident n => some [n]
  | .select e f => (chainOf e).map (· ++ [f])
  | _ => none

mutual

/-- The attributes an expression mentions: names followed by as many fields as are selected. -/
def chains : Ast → List Path
  | .ident _ => []
  | .root _ => []
  | .num _ => []
  | .str _ _ => []
  | .select e f => match (chainOf e).map (· ++ [f]) with
    | some p => [p]
    | none => chains e
  | .index e i => chains e ++ chains i
  | .call _ args => chainsOf args
  | .method e _ args => chains e ++ chainsOf args
  | .list es => chainsOf es
  | .map es => chainsOfEntries es
  | .message _ fs => chainsOfFields fs
  | .unary _ e => chains e
  | .binary _ l r => chains l ++ chains r
  | .cond c a b => chains c ++ chains a ++ chains b

def chainsOf : List Ast → List Path
  | [] => []
  | a :: as => chains a ++ chainsOf as

def chainsOfEntries : List (Ast × Ast) → List Path
  | [] => []
  | (k, a) :: es => chains k ++ chains a ++ chainsOfEntries es

def chainsOfFields : List (Text × Ast) → List Path
  | [] => []
  | (_, a) :: fs => chains a ++ chainsOfFields fs

end

/-- The library's syntax tree for this text refers to the attributes that the text mentions, and selects fields of
nothing but identifiers and results of functions. -/
structure Mirrors (lib : Lib) (t : Text) : Prop where
  plain : ∀ x, lib.cel t = some x → Spec.PlainExpr x
  refers : ∀ a x, Parses t a → lib.cel t = some x → ∀ p ∈ chains a, Spec.Refers x p

end Verif.Cel

namespace Verif.Spec
open Verif Verif.Cel Verif.Legacy

/-- An attribute of a request, as expressions should see it. -/
structure Fact where
  root : Text
  field : Text
  value : Val

def Fact.path (f : Fact) : Path := [f.root, f.field]

/-- An expression sees it, with these variables. -/
def Fact.Seen (f : Fact) (env : Text → Option Val) : Prop := eval env (Cel.path f.root [f.field]) = some f.value

/-- The attributes that are not properties of the host. -/
def derived : List Path :=
  [["request".toList, "headers".toList], ["response".toList, "headers".toList],
   ["source".toList, "remote_address".toList]]

/-- The host says it about the request: it gives, whatever its state, the same bytes for the attribute and they mean the
value, or these are the headers it has when the request begins. -/
inductive Given {W : Type} (abi : Abi W) (json : JsonLib) (world : W) : Fact → Prop
  | property {root field : Text} {bytes : Bytes} {v : Val} (hn : ∀ c ∈ field, c ≠ '.' ∧ c ≠ '\\')
      (hp : [root, field] ∉ derived)
      (h : ∀ x, abi.getProperty x [root, field] = .ok (some bytes))
      (hv : BytesMean json (knownType [root, field]) bytes v) : Given abi json world ⟨root, field, v⟩
  | headers {m : Headers} (h : abi.getMap world .request = .ok m) (hne : m ≠ []) :
      Given abi json world ⟨"request".toList, "headers".toList, .map (m.toMap.map fun e => (.str e.1, .str e.2))⟩

/-- What the authorization service is told about the request and the connection. -/
def CheckFacts.attributes (t : CheckFacts) : List Fact :=
  [⟨"request".toList, "time".toList, .timestamp t.seconds t.nanos⟩,
   ⟨"request".toList, "host".toList, .str t.host⟩,
   ⟨"request".toList, "method".toList, .str t.method⟩,
   ⟨"request".toList, "scheme".toList, .str t.scheme⟩,
   ⟨"request".toList, "path".toList, .str t.path⟩,
   ⟨"request".toList, "protocol".toList, .str t.protocol⟩,
   ⟨"request".toList, "headers".toList, .map (t.headers.map fun h => (.str h.1, .str h.2))⟩,
   ⟨"destination".toList, "address".toList, .str t.destination.1⟩,
   ⟨"destination".toList, "port".toList, .int t.destination.2⟩,
   ⟨"source".toList, "address".toList, .str t.source.1⟩,
   ⟨"source".toList, "port".toList, .int t.source.2⟩]

/-- The host says it about the request, and the filter has not put anything else in its place: neither it nor its root
is a name under which a store action keeps a value, and the filter has not written it. -/
structure Fact.Stands {W : Type} (abi : Abi W) (json : JsonLib) (world : W) (services : Text → Option SvcInst)
    (s : ActionSet) (log : List Effect) (f : Fact) : Prop where
  given : Given abi json world f
  visible : f.root ∈ visibleRoots
  simple : f.path ≠ ["request".toList, "grpc".toList]
  free : ∀ path, KeepsAt services s path → path ≠ f.root ∧ path ≠ f.root ++ '.' :: f.field
  unwritten : ∀ e ∈ log, ¬WritesKey f.path.print e

/-- The text of an expression mentions the attribute. -/
def Mentions (t : Text) (p : Path) : Prop := ∀ ast, Parses t ast → p ∈ chains ast

end Verif.Spec
