import Verif.Spec.HostFacts
import Verif.Spec.Routing
/-! What a host says about a request when it begins, and expressions that this settles. -/
namespace Verif.Spec
open Verif Verif.Cel

/-- The host says it about the request as it begins: the attribute is one of its properties and the bytes mean the
value, or these are the headers of the request. -/
inductive Reported {W : Type} (abi : Abi W) (json : JsonLib) (world : W) : Fact → Prop
  | property {root field : Text} {bytes : Bytes} {v : Val} (hn : ∀ c ∈ field, c ≠ '.' ∧ c ≠ '\\')
      (hp : [root, field] ∉ derived) (h : abi.getProperty world [root, field] = .ok (some bytes))
      (hv : BytesMean json (knownType [root, field]) bytes v) : Reported abi json world ⟨root, field, v⟩
  | headers {m : Headers} (h : abi.getMap world .request = .ok m) (hne : m ≠ []) :
      Reported abi json world ⟨"request".toList, "headers".toList, .map (m.toMap.map fun e => (.str e.1, .str e.2))⟩

/-- The expression mentions no other attributes than these and no fields of bodies, and it has this value wherever the
attributes it mentions are as given. Of the library is assumed that it evaluates the text as the language does, and
that its syntax tree refers to what the text mentions and to nothing else. -/
structure FactsDecide (lib : Lib) (facts : List Fact) (t : Text) (v : Val) : Prop where
  follows : Cel.Follows lib t
  mirrors : Cel.Mirrors lib t
  reflects : ∀ a x, Parses t a → lib.cel t = some x → ∀ p, Refers x p → p ∈ chains a
  parses : ∃ a, Parses t a
  only : ∀ a, Parses t a → ∀ p ∈ chains a, ∃ f ∈ facts, f.path = p
  bodiless : ∀ a, Parses t a → ∀ f ∈ bodyFunctions, f ∉ functions a
  value : ∀ env, (∀ f ∈ facts, Mentions t f.path → f.Seen env) → ∃ a, Parses t a ∧ eval env a = some v

/-- The action sets for a hostname, in the order of the configuration. -/
def setsFor (cfg : PluginConfig) (p : Text) : List ActionSet :=
  cfg.actionSets.filter fun s => s.hostnames.any fun q => asciiLower q = p

end Verif.Spec
