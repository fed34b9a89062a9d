import Verif.Model.Factory
import Verif.Spec.Truth
/-! How requests are meant to be matched with action sets. -/
namespace Verif.Spec

open Verif

/-- The hostname a request is matched by: what precedes the first colon, in lower case. -/
def hostOf (raw : Text) : Text := asciiLower (raw.takeWhile (· ≠ ':'))

/-- A configured hostname covers a host if it is the host, or `*` followed by an ending of the host. -/
inductive Covers : Text → Text → Prop
  | exact (host : Text) : Covers host host
  | wildcard (start suffix : Text) : Covers ('*' :: suffix) (start ++ suffix)

/-- All configured hostnames, in lower case. -/
def patterns (cfg : PluginConfig) : List Text := cfg.actionSets.flatMap fun s => s.hostnames.map asciiLower

/-- `p` is the most specific configured hostname that covers `host`: the host itself, or else the longest
wildcard. -/
structure Best (cfg : PluginConfig) (host p : Text) : Prop where
  configured : p ∈ patterns cfg
  covers : Covers p host
  best : ∀ q ∈ patterns cfg, Covers q host → p = host ∨ (q ≠ host ∧ q.length ≤ p.length)

/-- The action sets configured for hostname `p`, in configuration order. A set that lists the hostname twice
is a candidate twice. -/
def candidates (cfg : PluginConfig) (p : Text) : List ActionSet :=
  cfg.actionSets.flatMap fun s => (s.hostnames.filter fun h => asciiLower h = p).map fun _ => s

/-- The predicates are tested from left to right; the first outcome that is not true decides. -/
inductive Conj {H : Type} (o : Oracle H) : Ctx H → List Expr → Ans Bool → Ctx H → Prop
  | nil (c : Ctx H) : Conj o c [] (.available true) c
  | holds {c c' c'' : Ctx H} {p : Expr} {ps : List Expr} {r : Ans Bool}
      (h : tests o c [] p = (.available true, c')) (hr : Conj o c' ps r c'') : Conj o c (p :: ps) r c''
  | stops {c c' : Ctx H} {p : Expr} {ps : List Expr} {a : Ans Bool} (h : tests o c [] p = (a, c'))
      (ha : a ≠ .available true) : Conj o c (p :: ps) a c'

/-- Testing the route predicates of an action set. The host is first asked for the attributes they use. -/
inductive Routes {H : Type} (o : Oracle H) (parse : Text → Option Expr) (c : Ctx H) (s : ActionSet)
    (a : Ans Bool) (c' : Ctx H) : Prop
  | always (h : s.predicates = []) (ha : a = .available true) (hc : c' = c)
  | test (es : List Expr) (h : es ≠ []) (hp : s.predicates.map parse = es.map some)
      (hr : Conj o (c.withHost (o.ensure c es)) es a c')

/-- Outcome of the choice among candidates. -/
inductive Pick where
  | set (s : ActionSet)
  | none
  | error

/-- The first candidate whose route predicates hold is picked; a pending or failing one before it is an error. -/
inductive FirstOf {H : Type} (o : Oracle H) (parse : Text → Option Expr) :
    Ctx H → List ActionSet → Pick → Ctx H → Prop
  | nil (c : Ctx H) : FirstOf o parse c [] .none c
  | hit {c c' : Ctx H} {s : ActionSet} {ss : List ActionSet} (h : Routes o parse c s (.available true) c') :
      FirstOf o parse c (s :: ss) (.set s) c'
  | skip {c c' c'' : Ctx H} {s : ActionSet} {ss : List ActionSet} {r : Pick}
      (h : Routes o parse c s (.available false) c') (hr : FirstOf o parse c' ss r c'') :
      FirstOf o parse c (s :: ss) r c''
  | pending {c c' : Ctx H} {s : ActionSet} {ss : List ActionSet} (h : Routes o parse c s .pending c') :
      FirstOf o parse c (s :: ss) .error c'
  | failed {c c' : Ctx H} {s : ActionSet} {ss : List ActionSet} (h : Routes o parse c s .err c') :
      FirstOf o parse c (s :: ss) .error c'

/-- What the pipeline of a request served by `s` is built from. -/
def blueprintOf (parse : Text → Option Expr) (cfg : PluginConfig) (s : ActionSet) : Option Blueprint :=
  (Blueprint.compile parse cfg.services s).map fun b => { b with actions := b.actions ++ (devModeAction cfg).toList }

/-- What follows from the pick: the set serves the request; without a pick there is no match, except that in
developer mode a pipeline of its own is used. -/
inductive Chosen (parse : Text → Option Expr) (cfg : PluginConfig) : Pick → Choice → Prop
  | set (s : ActionSet) (b : Blueprint) (h : blueprintOf parse cfg s = some b) :
      Chosen parse cfg (.set s) (.found b)
  | none (h : cfg.headerIdentifier = none) : Chosen parse cfg .none .none
  | fallback (a : Action) (h : devModeAction cfg = some a) : Chosen parse cfg .none
      (.found { name := "kuadrant.devMode".toList, routePredicates := [], actions := [a] })
  | error : Chosen parse cfg .error .error

/-- The key is cut at the last dot that has a letter after it. -/
structure CutAtLastDot (alphabetic : Char → Bool) (name domain field : Text) : Prop where
  joined : name = domain ++ '.' :: field
  letter : ∃ c ∈ field, alphabetic c = true
  last : ∀ a b, field = a ++ '.' :: b → ∀ c ∈ b, alphabetic c = false

end Verif.Spec
