import Verif.Props.Routed
import Verif.Props.HostFactsDemo
/-! C82 for a host, a library and a configuration. -/
namespace Verif.Props.RoutedDemo
open Verif Verif.Spec Verif.Cel HostFactsDemo

def tree : Text → Ast := QueryDemo.tree

def posted : Text := "request.method == 'POST'".toList
def fetched : Text := "request.method == 'GET' && request.path == '/p'".toList

def treeOf (texts : List Text) (t : Text) : Option Ast := if t ∈ texts then some (tree t) else none

/-- The library follows the language for these texts. -/
def libOf (texts : List Text) : Lib :=
  { HostFactsDemo.lib with
    cel := fun t => match treeOf texts t with
      | some a => some (VerdictHostDemo.celOf a)
      | none => some .literal
    exec := fun t vars => match treeOf texts t with
      | some a => eval (mapGet vars) a
      | none => some (.bool true) }

/-- The library of the predicates. -/
def lib : Lib := libOf [posted, fetched]

def world : World Hosted.Proxy := { HostFactsDemo.world with lib }

def facts : List Fact := [⟨"request".toList, "method".toList, .str "GET".toList⟩,
  ⟨"request".toList, "path".toList, .str "/p".toList⟩]

/-- What is checked of an expression. -/
def sees (texts : List Text) (facts : List Fact) (t : Text) : Bool :=
  (parse t).isSome && decide (¬EndsInComment t) && decide (t ∈ texts) && honest (tree t) &&
  !(compileExpr (VerdictHostDemo.celOf (tree t))).needsGrpc &&
  ((compileExpr (VerdictHostDemo.celOf (tree t))).attributes.all fun p => decide (p ∈ chains (tree t))) &&
  ((chains (tree t)).all fun p => decide (p ∈ facts.map Fact.path)) &&
  bodyFunctions.all fun f => decide (f ∉ functions (tree t))

/-- An expression that the facts decide. -/
theorem decided {texts : List Text} {facts : List Fact} {t : Text} {v : Val} (h : sees texts facts t = true)
    (hv : ∀ env, (∀ f ∈ facts, f.path ∈ chains (tree t) → f.Seen env) → eval env (tree t) = some v) :
    FactsDecide (libOf texts) facts t v := by
  simp only [sees, Bool.and_eq_true, decide_eq_true_eq, List.all_eq_true, Bool.not_eq_true'] at h
  obtain ⟨⟨⟨⟨⟨⟨⟨h1, h2⟩, h3⟩, h4⟩, h5⟩, h6⟩, h7⟩, h8⟩ := h
  have ht : treeOf texts t = some (tree t) := by
    unfold treeOf
    rw [if_pos h3]
  have hp : Parses t (tree t) := (LegacyDemo.sound h1 h2).1
  have hx : ∀ x, (libOf texts).cel t = some x → x = VerdictHostDemo.celOf (tree t) := by
    intro x hx
    simp only [libOf, ht, Option.some.injEq] at hx
    exact hx.symm
  simp only [honest, Bool.and_eq_true, List.all_eq_true] at h4
  obtain ⟨⟨hm, hplain⟩, href⟩ := h4
  have hplain := plain_of (List.all_eq_true.2 hplain)
  refine ⟨⟨?_, ?_, ?_⟩, ⟨?_, ?_⟩, ?_, ⟨_, hp⟩, ?_, ?_, ?_⟩
  · intro a x ha hc n hn
    cases parses_unique ha hp
    cases hx x hc
    have := hm (false, n) (VerdictHostDemo.part_mentions hn _ (by simp [VerdictHostDemo.mentions]))
    simpa using this
  · intro a x ha hc f hf args hn
    cases parses_unique ha hp
    cases hx x hc
    have := hm (true, f) (VerdictHostDemo.part_mentions hn _ (by simp [VerdictHostDemo.mentions]))
    simp only [if_true, decide_eq_true_eq] at this
    exact this hf
  · intro a vars u ha hu
    cases parses_unique ha hp
    simp only [libOf, ht]
    exact hu
  · intro x hc
    cases hx x hc
    exact hplain
  · intro a x ha hc p hmem
    cases parses_unique ha hp
    cases hx x hc
    exact ((C45_exact _ hplain p).1.1 (of_decide_eq_true (href p hmem))).1
  · intro a x ha hc p hr
    cases parses_unique ha hp
    cases hx x hc
    refine h6 p ((C45_exact _ hplain p).1.2 ⟨hr, fun hg => ?_⟩)
    rw [(C45_exact _ hplain p).2.2 ⟨p, hr, hg⟩] at h5
    cases h5
  · intro a ha p hmem
    cases parses_unique ha hp
    obtain ⟨f, hf, rfl⟩ := List.mem_map.1 (h7 p hmem)
    exact ⟨f, hf, rfl⟩
  · intro a ha f hf
    cases parses_unique ha hp
    exact h8 f hf
  · intro env henv
    exact ⟨_, hp, hv env fun f hf hc => henv f hf fun a ha => by cases parses_unique ha hp; exact hc⟩

/-- It is `request.field == 'value'`. -/
def isTest (field value : Text) : Ast → Bool
  | .binary .eq (.select (.ident r) f) (.str false v) =>
    decide (r = "request".toList) && decide (f = field) && decide (v = value)
  | _ => false

theorem test_value {env : Text → Option Val} {a : Ast} {field value said : Text} (h : isTest field value a = true)
    (hs : Fact.Seen ⟨"request".toList, field, .str said⟩ env) : eval env a = some (.bool (said = value)) := by
  unfold isTest at h
  split at h
  · simp only [Bool.and_eq_true, decide_eq_true_eq] at h
    obtain ⟨⟨rfl, rfl⟩, rfl⟩ := h
    have hs : eval env (.select (.ident "request".toList) _) = some (.str said) := hs
    rw [eval, hs, eval]
    simp [binaryVal, Cel.compare, eqVal]
  · cases h

def isBoth (p q : Ast → Bool) : Ast → Bool
  | .binary .and a b => p a && q b
  | _ => false

theorem both_value {env : Text → Option Val} {a : Ast} {p q : Ast → Bool} {x y : Bool} (h : isBoth p q a = true)
    (hp : ∀ a, p a = true → eval env a = some (.bool x)) (hq : ∀ a, q a = true → eval env a = some (.bool y)) :
    eval env a = some (.bool (x && y)) := by
  unfold isBoth at h
  split at h
  · rw [Bool.and_eq_true] at h
    rw [eval, hp _ h.1, hq _ h.2]
    cases x <;> cases y <;> rfl
  · cases h

def holds (t : Text) : Bool := t = fetched

theorem posted_decided : FactsDecide lib facts posted (.bool (holds posted)) := by
  refine decided (by decide +kernel) fun env henv => ?_
  have h1 := henv _ (List.mem_cons_self ..) (by decide +kernel)
  rw [test_value (field := "method".toList) (value := "POST".toList) (by decide +kernel) h1]
  exact congrArg (fun b => some (Val.bool b)) (by decide +kernel)

theorem fetched_decided : FactsDecide lib facts fetched (.bool (holds fetched)) := by
  refine decided (by decide +kernel) fun env henv => ?_
  have h1 := henv _ (List.mem_cons_self ..) (by decide +kernel)
  have h2 := henv _ (List.mem_cons_of_mem _ (List.mem_cons_self ..)) (by decide +kernel)
  rw [both_value (p := isTest "method".toList "GET".toList) (q := isTest "path".toList "/p".toList) (by decide +kernel)
    (fun a h => test_value h h1) (fun a h => test_value h h2)]
  exact congrArg (fun b => some (Val.bool b)) (by decide +kernel)

/-! ### The request -/

def setOf (name host : String) (predicates : List Text) : ActionSet where
  name := name.toList
  hostnames := [host.toList]
  predicates := predicates
  actions := [Demo.grpc "deny"]

/-- The last set is for every host; the third one would do as well as the second. -/
def cfg : PluginConfig where
  services := Demo.services
  actionSets := [setOf "posts" "*.COM" [posted], setOf "gets" "*.com" [fetched], setOf "rest" "*.com" [],
    setOf "all" "*" []]

def factory : Factory := (Factory.tryFrom world.oracle.parse cfg).getD {}

theorem some_getD {α : Type} {x : Option α} {d : α} (h : x.isSome = true) : x = some (x.getD d) := by
  cases x with
  | none => cases h
  | some a => rfl

theorem factory_eq : Factory.tryFrom world.oracle.parse cfg = some factory := some_getD (by decide +kernel)

theorem given_reported {abi : Abi Hosted.Proxy} {json : JsonLib} {x : Hosted.Proxy} {f : Fact}
    (h : Given abi json x f) : Reported abi json x f := by
  cases h with
  | property hn hp h hv => exact .property hn hp (h x) hv
  | headers h hne => exact .headers h hne

theorem facts_reported : ∀ f ∈ facts, Reported world.abi world.lib.json start f ∧ f.root ∈ visibleRoots ∧
    f.path ≠ ["request".toList, "grpc".toList] := by
  intro f hf
  simp only [facts, List.mem_cons, List.not_mem_nil, or_false] at hf
  rcases hf with rfl | rfl
  · exact ⟨given_reported (text_given (by decide +kernel)), by decide +kernel, by decide +kernel⟩
  · exact ⟨given_reported (text_given (by decide +kernel)), by decide +kernel, by decide +kernel⟩

theorem best : Best cfg "example.com".toList "*.com".toList := by
  refine ⟨by decide, .wildcard "example".toList ".com".toList, ?_⟩
  intro q hq _
  have : ∀ q ∈ patterns cfg, "*.com".toList = "example.com".toList ∨
      q ≠ "example.com".toList ∧ q.length ≤ "*.com".toList.length := by decide
  exact this q hq

/-- The second action set serves the request. -/
example : ServedBy world.oracle world.oracle.parse cfg factory { world := start } (setOf "gets" "*.com" [fetched]) := by
  have := C82_served world cfg factory factory_eq (by decide) start (fun _ => rfl) "example.com".toList
    (given_reported (text_given (by decide +kernel))) (by decide) (by decide) "*.com".toList best facts facts_reported holds
    (by
      intro s hs t ht
      have : t ∈ ((setsFor cfg "*.com".toList).flatMap ActionSet.predicates) := List.mem_flatMap.2 ⟨s, hs, ht⟩
      have hall : (setsFor cfg "*.com".toList).flatMap ActionSet.predicates = [posted, fetched] := by decide +kernel
      rw [hall] at this
      simp only [List.mem_cons, List.not_mem_nil, or_false] at this
      rcases this with rfl | rfl
      · exact posted_decided
      · exact fetched_decided)
  have hfind : (setsFor cfg "*.com".toList).find? (fun s => s.predicates.all holds) = some (setOf "gets" "*.com" [fetched]) := by
    have h : setsFor cfg "*.com".toList = [setOf "posts" "*.COM" [posted], setOf "gets" "*.com" [fetched],
      setOf "rest" "*.com" []] := rfl
    rw [h, List.find?_cons, show (setOf "posts" "*.COM" [posted]).predicates.all holds = false by decide +kernel,
      List.find?_cons, show (setOf "gets" "*.com" [fetched]).predicates.all holds = true by decide +kernel]
  rw [hfind] at this
  exact this

/-! ### Another host -/

def other : PluginConfig where
  services := Demo.services
  actionSets := [setOf "posts" "*.org" [posted], setOf "gets" "www.example.com" [fetched]]

def otherFactory : Factory := (Factory.tryFrom world.oracle.parse other).getD {}

example : (otherFactory.select world.oracle { host := { world := start } }).1 = .none :=
  C82_uncovered world other otherFactory (some_getD (by decide +kernel)) (by decide) start "example.com".toList
    (given_reported (text_given (by decide +kernel))) (by decide) (by decide)
    (by
      intro p hp hcov
      have h : ∀ p ∈ patterns other, p ≠ "example.com".toList ∧ ∀ c ∈ p.tail.getLast?, p.head? = some '*' → c ≠ 'm' := by
        decide
      have h := h p hp
      rw [show hostOf "example.com".toList = "example.com".toList by decide] at hcov
      generalize hx : "example.com".toList = host at hcov h
      cases hcov with
      | exact => exact h.1 rfl
      | wildcard st suffix =>
        cases hl : suffix.getLast? with
        | none =>
          rw [List.getLast?_eq_none_iff.1 hl] at hp
          exact absurd hp (by decide)
        | some c =>
          have h2 := h.2 c (by rw [List.tail_cons]; exact hl) rfl
          have h3 : (st ++ suffix).getLast? = some c := by rw [List.getLast?_append, hl]; rfl
          rw [← hx] at h3
          exact h2 (Option.some.inj (h3.symm.trans (by decide))))

end Verif.Props.RoutedDemo
