import Verif.Lemmas.LegacyPredicate
import Verif.Lemmas.LegacyAuth
/-!
The expressions generated from legacy actions (C32, C33, C54): text of the configuration stays within string
literals, and predicates keep their meaning.
-/
namespace Verif.Props
open Cel Legacy

/-! ### C32: configuration strings cannot break out of generated literals -/

/-- A quoted configuration string is read as one string literal with exactly this string as its value, wherever
it is put between tokens; what follows is read as if it stood after a complete token. -/
theorem C32_contained (s : Text) (out : List Token) (c : Char) (post : Text) (hc : c ≠ '"') :
    scan (quoted s ++ c :: post) (out, .normal) = scan (c :: post) (out ++ [.str false s], .normal) := by
  rw [scan_append]
  by_cases hs : s = []
  · subst hs
    rw [scan_quoted_nil]
    show scan post (step _ c) = scan post (step _ c)
    congr 1
    simp [step, quotedInfo, StrInfo.quote, hc]
  · rw [scan_quoted hs]

example : scan (quoted "a\"}, x: \\".toList ++ " }".toList) ([], .normal) =
    scan " }".toList ([.str false "a\"}, x: \\".toList], .normal) :=
  C32_contained _ _ ' ' ['}'] (by decide)

/-- The literal by itself is an expression whose value is the string. -/
theorem C32_literal (s : Text) : Parses (quoted s) (.str false s) :=
  ((written_quoted s).lift (by decide) (by decide)).parses

example : Parses "\"a\\\"b\\n\"".toList (.str false "a\"b\n".toList) := C32_literal "a\"b\n".toList

/-- The literal contains no character that would end the line it is in. -/
theorem C32_one_line (s : Text) : ∀ c ∈ quoted s, c ≠ '\n' ∧ c ≠ '\r' := by
  intro c hc
  unfold quoted at hc
  rw [escape_eq] at hc
  simp only [List.cons_append, List.mem_cons, List.mem_append, List.mem_flatMap, List.not_mem_nil, or_false] at hc
  rcases hc with rfl | ⟨d, -, hd⟩ | rfl
  · decide
  · unfold escapeChar at hd
    split at hd
    · revert c; decide
    split at hd
    · revert c; decide
    split at hd
    · revert c; decide
    split at hd
    · revert c; decide
    split at hd
    · revert c; decide
    rename_i h1 h2 h3 h4 h5
    simp only [List.mem_singleton] at hd
    subst hd
    exact ⟨h3, h4⟩
  · decide

example : '\\' ∈ quoted "a\nb".toList := by decide +kernel

theorem not_infix (n t : Text) : decide (¬n <:+: t) = !contains n t := by
  by_cases h : contains n t = true
  · simp only [h, (contains_iff n t).1 h, not_true_eq_false, decide_false, Bool.not_true]
  · have h' : ¬n <:+: t := fun e => h ((contains_iff n t).2 e)
    simp only [Bool.not_eq_true] at h
    simp only [h, h', not_false_eq_true, decide_true, Bool.not_false]

theorem availableTo_request (kind : SvcKind) (data : RequestData) (h : kind ≠ .rateLimitReport) :
    availableTo kind data = requestOnly data := by
  unfold availableTo requestOnly
  rw [if_neg h]
  congr 1
  funext d
  exact not_infix _ _

/-- The request to a rate limit service is the intended message: scope, keys and static values are string
literals with exactly these strings, whatever characters they contain. -/
theorem C32_ratelimit_request (P : Text → Ast) (a : LegacyAction) (data : RequestData) (kind : SvcKind)
    (hk : kind = .rateLimit ∨ kind = .rateLimitCheck ∨ kind = .rateLimitReport)
    (h : ProperConfig P a.conditionalData (availableTo kind data)) :
    Parses (requestOf (translate a data kind)) (ratelimitAst P a.scope a.conditionalData (availableTo kind data)) := by
  have hw := ((written_ratelimit h a.scope).lift (m := 1) (by decide) (by decide)).parses
  rcases hk with rfl | rfl | rfl
  · rw [availableTo_request _ _ (by decide)] at hw ⊢; exact hw
  · rw [availableTo_request _ _ (by decide)] at hw ⊢; exact hw
  · exact hw

/-- The request to an authorization service is the intended message. -/
theorem C32_auth_request (P : Text → Ast) (a : LegacyAction) (data : RequestData)
    (h : ∀ d ∈ availableTo .auth data, Proper P d.2) :
    ∃ domains, Domains (availableTo .auth data) domains ∧
      Parses (requestOf (translate a data .auth)) (authAst P a.scope domains (availableTo .auth data)) := by
  rw [availableTo_request _ _ (by decide)] at h ⊢
  obtain ⟨domains, hd, hw⟩ := written_auth h a.scope
  exact ⟨domains, hd, (hw.lift (by decide) (by decide)).parses⟩

/-! An expression and its tree for the examples. -/
namespace LegacyDemo

def tree : Text → Ast := fun t => (parse t).getD (.list [])

theorem sound {t : Text} (h : (parse t).isSome = true) (hc : ¬EndsInComment t) : Proper tree t := by
  refine ⟨?_, hc⟩
  unfold tree
  cases hp : parse t with
  | none => rw [hp] at h; exact nomatch h
  | some a => exact parse_parses hp

def blocks : List ConditionalData := [
  { predicates := ["a ? b : c".toList], data := [.expression "k\"".toList "request.path".toList] },
  { data := [.static "x".toList "\"}".toList, .static "ratelimit.hits_addend".toList "3".toList] }]

def data : RequestData := [(("d".toList, "f".toList), "auth.identity".toList), (([], "g".toList), "size(x)".toList)]

theorem soundConfig : ProperConfig tree blocks data := by
  constructor
  · intro cd hcd p hp
    simp only [blocks, List.mem_cons, List.not_mem_nil, or_false] at hcd
    rcases hcd with rfl | rfl
    · simp only [List.mem_singleton] at hp
      subst hp
      exact sound (by decide +kernel) (by decide +kernel)
    · exact nomatch hp
  · intro cd hcd k v hv
    simp only [blocks, List.mem_cons, List.not_mem_nil, or_false] at hcd
    rcases hcd with rfl | rfl
    · simp only [List.mem_singleton, DataItem.expression.injEq] at hv
      obtain ⟨-, rfl⟩ := hv
      exact sound (by decide +kernel) (by decide +kernel)
    · simp at hv
  · intro cd hcd v hv
    simp only [blocks, List.mem_cons, List.not_mem_nil, or_false] at hcd
    rcases hcd with rfl | rfl
    · simp at hv
    · simp only [List.mem_cons, List.not_mem_nil, or_false, DataItem.static.injEq] at hv
      rcases hv with ⟨h, -⟩ | ⟨-, rfl⟩
      · exact absurd h (by decide +kernel)
      · exact sound (by decide +kernel) (by decide +kernel)
  · intro d hd
    simp only [data, List.mem_cons, List.not_mem_nil, or_false] at hd
    rcases hd with rfl | rfl <;> exact sound (by decide +kernel) (by decide +kernel)

end LegacyDemo

namespace LegacyDemo
def action : LegacyAction := { service := "s".toList, scope := "s\"\\".toList, conditionalData := blocks }
end LegacyDemo

example : Parses (requestOf (translate LegacyDemo.action LegacyDemo.data .rateLimitReport))
    (ratelimitAst LegacyDemo.tree "s\"\\".toList LegacyDemo.blocks LegacyDemo.data) :=
  C32_ratelimit_request _ LegacyDemo.action LegacyDemo.data _ (.inr (.inr rfl)) LegacyDemo.soundConfig

example : ∃ domains, Domains (availableTo .auth LegacyDemo.data) domains ∧
    Parses (requestOf (translate LegacyDemo.action LegacyDemo.data .auth))
      (authAst LegacyDemo.tree "s\"\\".toList domains (availableTo .auth LegacyDemo.data)) :=
  C32_auth_request _ LegacyDemo.action LegacyDemo.data fun d hd =>
    LegacyDemo.soundConfig.data d (List.mem_filter.1 hd).1

/-- Finding: a static number of hits is not quoted: this text, which is not an expression, is given as data
and comes out as two calls. -/
theorem C32_hits_not_escaped :
    let v := "1) + uint(5".toList
    (∀ a, ¬Parses v a) ∧
    findKnownAttr [{ data := [.static "ratelimit.hits_addend".toList v] }] "ratelimit.hits_addend".toList =
      some "uint(1) + uint(5)".toList ∧
    Parses "uint(1) + uint(5)".toList
      (.binary .add (toUintAst (.num "1".toList)) (toUintAst (.num "5".toList))) := by
  refine ⟨fun a => not_parses (toks := [.num ['1'], .sym .rpar, .sym .plus, .ident ['u', 'i', 'n', 't'], .sym .lpar, .num ['5']])
    (K := 4) (by decide +kernel) (by decide +kernel), by decide +kernel, ?_⟩
  exact ⟨[.ident ['u', 'i', 'n', 't'], .sym .lpar, .num ['1'], .sym .rpar, .sym .plus,
    .ident ['u', 'i', 'n', 't'], .sym .lpar, .num ['5'], .sym .rpar], 4, by decide +kernel, by with_unfolding_all rfl⟩

/-! ### C33: joined predicates mean conjunction -/

/-- The predicate generated from a list of predicates is the conjunction of the given predicates, whatever
operators they contain. -/
theorem C33_conjunction (P : Text → Ast) (predicates : List Text) (h : ∀ p ∈ predicates, Proper P p) :
    Parses (actionPredicate predicates) (allOf (predicates.map P)) :=
  (written_all h).parses

/-- It holds if and only if all predicates hold. -/
theorem C33_all (P : Text → Ast) (predicates : List Text) (h : ∀ p ∈ predicates, Proper P p)
    (a : Ast) (ha : Parses (actionPredicate predicates) a) (T : Ast → Prop) (hT : Truth T) :
    T a ↔ ∀ p ∈ predicates, T (P p) := by
  rw [parses_unique ha (C33_conjunction P predicates h), allOf_truth hT]
  simp

/-- In particular for an authorization action. -/
theorem C33_auth (P : Text → Ast) (l : LegacyAction) (data : RequestData) (h : ∀ p ∈ l.predicates, Proper P p)
    (a : Ast) (ha : Parses (translate l data .auth).head.predicate a) (T : Ast → Prop) (hT : Truth T) :
    T a ↔ ∀ p ∈ l.predicates, T (P p) := C33_all P l.predicates h a ha T hT

/-- Every text that is read as an expression is read in one way only. -/
theorem C33_unambiguous (t : Text) (a b : Ast) (ha : Parses t a) (hb : Parses t b) : a = b := parses_unique ha hb

/-! Truth of expressions built from names by the logical operators. -/
namespace LegacyDemo

def holds (v : Text → Bool) : Ast → Prop
  | .ident n => n = "true".toList ∨ v n = true
  | .binary .and a b => holds v a ∧ holds v b
  | .binary .or a b => holds v a ∨ holds v b
  | .cond c a b => (holds v c ∧ holds v a) ∨ (¬holds v c ∧ holds v b)
  | _ => False

theorem truth (v : Text → Bool) : Truth (holds v) := ⟨.inl rfl, fun _ _ => Iff.rfl, fun _ _ => Iff.rfl⟩

theorem ternary : Proper tree "a ? b : c".toList := sound (by decide +kernel) (by decide +kernel)
theorem disjunction : Proper tree "b || c".toList := sound (by decide +kernel) (by decide +kernel)

end LegacyDemo

/-- Predicates whose operators bind less tightly than `&&`. -/
example : ∀ a, Parses (actionPredicate ["a ? b : c".toList, "b || c".toList]) a → ∀ T, Truth T →
    (T a ↔ ∀ p ∈ ["a ? b : c".toList, "b || c".toList], T (LegacyDemo.tree p)) := fun a ha T hT =>
  C33_all LegacyDemo.tree ["a ? b : c".toList, "b || c".toList] (by
    intro p hp
    simp only [List.mem_cons, List.not_mem_nil, or_false] at hp
    rcases hp with rfl | rfl
    · exact LegacyDemo.ternary
    · exact LegacyDemo.disjunction) a ha T hT

/-- Finding: the condition on comments is needed. Two predicates, the first of which ends in a comment: the
joined predicate holds although the first one does not. -/
theorem C33_comment :
    Parses "a // x".toList (.ident ['a']) ∧ Parses "b\n || c".toList (.binary .or (.ident ['b']) (.ident ['c'])) ∧
    ∃ j T, Parses (actionPredicate ["a // x".toList, "b\n || c".toList]) j ∧ Truth T ∧ T j ∧ ¬T (.ident ['a']) := by
  refine ⟨⟨[.ident ['a']], 4, by decide +kernel, by with_unfolding_all rfl⟩,
    ⟨[.ident ['b'], .sym .or, .ident ['c']], 4, by decide +kernel, by with_unfolding_all rfl⟩,
    .binary .or (.ident ['a']) (.ident ['c']), LegacyDemo.holds (fun n => n = ['c']),
    ⟨[.sym .lpar, .ident ['a'], .sym .or, .ident ['c'], .sym .rpar], 6, by decide +kernel, by with_unfolding_all rfl⟩,
    LegacyDemo.truth _, ?_, ?_⟩
  · exact .inr (.inr (by decide))
  · rintro (h | h)
    · exact absurd h (by decide +kernel)
    · exact absurd h (by decide)

/-! ### C54: when a rate limit action calls its service -/

/-- The predicate generated for a rate limit action holds if and only if all predicates of the action hold and,
if it has conditional data, all predicates of one of the blocks hold. If there are several blocks, a predicate that
is the only one of its block must be able to be an operand of `||`, that is, not a bare conditional. -/
theorem C54_ratelimit_predicate (P : Text → Ast) (l : LegacyAction) (data : RequestData) (kind : SvcKind)
    (hk : kind = .rateLimit ∨ kind = .rateLimitCheck ∨ kind = .rateLimitReport)
    (hp : ∀ p ∈ l.predicates, Proper P p) (hb : ∀ cd ∈ l.conditionalData, ∀ p ∈ cd.predicates, Proper P p)
    (h1 : 2 ≤ l.conditionalData.length → ∀ cd ∈ l.conditionalData, ∀ p, cd.predicates = [p] → ProperOperand P p) :
    ∃ a, Parses (translate l data kind).head.predicate a ∧ ∀ T, Truth T →
      (T a ↔ (∀ p ∈ l.predicates, T (P p)) ∧
        (l.conditionalData = [] ∨ ∃ cd ∈ l.conditionalData, ∀ p ∈ cd.predicates, T (P p))) := by
  obtain ⟨a, hw, hT⟩ := written_ratelimitPredicate hp hb h1
  refine ⟨a, ?_, fun T h => hT ⟨T, h⟩⟩
  rcases hk with rfl | rfl | rfl <;> exact hw.parses

namespace LegacyDemo
def twoBlocks : List ConditionalData := [{ predicates := ["b || c".toList] }, { predicates := ["a ? b : c".toList, "b || c".toList] }]

theorem operand : ProperOperand tree "b || c".toList := by
  have h : Parses "b || c".toList (.binary .or (.ident ['b']) (.ident ['c'])) :=
    ⟨[.ident ['b'], .sym .or, .ident ['c']], 4, by decide +kernel, by with_unfolding_all rfl⟩
  have : tree "b || c".toList = .binary .or (.ident ['b']) (.ident ['c']) := parses_unique disjunction.1 h
  refine ⟨?_, by decide +kernel⟩
  rw [this]
  exact ⟨[.ident ['b'], .sym .or, .ident ['c']], 4, by decide +kernel, by with_unfolding_all rfl⟩
end LegacyDemo

example : ∃ a, Parses (translate
      { service := [], scope := [], predicates := ["a ? b : c".toList], conditionalData := LegacyDemo.twoBlocks }
      [] .rateLimit).head.predicate a ∧ ∀ T, Truth T →
    (T a ↔ (∀ p ∈ ["a ? b : c".toList], T (LegacyDemo.tree p)) ∧
      (LegacyDemo.twoBlocks = [] ∨ ∃ cd ∈ LegacyDemo.twoBlocks, ∀ p ∈ cd.predicates, T (LegacyDemo.tree p))) := by
  refine C54_ratelimit_predicate LegacyDemo.tree
    { service := [], scope := [], predicates := ["a ? b : c".toList], conditionalData := LegacyDemo.twoBlocks }
    [] .rateLimit (.inl rfl) ?_ ?_ ?_
  · intro p hp
    simp only [List.mem_singleton] at hp
    subst hp
    exact LegacyDemo.ternary
  · intro cd hcd p hp
    simp only [LegacyDemo.twoBlocks, List.mem_cons, List.not_mem_nil, or_false] at hcd
    rcases hcd with rfl | rfl
    · simp only [List.mem_singleton] at hp
      subst hp
      exact LegacyDemo.disjunction
    · simp only [List.mem_cons, List.not_mem_nil, or_false] at hp
      rcases hp with rfl | rfl
      · exact LegacyDemo.ternary
      · exact LegacyDemo.disjunction
  · intro _ cd hcd p hp
    simp only [LegacyDemo.twoBlocks, List.mem_cons, List.not_mem_nil, or_false] at hcd
    rcases hcd with rfl | rfl
    · simp only [List.cons.injEq, and_true] at hp
      subst hp
      exact LegacyDemo.operand
    · simp at hp

/-- Finding: a predicate that is alone in its block is not put in parentheses. With `x` and `a ? b : c` as the
predicates of two blocks the generated predicate is `(x || a) ? b : c`, which is false although the block with
predicate `x` asks for the call. -/
theorem C54_ternary :
    ∃ j T, Parses (ratelimitPredicate [] [{ predicates := ["x".toList] }, { predicates := ["a ? b : c".toList] }]) j ∧
      Truth T ∧ Parses "x".toList (.ident ['x']) ∧ T (.ident ['x']) ∧ ¬T j := by
  refine ⟨.cond (.binary .or (.ident ['x']) (.ident ['a'])) (.ident ['b']) (.ident ['c']),
    LegacyDemo.holds (fun n => n = ['x']),
    ⟨[.ident ['x'], .sym .or, .ident ['a'], .sym .quest, .ident ['b'], .sym .colon, .ident ['c']], 6,
      by decide +kernel, by with_unfolding_all rfl⟩,
    LegacyDemo.truth _, ⟨[.ident ['x']], 4, by decide +kernel, by with_unfolding_all rfl⟩, .inr (by decide), ?_⟩
  rintro (⟨-, h⟩ | ⟨h, -⟩)
  · rcases h with h | h
    · exact absurd h (by decide +kernel)
    · exact absurd h (by decide)
  · exact h (.inl (.inr (by decide)))

end Verif.Props
