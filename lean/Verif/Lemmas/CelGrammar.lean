import Verif.Lemmas.Cel
/-!
Expressions put together from expressions: how the tokens of the parts determine the syntax tree of the whole.
-/
set_option linter.unusedSimpArgs false
set_option linter.unusedVariables false
namespace Verif.Cel
open Parser

/-- The grammar by precedence: 1 is `Expr`, 2 to 6 are the binary operators, 7 the unary ones, 8 members. -/
def tier (K : Nat) : Nat → Parser Ast
  | 0 => fail
  | 1 => expr K
  | 2 => disjunction (expr K) K
  | 3 => conjunction (expr K) K
  | 4 => level relOps K <| level addOps K <| level mulOps K <| unary (expr K) K K
  | 5 => level addOps K <| level mulOps K <| unary (expr K) K K
  | 6 => level mulOps K <| unary (expr K) K K
  | 7 => unary (expr K) K K
  | 8 => bind (primary (expr K) K) (members (expr K) K)
  | _ => fail

theorem le_tier {K K' : Nat} (h : K ≤ K') : ∀ n, Le (tier K n) (tier K' n)
  | 0 => le_fail _
  | 1 => le_expr h
  | 2 => le_disjunction (le_expr h) h
  | 3 => le_conjunction (le_expr h) h
  | 4 => le_level (le_level (le_level (le_unary (le_expr h) h h) h) h) h
  | 5 => le_level (le_level (le_unary (le_expr h) h h) h) h
  | 6 => le_level (le_unary (le_expr h) h h) h
  | 7 => le_unary (le_expr h) h h
  | 8 => le_bind (le_primary (le_expr h) h) fun a => le_members (le_expr h) h a
  | n + 9 => le_fail _

/-- Tokens that end an expression of a tier. -/
def Stop (n : Nat) (t : Token) : Prop := Below (min n 7) t

instance (n : Nat) (t : Token) : Decidable (Stop n t) := inferInstanceAs (Decidable (Below _ _))

theorem stop_mono {m n : Nat} (h : m ≤ n) {t : Token} (ht : Stop m t) : Stop n t := below_mono (by omega) t ht

theorem local_tier (K n : Nat) : Local (Stop n) (tier K n) := by
  have h7 := local_unary (local_expr K) (fails_expr K) K K
  have h6 : Local (Below 6) (tier K 6) := local_level h7 (below_mono (by decide)) (fun t => ops_below.1) K
  have h5 : Local (Below 5) (tier K 5) := local_level h6 (below_mono (by decide)) (fun t => ops_below.2.1) K
  match n with
  | 0 => exact local_fail
  | 1 => exact local_expr K
  | 2 => exact local_disjunction (local_expr K) (fails_expr K) K
  | 3 => exact local_conjunction (local_expr K) (fails_expr K) K
  | 4 => exact local_level h5 (below_mono (by decide)) (fun t => ops_below.2.2.1) K
  | 5 => exact h5
  | 6 => exact h6
  | 7 => exact h7
  | 8 =>
    exact local_bind (C := Below 7) (local_primary (local_expr K) (fails_expr K) K)
      (fun a => local_members (local_expr K) (fails_expr K) K a) (.inl fun _ h => h)
  | n + 9 => exact local_fail

/-- What may follow an expression of a tier. -/
def Follow (n : Nat) : List Token → Prop
  | [] => True
  | t :: _ => Stop n t

theorem follow_mono {m n : Nat} (h : m ≤ n) {rest : List Token} (hr : Follow m rest) : Follow n rest := by
  cases rest with
  | nil => trivial
  | cons t rest => exact stop_mono h hr

/-- The tokens are an expression of the tier with this syntax tree. -/
def Reads (n : Nat) (toks : List Token) (a : Ast) : Prop := ∃ K, tier K n toks = some (a, [])

/-- An expression is read in the same way whatever follows it, and with any larger bound. -/
theorem Reads.on {n : Nat} {toks : List Token} {a : Ast} (h : Reads n toks a) :
    ∃ K0, ∀ K, K0 ≤ K → ∀ rest, Follow n rest → tier K n (toks ++ rest) = some (a, rest) := by
  obtain ⟨K0, h⟩ := h
  refine ⟨K0, fun K hK rest hr => ?_⟩
  have h' := le_tier hK n _ _ h
  cases rest with
  | nil => rw [List.append_nil]; exact h'
  | cons t rest => exact (local_tier K n).keeps _ _ _ h' t rest (.inr hr)

theorem level_stop {ops : Token → Option Binary} {k : Nat} {sub : Parser Ast} {toks rest : List Token} {a : Ast}
    (h : sub toks = some (a, rest)) (hr : ∀ t r, rest = t :: r → ops t = none) :
    level ops (k + 1) sub toks = some (a, rest) := by
  refine bind_some.2 ⟨a, rest, h, ?_⟩
  cases rest with
  | nil => rfl
  | cons t r => exact next_none (hr t r rfl) r

theorem not_not {s : Token} (h : s = .sym .not ∨ s = .sym .minus) : ∀ {e : Parser Ast} {k : Nat} {r : List Token},
    primary e k (s :: r) = none := by
  rcases h with rfl | rfl <;> intros <;> rfl

theorem Reads.lift1 {n : Nat} {toks : List Token} {a : Ast} (h1 : 1 ≤ n) (h : Reads (n + 1) toks a) :
    Reads n toks a := by
  obtain ⟨K0, h⟩ := h
  have h' := le_tier (Nat.le_succ K0) _ _ _ h
  have hstop : ∀ ops : Token → Option Binary, ∀ t r, ([] : List Token) = t :: r → ops t = none :=
    fun _ _ _ h => nomatch h
  match n with
  | 1 => exact ⟨K0 + 1, bind_some.2 ⟨a, [], h, rfl⟩⟩
  | 2 => exact ⟨K0 + 1, level_stop h' (hstop _)⟩
  | 3 => exact ⟨K0 + 1, level_stop h' (hstop _)⟩
  | 4 => exact ⟨K0 + 1, level_stop h' (hstop _)⟩
  | 5 => exact ⟨K0 + 1, level_stop h' (hstop _)⟩
  | 6 => exact ⟨K0 + 1, level_stop h' (hstop _)⟩
  | 7 =>
    refine ⟨K0 + 1, ?_⟩
    obtain ⟨b, r, hp, hm⟩ := bind_some.1 h'
    show unary (expr (K0 + 1)) (K0 + 1) (K0 + 1) toks = _
    unfold unary
    cases toks with
    | nil => exact h'
    | cons t ts =>
      unfold ifSym
      rw [next_none, next_none]
      · exact h'
      · unfold isSym; rw [if_neg]
        rintro rfl; rw [not_not (.inr rfl)] at hp; exact nomatch hp
      · unfold isSym; rw [if_neg]
        rintro rfl; rw [not_not (.inl rfl)] at hp; exact nomatch hp
  | n + 8 => exact nomatch h

theorem Reads.lift {m n : Nat} {toks : List Token} {a : Ast} (h : Reads n toks a) (h1 : 1 ≤ m) (hm : m ≤ n) :
    Reads m toks a := by
  induction n with
  | zero => omega
  | succ n ih =>
    by_cases he : m = n + 1
    · subst he; exact h
    · exact ih (h.lift1 (by omega)) (by omega)

theorem reads_parses {t : Text} {toks : List Token} {a : Ast} (hl : lex t = some toks) (h : Reads 1 toks a) :
    Parses t a := by
  obtain ⟨K, h⟩ := h; exact ⟨toks, K, hl, h⟩

theorem parses_reads {t : Text} {a : Ast} (h : Parses t a) : ∃ toks, lex t = some toks ∧ Reads 1 toks a := by
  obtain ⟨toks, K, hl, h⟩ := h; exact ⟨toks, hl, K, h⟩

/-- Tokens remain after the longest expression at the beginning. -/
theorem not_parses {t : Text} {toks : List Token} {a : Ast} {K : Nat} (hl : lex t = some toks)
    (h : ((expr K toks).map fun r => r.2.isEmpty) = some false) : ¬Parses t a := by
  rintro ⟨toks', k, hl', hk⟩
  rw [hl] at hl'; cases hl'
  cases he : expr K toks with
  | none => rw [he] at h; exact nomatch h
  | some r =>
    have h1 := le_expr (Nat.le_max_left K k) _ _ he
    have h2 := le_expr (Nat.le_max_right K k) _ _ hk
    rw [h1] at h2
    cases h2
    rw [he] at h
    exact nomatch h

/-! ### Forms -/

theorem ifSym_yes {α : Type} {s : Sym} {yes no : Parser α} {rest : List Token} :
    ifSym s yes no (.sym s :: rest) = yes rest := next_some (if_pos rfl) rest

theorem ifSym_no {α : Type} {s : Sym} {yes no : Parser α} {t : Token} {rest : List Token} (h : t ≠ .sym s) :
    ifSym s yes no (t :: rest) = no (t :: rest) := next_none (if_neg h) rest

/-- Nothing follows a primary expression. -/
theorem members_stop {e : Parser Ast} {k : Nat} {a : Ast} {rest : List Token} (h : Follow 7 rest) :
    members e (k + 1) a rest = some (a, rest) := by
  cases rest with
  | nil => rfl
  | cons t r =>
    unfold members
    have h' : Below 7 t := h
    rw [ifSym_no, ifSym_no, ifSym_no]
    · rfl
    all_goals rintro rfl; exact absurd h' (by decide)

theorem reads_paren {toks : List Token} {a : Ast} (h : Reads 1 toks a) :
    Reads 8 (.sym .lpar :: toks ++ [.sym .rpar]) a := by
  obtain ⟨K0, h⟩ := h.on
  refine ⟨K0 + 1, bind_some.2 ⟨a, [], ?_, members_stop trivial⟩⟩
  have := h (K0 + 1) (by omega) [.sym .rpar] (show Stop 1 _ by decide)
  show primary _ _ (.sym .lpar :: (toks ++ [.sym .rpar])) = _
  unfold primary
  rw [next_none rfl, next_none rfl, ifSym_yes]
  exact bind_some.2 ⟨a, _, this, ifSym_yes⟩

theorem binaries_on {C : Token → Prop} {ops : Token → Option Binary} {sub : Parser Ast} (hs : Local C sub)
    {t : Token} {more : List Token} {a b : Ast} {k' : Nat} (ht : C t) :
    ∀ {k : Nat} {l : Ast} {toks : List Token}, binaries ops sub k l toks = some (a, []) →
      binaries ops sub k' a (t :: more) = some (b, []) →
      ∃ k2, k ≤ k2 ∧ binaries ops sub k2 l (toks ++ t :: more) = some (b, [])
  | 0, _, _, h, _ => nomatch h
  | k + 1, l, toks, h, h' => by
    cases toks with
    | nil =>
      cases h
      refine ⟨max (k + 1) k', Nat.le_max_left _ _, le_binaries (Le.refl _) (Nat.le_max_right _ _) _ _ _ h'⟩
    | cons u toks =>
      cases hu : ops u with
      | none =>
        have := h
        unfold binaries at this
        rw [next_none hu] at this
        exact nomatch this
      | some o =>
        unfold binaries at h
        rw [next_some hu] at h
        obtain ⟨r, rest, h1, h2⟩ := bind_some.1 h
        obtain ⟨k2, hk, h3⟩ := binaries_on hs ht h2 h'
        refine ⟨k2 + 1, by omega, ?_⟩
        unfold binaries
        rw [List.cons_append, next_some hu]
        exact bind_some.2 ⟨r, _, hs.keeps _ _ _ h1 t more (.inr ht), h3⟩

theorem level_on {C : Token → Prop} {ops : Token → Option Binary} {sub : Parser Ast} (hs : Local C sub)
    {t : Token} {o : Binary} {left right : List Token} {a b : Ast} {k : Nat} (ht : C t) (ho : ops t = some o)
    (hl : level ops k sub left = some (a, [])) (hr : sub right = some (b, [])) :
    ∃ k', k ≤ k' ∧ level ops k' sub (left ++ t :: right) = some (.binary o a b, []) := by
  obtain ⟨l, rest, h1, h2⟩ := bind_some.1 hl
  have h3 : binaries ops sub 2 a (t :: right) = some (.binary o a b, []) := by
    unfold binaries
    rw [next_some ho]
    exact bind_some.2 ⟨b, [], hr, rfl⟩
  obtain ⟨k2, hk, h4⟩ := binaries_on hs ht h2 h3
  exact ⟨k2, hk, bind_some.2 ⟨l, _, hs.keeps _ _ _ h1 t right (.inr ht), h4⟩⟩

/-- The tier of the operands' operator. -/
def tierOps : Nat → Token → Option Binary
  | 2 => orOps | 3 => andOps | 4 => relOps | 5 => addOps | 6 => mulOps | _ => fun _ => none

theorem tier_level {n : Nat} (h2 : 2 ≤ n) (h6 : n ≤ 6) (K : Nat) : tier K n = level (tierOps n) K (tier K (n + 1)) :=
  match n with
  | 2 => rfl | 3 => rfl | 4 => rfl | 5 => rfl | 6 => rfl
  | 0 => absurd h2 (by decide) | 1 => absurd h2 (by decide) | n + 7 => absurd h6 (by omega)

theorem tierOps_stop {n : Nat} {t : Token} {o : Binary} (h : tierOps n t = some o) : Stop (n + 1) t := by
  match n with
  | 0 => exact nomatch h
  | 1 => exact nomatch h
  | n + 7 => exact nomatch h
  | 2 =>
    cases t with
    | sym s => cases s <;> first | decide | exact nomatch h
    | _ => exact nomatch h
  | 3 =>
    cases t with
    | sym s => cases s <;> first | decide | exact nomatch h
    | _ => exact nomatch h
  | 4 =>
    cases t with
    | sym s => cases s <;> first | decide | exact nomatch h
    | _ => exact nomatch h
  | 5 =>
    cases t with
    | sym s => cases s <;> first | decide | exact nomatch h
    | _ => exact nomatch h
  | 6 =>
    cases t with
    | sym s => cases s <;> first | decide | exact nomatch h
    | _ => exact nomatch h

/-- An operand put behind an expression. -/
theorem Reads.binary {n : Nat} (h2 : 2 ≤ n) (h6 : n ≤ 6) {left right : List Token} {a b : Ast} {t : Token}
    {o : Binary} (hl : Reads n left a) (ho : tierOps n t = some o) (hr : Reads (n + 1) right b) :
    Reads n (left ++ t :: right) (.binary o a b) := by
  obtain ⟨K1, h1⟩ := hl
  obtain ⟨K2, h2'⟩ := hr
  have ha := le_tier (Nat.le_max_left K1 K2) _ _ _ h1
  have hb := le_tier (Nat.le_max_right K1 K2) _ _ _ h2'
  rw [tier_level h2 h6] at ha
  obtain ⟨k', hk, h⟩ := level_on (local_tier _ (n + 1)) (tierOps_stop ho) ho ha hb
  refine ⟨k', ?_⟩
  rw [tier_level h2 h6]
  exact le_level (le_tier hk _) (Nat.le_refl _) _ _ h

/-- A disjunction put behind a disjunction: the operands are read one after the other. -/
theorem binaries_or {T : Type} (holds : T → Ast → Prop) (hor : ∀ t a b, holds t (.binary .or a b) ↔ holds t a ∨ holds t b)
    {sub : Parser Ast} : ∀ {k : Nat} {l l' x b : Ast} {toks : List Token},
    binaries orOps sub k l toks = some (b, []) → (∀ t, holds t l' ↔ holds t x ∨ holds t l) →
    ∃ b', binaries orOps sub k l' toks = some (b', []) ∧ ∀ t, holds t b' ↔ holds t x ∨ holds t b
  | 0, _, _, _, _, _, h, _ => nomatch h
  | k + 1, l, l', x, b, toks, h, hl => by
    cases toks with
    | nil => cases h; exact ⟨l', rfl, hl⟩
    | cons u toks =>
      cases hu : orOps u with
      | none => unfold binaries at h; rw [next_none hu] at h; exact nomatch h
      | some o =>
        have ho : o = .or := by
          unfold orOps at hu; split at hu
          · cases hu; rfl
          · exact nomatch hu
        subst ho
        unfold binaries at h
        rw [next_some hu] at h
        obtain ⟨r, rest, h1, h2⟩ := bind_some.1 h
        obtain ⟨b', h3, h4⟩ := binaries_or holds hor (l' := .binary .or l' r) (x := x) h2 (fun t => by
          rw [hor, hor, hl]; exact or_assoc)
        refine ⟨b', ?_, h4⟩
        unfold binaries
        rw [next_some hu]
        exact bind_some.2 ⟨r, rest, h1, h3⟩

theorem Reads.or {T : Type} (holds : T → Ast → Prop) (hor : ∀ t a b, holds t (.binary .or a b) ↔ holds t a ∨ holds t b)
    {left right : List Token} {a b : Ast} (hl : Reads 2 left a) (hr : Reads 2 right b) :
    ∃ c, Reads 2 (left ++ .sym .or :: right) c ∧ ∀ t, holds t c ↔ holds t a ∨ holds t b := by
  obtain ⟨K1, h1⟩ := hl
  obtain ⟨K2, h2⟩ := hr
  have ha := le_tier (Nat.le_max_left K1 K2) _ _ _ h1
  have hb := le_tier (Nat.le_max_right K1 K2) _ _ _ h2
  obtain ⟨l, rest, h3, h4⟩ := bind_some.1 ha
  obtain ⟨r, rest', h5, h6⟩ := bind_some.1 hb
  obtain ⟨c, h7, h8⟩ := binaries_or holds hor (l' := .binary .or a r) (x := a) h6 (fun t => hor t a r)
  have h9 : binaries orOps (tier (max K1 K2) 3) (max K1 K2 + 1) a (.sym .or :: right) = some (c, []) := by
    unfold binaries
    rw [next_some (b := Binary.or) rfl]
    exact bind_some.2 ⟨r, rest', h5, h7⟩
  obtain ⟨k2, hk, h10⟩ := binaries_on (local_tier _ 3) (show Stop 3 (.sym .or) by decide) h4 h9
  refine ⟨c, ⟨k2, ?_⟩, h8⟩
  have : level orOps k2 (tier (max K1 K2) 3) (left ++ .sym .or :: right) = some (c, []) :=
    bind_some.2 ⟨l, _, (local_tier _ 3).keeps _ _ _ h3 _ _ (.inr (by decide)), h10⟩
  exact le_level (le_tier hk 3) (Nat.le_refl _) _ _ this

/-! ### Lists of elements -/

/-- The parser does not accept anything that begins with this token. -/
def FailsOn (t : Token) {α : Type} (p : Parser α) : Prop := ∀ r, p (t :: r) = none

theorem failsOn_bind {t : Token} {α β : Type} {p : Parser α} {f : α → Parser β} (h : FailsOn t p) :
    FailsOn t (Parser.bind p f) := by
  intro r; unfold Parser.bind; rw [h r]

/-- Tokens that close a list of elements. -/
def Closes (s : Sym) : Prop := s = .rpar ∨ s = .rbrack ∨ s = .rbrace

theorem failsOn_primary {s : Sym} (h : Closes s) (e : Parser Ast) (k : Nat) : FailsOn (.sym s) (primary e k) := by
  rcases h with rfl | rfl | rfl <;> intro r <;> rfl

theorem failsOn_unary {s : Sym} (h : Closes s) (e : Parser Ast) (k n : Nat) : FailsOn (.sym s) (unary e k n) := by
  cases n with
  | zero => intro r; rfl
  | succ n =>
    intro r
    unfold unary
    rw [ifSym_no, ifSym_no]
    · exact failsOn_bind (failsOn_primary h e k) r
    all_goals rcases h with rfl | rfl | rfl <;> exact fun h => nomatch h

theorem failsOn_expr {s : Sym} (h : Closes s) (k : Nat) : FailsOn (.sym s) (expr k) := by
  cases k with
  | zero => intro r; rfl
  | succ k =>
    exact failsOn_bind (failsOn_bind (failsOn_bind (failsOn_bind (failsOn_bind (failsOn_bind
      (failsOn_unary h _ _ _))))))

/-- One element, followed by a comma or the closing symbol. -/
structure Item {α : Type} (e : Nat → Parser α) (close : Sym) (toks : List Token) (a : α) : Prop where
  reads : ∃ K0, ∀ K, K0 ≤ K → ∀ s rest, s = .comma ∨ s = close → e K (toks ++ .sym s :: rest) = some (a, .sym s :: rest)
  begins : ∃ t ts, toks = t :: ts ∧ t ≠ .sym close

/-- Elements up to the closing symbol. -/
def Items {α : Type} (e : Nat → Parser α) (close : Sym) (toks : List Token) (as : List α) : Prop :=
  ∃ K0, ∀ K, K0 ≤ K → ∀ k, K0 ≤ k → ∀ rest, elements (e K) close k (toks ++ .sym close :: rest) = some (as, rest)

theorem items_nil {α : Type} (e : Nat → Parser α) (close : Sym) : Items e close [] [] :=
  ⟨1, fun K _ k hk rest => by
    obtain ⟨k, rfl⟩ : ∃ k', k = k' + 1 := ⟨k - 1, by omega⟩
    unfold elements
    exact ifSym_yes⟩

theorem items_one {α : Type} {e : Nat → Parser α} {close : Sym} {toks : List Token} {a : α}
    (h : Item e close toks a) : Items e close toks [a] := by
  obtain ⟨⟨K0, h⟩, t, ts, rfl, ht⟩ := h
  refine ⟨K0 + 1, fun K hK k hk rest => ?_⟩
  obtain ⟨k, rfl⟩ : ∃ k', k = k' + 1 := ⟨k - 1, by omega⟩
  unfold elements
  rw [List.cons_append, ifSym_no ht]
  exact bind_some.2 ⟨a, _, h K (by omega) close rest (.inr rfl), ifSym_yes⟩

theorem items_cons {α : Type} {e : Nat → Parser α} {close : Sym} (hc : close ≠ .comma) {toks more : List Token}
    {a : α} {as : List α} (h : Item e close toks a) (h' : Items e close more as) :
    Items e close (toks ++ .sym .comma :: more) (a :: as) := by
  obtain ⟨⟨K0, h⟩, t, ts, rfl, ht⟩ := h
  obtain ⟨K1, h'⟩ := h'
  refine ⟨K0 + K1 + 1, fun K hK k hk rest => ?_⟩
  obtain ⟨k, rfl⟩ : ∃ k', k = k' + 1 := ⟨k - 1, by omega⟩
  unfold elements
  rw [List.append_assoc, List.cons_append, ifSym_no ht]
  refine bind_some.2 ⟨a, _, h K (by omega) .comma _ (.inl rfl), ?_⟩
  refine (ifSym_no (by intro h; exact hc (by cases h; rfl))).trans ?_
  unfold expect
  rw [ifSym_yes]
  exact bind_some.2 ⟨as, _, h' K (by omega) k (by omega) rest, rfl⟩

/-- Tokens separated by commas. -/
def commas : List (List Token) → List Token
  | [] => []
  | [t] => t
  | t :: ts => t ++ .sym .comma :: commas ts

theorem items_commas {α : Type} {e : Nat → Parser α} {close : Sym} (hc : close ≠ .comma) {pieces : List (List Token)}
    {as : List α} (h : Each (Item e close) pieces as) : Items e close (commas pieces) as := by
  induction h with
  | nil => exact items_nil e close
  | cons h hs ih =>
    cases hs with
    | nil => exact items_one h
    | cons h' hs' => exact items_cons hc h ih

theorem item_expr {close : Sym} (hc : Closes close) {toks : List Token} {a : Ast} (h : Reads 1 toks a) :
    Item expr close toks a := by
  obtain ⟨K0, h'⟩ := h.on
  refine ⟨⟨K0, fun K hK s rest hs => h' K hK _ ?_⟩, ?_⟩
  · show Stop 1 _
    rcases hs with rfl | rfl
    · decide
    · rcases hc with rfl | rfl | rfl <;> decide
  · obtain ⟨K, hk⟩ := h
    cases toks with
    | nil => rw [show tier K 1 [] = none from fails_expr K] at hk; exact nomatch hk
    | cons t ts =>
      refine ⟨t, ts, rfl, ?_⟩
      rintro rfl
      rw [show tier K 1 _ = none from failsOn_expr hc K ts] at hk
      exact nomatch hk

/-- `name: value` in a message. -/
theorem item_field {name : Text} {toks : List Token} {a : Ast} (h : Reads 1 toks a) :
    Item (fun K => entry fieldName (expr K)) .rbrace (.ident name :: .sym .colon :: toks) (name, a) := by
  obtain ⟨K0, h'⟩ := h.on
  refine ⟨⟨K0, fun K hK s rest hs => ?_⟩, _, _, rfl, fun h => nomatch h⟩
  have hf : Follow 1 (.sym s :: rest) := by
    show Stop 1 _
    rcases hs with rfl | rfl <;> decide
  refine bind_some.2 ⟨name, .sym .colon :: toks ++ .sym s :: rest, rfl, ?_⟩
  unfold expect
  rw [List.cons_append, ifSym_yes]
  exact bind_some.2 ⟨a, _, h' K hK _ hf, rfl⟩

/-- `key: value` in a map. -/
theorem item_entry {key toks : List Token} {a b : Ast} (hk : Reads 1 key a) (h : Reads 1 toks b) :
    Item (fun K => entry (expr K) (expr K)) .rbrace (key ++ .sym .colon :: toks) (a, b) := by
  obtain ⟨K0, h0⟩ := h.on
  obtain ⟨K1, h1⟩ := hk.on
  obtain ⟨t, ts, rfl, ht⟩ := (item_expr (close := .rbrace) (.inr (.inr rfl)) hk).begins
  refine ⟨⟨K0 + K1, fun K hK s rest hs => ?_⟩, _, _, rfl, ht⟩
  have hf : Follow 1 (.sym s :: rest) := by
    show Stop 1 _
    rcases hs with rfl | rfl <;> decide
  have := h1 K (by omega) (.sym .colon :: toks ++ .sym s :: rest) (show Stop 1 _ by decide)
  rw [List.append_assoc]
  refine bind_some.2 ⟨a, _, this, ?_⟩
  unfold expect
  rw [List.cons_append, ifSym_yes]
  exact bind_some.2 ⟨b, _, h0 K (by omega) _ hf, rfl⟩

/-! ### Primary expressions -/

theorem reads_primary {toks : List Token} {a : Ast}
    (h : ∃ K0, ∀ K, K0 ≤ K → primary (expr K) K toks = some (a, [])) : Reads 8 toks a := by
  obtain ⟨K0, h⟩ := h
  exact ⟨K0 + 1, bind_some.2 ⟨a, [], h _ (by omega), members_stop trivial⟩⟩

theorem reads_str (b : Bool) (v : Text) : Reads 8 [.str b v] (.str b v) := reads_primary ⟨0, fun _ _ => rfl⟩
theorem reads_num (t : Text) : Reads 8 [.num t] (.num t) := reads_primary ⟨0, fun _ _ => rfl⟩
theorem reads_ident (n : Text) : Reads 8 [.ident n] (.ident n) := reads_primary ⟨0, fun _ _ => rfl⟩

theorem reads_call {name : Text} {toks : List Token} {as : List Ast} (h : Items expr .rpar toks as) :
    Reads 8 (.ident name :: .sym .lpar :: toks ++ [.sym .rpar]) (.call name as) := by
  obtain ⟨K0, h⟩ := h
  refine reads_primary ⟨K0, fun K hK => ?_⟩
  unfold primary
  rw [List.cons_append, next_none rfl, next_some (b := name) rfl, List.cons_append, ifSym_yes]
  exact bind_some.2 ⟨as, _, h K hK K hK [], rfl⟩

theorem reads_list {toks : List Token} {as : List Ast} (h : Items expr .rbrack toks as) :
    Reads 8 (.sym .lbrack :: toks ++ [.sym .rbrack]) (.list as) := by
  obtain ⟨K0, h⟩ := h
  refine reads_primary ⟨K0, fun K hK => ?_⟩
  unfold primary
  rw [List.cons_append, next_none rfl, next_none rfl, ifSym_no (by decide), ifSym_yes]
  exact bind_some.2 ⟨as, _, h K hK K hK [], rfl⟩

theorem reads_map {toks : List Token} {as : List (Ast × Ast)}
    (h : Items (fun K => entry (expr K) (expr K)) .rbrace toks as) :
    Reads 8 (.sym .lbrace :: toks ++ [.sym .rbrace]) (.map as) := by
  obtain ⟨K0, h⟩ := h
  refine reads_primary ⟨K0, fun K hK => ?_⟩
  unfold primary
  rw [List.cons_append, next_none rfl, next_none rfl, ifSym_no (by decide), ifSym_no (by decide), ifSym_yes]
  exact bind_some.2 ⟨as, _, h K hK K hK [], rfl⟩

/-! ### Names -/

/-- `.b.c` -/
def dots (names : List Text) : List Token := names.flatMap fun n => [.sym .dot, .ident n]

theorem members_dot {e : Parser Ast} {k : Nat} {a : Ast} {n : Text} {rest : List Token}
    (hr : ∀ r, rest ≠ .sym .lpar :: r) :
    members e (k + 1) a (.sym .dot :: .ident n :: rest) = members e k (.select a n) rest := by
  conv => lhs; unfold members
  rw [ifSym_yes, next_some (b := n) rfl]
  cases rest with
  | nil => rfl
  | cons t r => exact ifSym_no (by rintro rfl; exact hr r rfl)

theorem members_dots {e : Parser Ast} {rest : List Token} (hr : ∀ r, rest ≠ .sym .lpar :: r) :
    ∀ (names : List Text) (k : Nat) (a : Ast),
      members e (names.length + k) a (dots names ++ rest) = members e k (names.foldl .select a) rest
  | [], k, a => by simp [dots]
  | n :: names, k, a => by
    have hn : ∀ r, dots names ++ rest ≠ .sym .lpar :: r := by
      cases names with
      | nil => exact hr
      | cons m ms => intro r h; exact nomatch h
    rw [show (n :: names).length + k = (names.length + k) + 1 by simp; omega]
    show members e (names.length + k + 1) a (.sym .dot :: .ident n :: (dots names ++ rest)) = _
    rw [List.foldl_cons, ← members_dots hr names k]
    exact members_dot hn

theorem primary_ident {e : Parser Ast} {k : Nat} {n : Text} {rest : List Token} (hr : ∀ r, rest ≠ .sym .lpar :: r) :
    primary e k (.ident n :: rest) = some (.ident n, rest) := by
  unfold primary
  rw [next_none rfl, next_some (b := n) rfl]
  cases rest with
  | nil => rfl
  | cons t r => rw [ifSym_no (by rintro rfl; exact hr r rfl)]; rfl

theorem dots_not_lpar {names : List Text} {rest : List Token} (hr : ∀ r, rest ≠ .sym .lpar :: r) :
    ∀ r, dots names ++ rest ≠ .sym .lpar :: r := by
  cases names with
  | nil => exact hr
  | cons m ms => intro r h; exact nomatch h

theorem reads_path (first : Text) (names : List Text) :
    Reads 8 (.ident first :: dots names) (path first names) := by
  refine ⟨names.length + 1, ?_⟩
  have hr : ∀ r, ([] : List Token) ≠ .sym .lpar :: r := fun r h => nomatch h
  rw [← List.append_nil (dots names)]
  refine bind_some.2 ⟨_, _, primary_ident (dots_not_lpar hr), ?_⟩
  rw [members_dots hr]
  exact members_stop trivial

/-- `a.b.c{field: value, …}` -/
theorem reads_message {first : Text} {names : List Text} {toks : List Token} {fs : List (Text × Ast)}
    (h : Items (fun K => entry fieldName (expr K)) .rbrace toks fs) :
    Reads 8 (.ident first :: dots names ++ .sym .lbrace :: toks ++ [.sym .rbrace])
      (.message (path first names) fs) := by
  obtain ⟨K0, h⟩ := h
  have hr : ∀ r, (.sym .lbrace :: toks ++ [.sym .rbrace] : List Token) ≠ .sym .lpar :: r := fun r h => nomatch h
  refine ⟨names.length + (K0 + 2), ?_⟩
  rw [List.append_assoc, List.cons_append]
  refine bind_some.2 ⟨_, _, primary_ident (dots_not_lpar hr), ?_⟩
  rw [members_dots hr]
  unfold members
  rw [List.cons_append, ifSym_no (by decide), ifSym_no (by decide), ifSym_yes]
  exact bind_some.2 ⟨fs, _, h _ (by omega) _ (by omega) [], members_stop trivial⟩

/-! ### Conditional -/

theorem reads_cond {c a b : List Token} {x y z : Ast} (hc : Reads 2 c x) (ha : Reads 2 a y) (hb : Reads 1 b z) :
    Reads 1 (c ++ .sym .quest :: a ++ .sym .colon :: b) (.cond x y z) := by
  obtain ⟨K0, hc⟩ := hc.on
  obtain ⟨K1, ha⟩ := ha.on
  obtain ⟨K2, hb⟩ := hb.on
  refine ⟨K0 + K1 + K2 + 1, ?_⟩
  rw [List.append_assoc]
  refine bind_some.2 ⟨x, _, hc (K0 + K1 + K2) (by omega) _ (show Stop 2 _ by decide), ?_⟩
  rw [List.cons_append, ifSym_yes]
  refine bind_some.2 ⟨y, _, ha (K0 + K1 + K2) (by omega) _ (show Stop 2 _ by decide), ?_⟩
  unfold expect
  rw [ifSym_yes]
  have := hb (K0 + K1 + K2) (by omega) [] trivial
  rw [List.append_nil] at this
  exact bind_some.2 ⟨z, _, this, rfl⟩

/-! ### Texts -/

/-- A text that is complete in itself and leaves no comment open. -/
structure Frag (t : Text) (toks : List Token) : Prop where
  lexes : lex t = some toks
  closed : ¬EndsInComment t

/-- A text after which the next token starts afresh. -/
def Seg (t : Text) (toks : List Token) : Prop := ∀ out, scan t (out, .normal) = (out ++ toks, .normal)

theorem seg_of {t : Text} {toks : List Token} (h : scan t ([], .normal) = (toks, .normal)) : Seg t toks := by
  intro out
  have := scan_out t out [] .normal
  rw [List.append_nil, h] at this
  exact this

theorem Seg.append {t u : Text} {a b : List Token} (h : Seg t a) (h' : Seg u b) : Seg (t ++ u) (a ++ b) := by
  intro out; rw [scan_append, h, h', List.append_assoc]

theorem Seg.frag {t : Text} {toks : List Token} (h : Seg t toks) : Frag t toks := by
  have := h []
  refine ⟨by unfold lex; rw [this]; rfl, ?_⟩
  unfold EndsInComment; rw [this]; exact fun h => nomatch h

theorem Seg.then {t u : Text} {a b : List Token} (h : Seg t a) (h' : Frag u b) : Frag (t ++ u) (a ++ b) := by
  have e : scan (t ++ u) ([], .normal) = (a ++ (scan u ([], .normal)).1, (scan u ([], .normal)).2) := by
    rw [scan_append, h, List.nil_append]
    have := scan_out u a [] .normal
    rwa [List.append_nil] at this
  obtain ⟨h1, h2⟩ := h'
  refine ⟨?_, by unfold EndsInComment at *; rw [e]; exact h2⟩
  unfold lex at *
  rw [e]
  generalize scan u ([], .normal) = st at h1
  obtain ⟨out, m⟩ := st
  cases m <;> simp_all [finish]

theorem Frag.then {t u : Text} {c : Char} {a b : List Token} (h : Frag t a) (hc : Ends c) (h' : Seg (c :: u) b) :
    Seg (t ++ c :: u) (a ++ b) := by
  intro out
  have h1 := scan_out t out [] .normal
  rw [List.append_nil] at h1
  rw [scan_append, h1]
  show scan u (step _ c) = _
  rw [step_out]
  have h2 := step_finish h.lexes h.closed hc
  show scan u (out ++ (step (scan t ([], .normal)) c).1, (step (scan t ([], .normal)) c).2) = _
  rw [h2, ← start_out]
  have := h' (out ++ a)
  rw [← List.append_assoc]
  exact this

end Verif.Cel
