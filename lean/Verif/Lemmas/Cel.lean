import Verif.Spec.Cel
/-! Properties of the grammar: what follows an expression does not change how it is read. -/
set_option linter.unusedSimpArgs false
namespace Verif.Cel
open Parser

variable {α β : Type}

/-! ### Lexer -/

theorem start_out (pre out : List Token) (c : Char) :
    start (pre ++ out) c = (pre ++ (start out c).1, (start out c).2) := by
  unfold start
  split
  · rfl
  · split
    · simp
    · split
      · rfl
      · split
        · rfl
        · split
          · rfl
          · split <;> rfl

theorem inBody_out (pre out : List Token) (i : StrInfo) (c : Char) :
    inBody (pre ++ out) i c = (pre ++ (inBody out i c).1, (inBody out i c).2) := by
  unfold inBody
  split
  · split
    · rfl
    · simp
  · split
    · rfl
    · split <;> rfl

theorem step_out (pre out : List Token) (m : Mode) (c : Char) :
    step (pre ++ out, m) c = (pre ++ (step (out, m) c).1, (step (out, m) c).2) := by
  unfold step
  cases m with
  | normal => exact start_out pre out c
  | word acc =>
    simp only
    split
    · rfl
    · split
      · split
        · rfl
        · rw [List.append_assoc]; exact start_out ..
      · rw [List.append_assoc]; exact start_out ..
  | num acc =>
    simp only
    split
    · rfl
    · split
      · rfl
      · rw [List.append_assoc]; exact start_out ..
  | pend p =>
    simp only
    split
    · simp
    · split
      · rfl
      · split
        · rw [List.append_assoc]; exact start_out ..
        · rfl
  | open1 i =>
    simp only
    split
    · rfl
    · exact inBody_out ..
  | open2 i =>
    simp only
    split
    · rfl
    · rw [List.append_assoc]; exact start_out ..
  | body i => exact inBody_out ..
  | close i n =>
    simp only
    split
    · split
      · simp
      · rfl
    · exact inBody_out ..
  | esc i =>
    simp only
    split
    · rfl
    · split
      · rfl
      · split
        · rfl
        · split
          · rfl
          · split <;> rfl
  | code i base n v =>
    simp only
    split
    · rfl
    · split <;> rfl
  | comment =>
    simp only
    split <;> rfl
  | bad => rfl

theorem scan_out (t : Text) (pre out : List Token) (m : Mode) :
    scan t (pre ++ out, m) = (pre ++ (scan t (out, m)).1, (scan t (out, m)).2) := by
  induction t generalizing out m with
  | nil => rfl
  | cons c t ih =>
    show scan t (step (pre ++ out, m) c) = (pre ++ (scan t (step (out, m) c)).1, (scan t (step (out, m) c)).2)
    rw [step_out]
    exact ih ..

theorem scan_append (t u : Text) (st : LexState) : scan (t ++ u) st = scan u (scan t st) :=
  List.foldl_append ..

/-- Characters that end a token without becoming part of it. -/
def Ends (c : Char) : Prop :=
  isLetter c = false ∧ isDigit c = false ∧ c ≠ '"' ∧ c ≠ '\'' ∧ c ≠ '.' ∧ c ≠ '+' ∧ c ≠ '-' ∧
  c ≠ '&' ∧ c ≠ '|' ∧ c ≠ '=' ∧ c ≠ '/'

theorem pair_ends {p c : Char} (h : Ends c) : pair p c = none := by
  obtain ⟨-, -, -, -, -, -, -, h1, h2, h3, -⟩ := h
  unfold pair
  split <;> first | rfl | contradiction

/-- After a complete text that does not end in a comment the next token starts afresh. -/
theorem step_finish {st : LexState} {toks : List Token} (h : finish st = some toks) (hc : st.2 ≠ .comment)
    {c : Char} (he : Ends c) : step st c = start toks c := by
  obtain ⟨out, m⟩ := st
  have hp := fun p => pair_ends (p := p) he
  obtain ⟨h1, h2, h3, h4, h5, h6, h7, -, -, -, h8⟩ := he
  unfold finish at h
  unfold step
  cases m with
  | normal => cases h; rfl
  | comment => exact absurd rfl hc
  | word acc =>
    cases h
    simp [h1, h2, h3, h4]
  | num acc =>
    cases h
    simp [h1, h2, h5, h6, h7]
  | pend p =>
    simp only [Option.map_eq_some_iff] at h
    obtain ⟨s, hs, rfl⟩ := h
    simp [hp, hs, h8]
  | open2 i =>
    cases h
    have : c ≠ i.quote := by unfold StrInfo.quote; split <;> assumption
    simp [this]
  | _ => exact nomatch h

/-- Tokens of a text put in parentheses. -/
theorem scan_paren {t : Text} {toks : List Token} (h : lex t = some toks) (hc : ¬EndsInComment t)
    (out : List Token) :
    scan ('(' :: t ++ [')']) (out, .normal) = (out ++ .sym .lpar :: toks ++ [.sym .rpar], .normal) := by
  show scan (t ++ [')']) (step (out, .normal) '(') = _
  have : step (out, .normal) '(' = (out ++ [.sym .lpar] ++ [], .normal) := by
    rw [List.append_nil]; rfl
  rw [this, scan_append, scan_out]
  have h1 := step_finish (st := scan t ([], .normal)) h hc (c := ')') (by unfold Ends; decide)
  show step _ ')' = _
  rw [step_out]
  have : (scan t ([], Mode.normal)) = ((scan t ([], Mode.normal)).1, (scan t ([], Mode.normal)).2) := rfl
  rw [← this, h1]
  simp [start, isBlank, single]

/-! ### Reading on -/

/-- How tightly a token binds to what precedes it; tokens of level 0 cannot continue an expression. -/
def binding : Token → Nat
  | .sym .lpar => 7 | .sym .dot => 7 | .sym .lbrack => 7 | .sym .lbrace => 7
  | .sym .star => 6 | .sym .slash => 6 | .sym .percent => 6
  | .sym .plus => 5 | .sym .minus => 5
  | .sym .eq => 4 | .sym .ne => 4 | .sym .lt => 4 | .sym .le => 4 | .sym .gt => 4 | .sym .ge => 4
  | .sym .isIn => 4
  | .sym .and => 3 | .sym .or => 2 | .sym .quest => 1
  | _ => 0

def Below (n : Nat) (t : Token) : Prop := binding t < n

instance (n : Nat) (t : Token) : Decidable (Below n t) := inferInstanceAs (Decidable (_ < _))

/-- The parser reads the same when more tokens follow, provided that it stopped before the end, or that the
token that follows satisfies `C`. -/
structure Local (C : Token → Prop) (p : Parser α) : Prop where
  short : ∀ toks a rest, p toks = some (a, rest) → rest.length ≤ toks.length
  keeps : ∀ toks a rest, p toks = some (a, rest) → ∀ t more, (rest ≠ [] ∨ C t) →
    p (toks ++ t :: more) = some (a, rest ++ t :: more)

def FailsAtEnd (p : Parser α) : Prop := p [] = none

theorem Local.mono {C C' : Token → Prop} {p : Parser α} (h : Local C p) (hC : ∀ t, C' t → C t) : Local C' p :=
  ⟨h.short, fun toks a rest hp t more ht => h.keeps toks a rest hp t more (ht.imp id (hC t))⟩

theorem local_ret {C : Token → Prop} (a : α) : Local C (ret a) := by
  refine ⟨fun toks b rest h => ?_, fun toks b rest h t more _ => ?_⟩
  · cases h; exact Nat.le_refl _
  · cases h; rfl

theorem local_fail {C : Token → Prop} : Local C (fail : Parser α) :=
  ⟨fun _ _ _ h => (nomatch h), fun _ _ _ h => nomatch h⟩

theorem bind_some {p : Parser α} {f : α → Parser β} {toks : List Token} {b : β} {rest : List Token} :
    Parser.bind p f toks = some (b, rest) ↔ ∃ a r, p toks = some (a, r) ∧ f a r = some (b, rest) := by
  unfold Parser.bind
  split
  · rename_i a r hp
    constructor
    · intro h; exact ⟨a, r, hp, h⟩
    · rintro ⟨a', r', hp', h⟩; rw [hp] at hp'; cases hp'; exact h
  · rename_i hp
    constructor
    · intro h; exact nomatch h
    · rintro ⟨a', r', hp', h⟩; rw [hp] at hp'; exact nomatch hp'

/-- One after the other. -/
theorem local_bind {C C1 : Token → Prop} {p : Parser α} {f : α → Parser β} (hp : Local C1 p)
    (hf : ∀ a, Local C (f a)) (h : (∀ t, C t → C1 t) ∨ ∀ a, FailsAtEnd (f a)) : Local C (Parser.bind p f) := by
  refine ⟨fun toks b rest hb => ?_, fun toks b rest hb t more ht => ?_⟩
  · obtain ⟨a, r, h1, h2⟩ := bind_some.1 hb
    exact Nat.le_trans ((hf a).short _ _ _ h2) (hp.short _ _ _ h1)
  · obtain ⟨a, r, h1, h2⟩ := bind_some.1 hb
    refine bind_some.2 ⟨a, r ++ t :: more, hp.keeps _ _ _ h1 t more ?_, (hf a).keeps _ _ _ h2 t more ht⟩
    cases r with
    | cons x r => exact .inl (by simp)
    | nil =>
      rcases h with h | h
      · rcases ht with ht | ht
        · have := (hf a).short _ _ _ h2
          exact absurd (List.length_eq_zero_iff.1 (Nat.le_zero.1 this)) ht
        · exact .inr (h t ht)
      · rw [h a] at h2; exact nomatch h2

theorem next_some {f : Token → Option β} {yes : β → Parser α} {no : Parser α} {t : Token} {b : β}
    (h : f t = some b) (rest : List Token) : next f yes no (t :: rest) = yes b rest := by
  unfold next; simp only [h]

theorem next_none {f : Token → Option β} {yes : β → Parser α} {no : Parser α} {t : Token}
    (h : f t = none) (rest : List Token) : next f yes no (t :: rest) = no (t :: rest) := by
  unfold next; simp only [h]

theorem local_next {C : Token → Prop} {f : Token → Option β} {yes : β → Parser α} {no : Parser α}
    (hy : ∀ b, Local C (yes b)) (hn : Local C no) (h : (∀ t, C t → f t = none) ∨ FailsAtEnd no) :
    Local C (next f yes no) := by
  refine ⟨fun toks b rest hb => ?_, fun toks b rest hb t more ht => ?_⟩
  · cases toks with
    | nil => exact hn.short _ _ _ hb
    | cons x toks =>
      cases hx : f x with
      | some y => rw [next_some hx] at hb; exact Nat.le_succ_of_le ((hy _).short _ _ _ hb)
      | none => rw [next_none hx] at hb; exact hn.short _ _ _ hb
  · cases toks with
    | nil =>
      have hb : no [] = some (b, rest) := hb
      rcases h with h | h
      · have hr : rest = [] := List.length_eq_zero_iff.1 (Nat.le_zero.1 (hn.short _ _ _ hb))
        have hC : C t := ht.resolve_left fun h' => h' hr
        show next f yes no (t :: more) = _
        rw [next_none (h t hC)]
        exact hn.keeps _ _ _ hb t more ht
      · rw [h] at hb; exact nomatch hb
    | cons x toks =>
      show next f yes no (x :: (toks ++ t :: more)) = _
      cases hx : f x with
      | some y => rw [next_some hx] at hb ⊢; exact (hy _).keeps _ _ _ hb t more ht
      | none => rw [next_none hx] at hb ⊢; exact hn.keeps _ _ _ hb t more ht

theorem local_ifSym {C : Token → Prop} {s : Sym} {yes no : Parser α}
    (hy : Local C yes) (hn : Local C no) (h : ¬C (.sym s) ∨ FailsAtEnd no) : Local C (ifSym s yes no) :=
  local_next (fun _ => hy) hn (h.imp_left fun h t ht => by
    unfold isSym
    rw [if_neg]
    rintro rfl
    exact h ht)

theorem local_expect {C : Token → Prop} {s : Sym} {p : Parser α} (hp : Local C p) : Local C (expect s p) :=
  local_ifSym hp local_fail (.inr rfl)

theorem fails_bind {p : Parser α} {f : α → Parser β} (h : FailsAtEnd p) : FailsAtEnd (Parser.bind p f) := by
  unfold FailsAtEnd Parser.bind at *
  rw [h]

theorem fails_ifSym {s : Sym} {yes no : Parser α} (h : FailsAtEnd no) : FailsAtEnd (ifSym s yes no) := h
theorem fails_next {f : Token → Option β} {yes : β → Parser α} {no : Parser α} (h : FailsAtEnd no) :
    FailsAtEnd (next f yes no) := h
theorem fails_expect {s : Sym} {p : Parser α} : FailsAtEnd (expect s p) := rfl

theorem local_elements {C C1 : Token → Prop} {e : Parser α} (he : Local C1 e) (hf : FailsAtEnd e) (close : Sym) :
    ∀ k, Local C (elements e close k)
  | 0 => local_fail
  | k + 1 => by
    refine local_ifSym (local_ret _) ?_ (.inr (fails_bind hf))
    refine local_bind he (fun a => ?_) (.inr fun a => fails_ifSym fails_expect)
    refine local_ifSym (local_ret _) (local_expect ?_) (.inr fails_expect)
    exact local_bind (local_elements he hf close k) (fun _ => local_ret _) (.inl fun _ h => h)

theorem local_entry {C C1 : Token → Prop} {key : Parser α} {e : Parser Ast} (hk : Local C1 key)
    (he : Local C e) : Local C (entry key e) :=
  local_bind hk (fun _ => local_expect (local_bind he (fun _ => local_ret _) (.inl fun _ h => h)))
    (.inr fun _ => fails_expect)

theorem fails_entry {key : Parser α} {e : Parser Ast} (hk : FailsAtEnd key) : FailsAtEnd (entry key e) :=
  fails_bind hk

theorem local_fieldName {C : Token → Prop} : Local C fieldName :=
  local_next (fun _ => local_ret _) local_fail (.inr rfl)

section
variable {C1 : Token → Prop} {e : Parser Ast} (he : Local C1 e) (hf : FailsAtEnd e)
include he hf

theorem local_members : ∀ k a, Local (Below 7) (members e k a)
  | 0, a => local_fail
  | k + 1, a => by
    have ih := local_members k
    refine local_ifSym (local_next (fun f => ?_) local_fail (.inr rfl)) ?_ (.inl (by decide))
    · exact local_ifSym (local_bind (local_elements he hf .rpar k) (fun _ => ih _) (.inl fun _ h => h)) (ih _)
        (.inl (by decide))
    · refine local_ifSym (local_bind he (fun _ => local_expect (ih _)) (.inr fun _ => fails_expect)) ?_
        (.inl (by decide))
      refine local_ifSym (local_bind (local_elements (local_entry (local_fieldName (C := C1)) he) (fails_entry rfl) .rbrace k)
        (fun _ => ih _) (.inl fun _ h => h)) (local_ret _) (.inl (by decide))

theorem fails_primary (k : Nat) : FailsAtEnd (primary e k) := rfl

theorem local_primary (k : Nat) : Local (Below 7) (primary e k) := by
  unfold primary
  refine local_next (fun _ => local_ret _) ?_ (.inr rfl)
  refine local_next (fun n => ?_) ?_ (.inr rfl)
  · exact local_ifSym (local_bind (local_elements he hf .rpar k) (fun _ => local_ret _) (.inl fun _ h => h))
      (local_ret _) (.inl (by decide))
  refine local_ifSym (local_bind he (fun _ => local_expect (local_ret _)) (.inr fun _ => fails_expect)) ?_ (.inr rfl)
  refine local_ifSym (local_bind (local_elements he hf .rbrack k) (fun _ => local_ret _) (.inl fun _ h => h)) ?_
    (.inr rfl)
  refine local_ifSym (local_bind (local_elements (local_entry he he) (fails_entry hf) .rbrace k)
    (fun _ => local_ret _) (.inl fun _ h => h)) ?_ (.inr rfl)
  exact local_ifSym (local_next (fun _ => local_ret _) local_fail (.inr rfl)) local_fail (.inr rfl)

theorem local_unary (k : Nat) : ∀ n, Local (Below 7) (unary e k n)
  | 0 => local_fail
  | n + 1 => by
    refine local_ifSym (local_bind (local_unary k n) (fun _ => local_ret _) (.inl fun _ h => h)) ?_
      (.inr rfl)
    refine local_ifSym (local_bind (local_unary k n) (fun _ => local_ret _) (.inl fun _ h => h)) ?_
      (.inr rfl)
    exact local_bind (local_primary he hf k) (fun a => local_members he hf k a) (.inl fun _ h => h)

end

theorem local_binaries {C C1 : Token → Prop} {ops : Token → Option Binary} {sub : Parser Ast} (hs : Local C1 sub)
    (hC : ∀ t, C t → C1 t) (hops : ∀ t, C t → ops t = none) : ∀ k l, Local C (binaries ops sub k l)
  | 0, _ => local_fail
  | k + 1, l => local_next (fun _ => local_bind hs (fun _ => local_binaries hs hC hops k _) (.inl hC))
      (local_ret _) (.inl hops)

theorem local_level {C C1 : Token → Prop} {ops : Token → Option Binary} {sub : Parser Ast} (hs : Local C1 sub)
    (hC : ∀ t, C t → C1 t) (hops : ∀ t, C t → ops t = none) (k : Nat) : Local C (level ops k sub) :=
  local_bind hs (fun _ => local_binaries hs hC hops k _) (.inl hC)

theorem below_mono {m n : Nat} (h : m ≤ n) (t : Token) (ht : Below m t) : Below n t := Nat.lt_of_lt_of_le ht h

theorem ops_below {t : Token} : (Below 6 t → mulOps t = none) ∧ (Below 5 t → addOps t = none) ∧
    (Below 4 t → relOps t = none) ∧ (Below 3 t → andOps t = none) ∧ (Below 2 t → orOps t = none) := by
  unfold Below
  cases t with
  | sym s => cases s <;> decide
  | _ => exact ⟨fun _ => rfl, fun _ => rfl, fun _ => rfl, fun _ => rfl, fun _ => rfl⟩

/-- `ConditionalAnd`. -/
def conjunction (e : Parser Ast) (k : Nat) : Parser Ast :=
  level andOps k <| level relOps k <| level addOps k <| level mulOps k <| unary e k k

theorem fails_conjunction (e : Parser Ast) (k : Nat) : FailsAtEnd (conjunction e k) := by
  refine fails_bind (fails_bind (fails_bind (fails_bind ?_)))
  cases k <;> rfl

theorem local_conjunction {C1 : Token → Prop} {e : Parser Ast} (he : Local C1 e) (hf : FailsAtEnd e) (k : Nat) :
    Local (Below 3) (conjunction e k) := by
  refine local_level (C1 := Below 4) ?_ (below_mono (by decide)) (fun t => ops_below.2.2.2.1) k
  refine local_level (C1 := Below 5) ?_ (below_mono (by decide)) (fun t => ops_below.2.2.1) k
  refine local_level (C1 := Below 6) ?_ (below_mono (by decide)) (fun t => ops_below.2.1) k
  exact local_level (local_unary he hf k k) (below_mono (by decide)) (fun t => ops_below.1) k

theorem local_disjunction {C1 : Token → Prop} {e : Parser Ast} (he : Local C1 e) (hf : FailsAtEnd e) (k : Nat) :
    Local (Below 2) (disjunction e k) :=
  local_level (local_conjunction he hf k) (below_mono (by decide)) (fun t => ops_below.2.2.2.2) k

theorem fails_disjunction (e : Parser Ast) (k : Nat) : FailsAtEnd (disjunction e k) :=
  fails_bind (fails_conjunction e k)

theorem fails_expr (k : Nat) : FailsAtEnd (expr k) := by
  cases k with
  | zero => rfl
  | succ k => exact fails_bind (fails_disjunction _ k)

theorem local_expr : ∀ k, Local (Below 1) (expr k)
  | 0 => local_fail
  | k + 1 => by
    have ih := local_expr k
    have hd := local_disjunction ih (fails_expr k) k
    refine local_bind hd (fun c => ?_) (.inl (below_mono (by decide)))
    refine local_ifSym (local_bind hd (fun a => local_expect (local_bind ih (fun _ => local_ret _)
      (.inl fun _ h => h))) (.inr fun _ => fails_expect)) (local_ret _) (.inl (by decide))

/-! ### More fuel -/

/-- Whatever `p` reads, `q` reads the same way. -/
def Le (p q : Parser α) : Prop := ∀ toks r, p toks = some r → q toks = some r

theorem Le.refl (p : Parser α) : Le p p := fun _ _ h => h
theorem Le.trans {p q r : Parser α} (h : Le p q) (h' : Le q r) : Le p r := fun t x hx => h' t x (h t x hx)
theorem le_fail (p : Parser α) : Le fail p := fun _ _ h => nomatch h

theorem le_bind {p p' : Parser α} {f f' : α → Parser β} (hp : Le p p') (hf : ∀ a, Le (f a) (f' a)) :
    Le (Parser.bind p f) (Parser.bind p' f') := by
  rintro toks ⟨b, rest⟩ h
  obtain ⟨a, r, h1, h2⟩ := bind_some.1 h
  exact bind_some.2 ⟨a, r, hp _ _ h1, hf a _ _ h2⟩

theorem le_next {f : Token → Option β} {yes yes' : β → Parser α} {no no' : Parser α}
    (hy : ∀ b, Le (yes b) (yes' b)) (hn : Le no no') : Le (next f yes no) (next f yes' no') := by
  intro toks r h
  cases toks with
  | nil => exact hn _ _ h
  | cons t toks =>
    cases hx : f t with
    | some y => rw [next_some hx] at h ⊢; exact hy _ _ _ h
    | none => rw [next_none hx] at h ⊢; exact hn _ _ h

theorem le_ifSym {s : Sym} {yes yes' no no' : Parser α} (hy : Le yes yes') (hn : Le no no') :
    Le (ifSym s yes no) (ifSym s yes' no') := le_next (fun _ => hy) hn
theorem le_expect {s : Sym} {p p' : Parser α} (h : Le p p') : Le (expect s p) (expect s p') :=
  le_ifSym h (Le.refl _)

theorem le_elements {e e' : Parser α} (he : Le e e') (close : Sym) :
    ∀ {k k'}, k ≤ k' → Le (elements e close k) (elements e' close k')
  | 0, _, _ => le_fail _
  | k + 1, 0, h => absurd h (by omega)
  | k + 1, k' + 1, h => le_ifSym (Le.refl _) (le_bind he fun _ => le_ifSym (Le.refl _)
      (le_expect (le_bind (le_elements he close (by omega)) fun _ => Le.refl _)))

theorem le_entry {key key' : Parser α} {e e' : Parser Ast} (hk : Le key key') (he : Le e e') :
    Le (entry key e) (entry key' e') :=
  le_bind hk fun _ => le_expect (le_bind he fun _ => Le.refl _)

theorem le_members {e e' : Parser Ast} (he : Le e e') :
    ∀ {k k'}, k ≤ k' → ∀ a, Le (members e k a) (members e' k' a)
  | 0, _, _, _ => le_fail _
  | k + 1, 0, h, _ => absurd h (by omega)
  | k + 1, k' + 1, h, a => by
    have hk : k ≤ k' := by omega
    have ih := fun x => le_members he hk x
    exact le_ifSym (le_next (fun _ => le_ifSym (le_bind (le_elements he _ hk) fun _ => ih _) (ih _)) (Le.refl _))
      (le_ifSym (le_bind he fun _ => le_expect (ih _))
        (le_ifSym (le_bind (le_elements (le_entry (Le.refl _) he) _ hk) fun _ => ih _) (Le.refl _)))

theorem le_primary {e e' : Parser Ast} (he : Le e e') {k k' : Nat} (h : k ≤ k') :
    Le (primary e k) (primary e' k') :=
  le_next (fun _ => Le.refl _) <|
  le_next (fun _ => le_ifSym (le_bind (le_elements he _ h) fun _ => Le.refl _) (Le.refl _)) <|
  le_ifSym (le_bind he fun _ => Le.refl _) <|
  le_ifSym (le_bind (le_elements he _ h) fun _ => Le.refl _) <|
  le_ifSym (le_bind (le_elements (le_entry he he) _ h) fun _ => Le.refl _) (Le.refl _)

theorem le_unary {e e' : Parser Ast} (he : Le e e') {k k' : Nat} (h : k ≤ k') :
    ∀ {n n'}, n ≤ n' → Le (unary e k n) (unary e' k' n')
  | 0, _, _ => le_fail _
  | n + 1, 0, h => absurd h (by omega)
  | n + 1, n' + 1, hn => by
    have ih := le_unary he h (show n ≤ n' by omega)
    exact le_ifSym (le_bind ih fun _ => Le.refl _) (le_ifSym (le_bind ih fun _ => Le.refl _)
      (le_bind (le_primary he h) fun _ => le_members he h _))

theorem le_binaries {ops : Token → Option Binary} {sub sub' : Parser Ast} (hs : Le sub sub') :
    ∀ {k k'}, k ≤ k' → ∀ l, Le (binaries ops sub k l) (binaries ops sub' k' l)
  | 0, _, _, _ => le_fail _
  | k + 1, 0, h, _ => absurd h (by omega)
  | k + 1, k' + 1, h, l => le_next (fun _ => le_bind hs fun _ => le_binaries hs (by omega) _) (Le.refl _)

theorem le_level {ops : Token → Option Binary} {sub sub' : Parser Ast} (hs : Le sub sub') {k k' : Nat}
    (h : k ≤ k') : Le (level ops k sub) (level ops k' sub') :=
  le_bind hs fun _ => le_binaries hs h _

theorem le_conjunction {e e' : Parser Ast} (he : Le e e') {k k' : Nat} (h : k ≤ k') :
    Le (conjunction e k) (conjunction e' k') :=
  le_level (le_level (le_level (le_level (le_unary he h h) h) h) h) h

theorem le_disjunction {e e' : Parser Ast} (he : Le e e') {k k' : Nat} (h : k ≤ k') :
    Le (disjunction e k) (disjunction e' k') :=
  le_level (le_conjunction he h) h

theorem le_expr : ∀ {k k'}, k ≤ k' → Le (expr k) (expr k')
  | 0, _, _ => le_fail _
  | k + 1, 0, h => absurd h (by omega)
  | k + 1, k' + 1, h => by
    have hk : k ≤ k' := by omega
    have ih := le_expr hk
    exact le_bind (le_disjunction ih hk) fun _ => le_ifSym (le_bind (le_disjunction ih hk) fun _ =>
      le_expect (le_bind ih fun _ => Le.refl _)) (Le.refl _)

/-- A text has at most one syntax tree. -/
theorem parses_unique {t : Text} {a b : Ast} (ha : Parses t a) (hb : Parses t b) : a = b := by
  obtain ⟨x, k, h1, h2⟩ := ha
  obtain ⟨y, k', h3, h4⟩ := hb
  rw [h1] at h3; cases h3
  have h5 := le_expr (Nat.le_max_left k k') _ _ h2
  have h6 := le_expr (Nat.le_max_right k k') _ _ h4
  rw [h5] at h6; cases h6; rfl

end Verif.Cel
