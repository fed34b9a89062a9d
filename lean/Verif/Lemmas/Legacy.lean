import Verif.Lemmas.CelGrammar
import Verif.Spec.Legacy
/-! How the texts generated by the legacy translation are read. -/
set_option linter.unusedSimpArgs false
set_option linter.unusedVariables false
namespace Verif.Legacy
open Cel Parser

/-! ### Escaping -/

def escapeChar (c : Char) : Text :=
  if c = '\\' then ['\\', '\\'] else if c = '"' then ['\\', '"'] else if c = '\n' then ['\\', 'n']
  else if c = '\r' then ['\\', 'r'] else if c = '\t' then ['\\', 't'] else [c]

theorem replaceChar_append (c : Char) (b t u : Text) :
    replaceChar c b (t ++ u) = replaceChar c b t ++ replaceChar c b u := by simp [replaceChar]

theorem escape_eq (t : Text) : escape t = t.flatMap escapeChar := by
  induction t with
  | nil => rfl
  | cons c t ih =>
    have : escape (c :: t) = escape [c] ++ escape t := by
      show escape ([c] ++ t) = _
      simp only [escape, replaceChar_append]
    rw [this, ih, List.flatMap_cons]
    congr 1
    unfold escapeChar
    by_cases h1 : c = '\\'
    · subst h1; decide
    by_cases h2 : c = '"'
    · subst h2; decide
    by_cases h3 : c = '\n'
    · subst h3; decide
    by_cases h4 : c = '\r'
    · subst h4; decide
    by_cases h5 : c = '\t'
    · subst h5; decide
    simp [escape, replaceChar, h1, h2, h3, h4, h5]

/-- The literal being read between double quotes. -/
def quotedInfo (acc : Text) : StrInfo := { double := true, raw := false, bytes := false, long := false, acc }

theorem scan_escapeChar (out : List Token) (acc : Text) (c : Char) :
    scan (escapeChar c) (out, .body (quotedInfo acc)) = (out, .body (quotedInfo (acc ++ [c]))) := by
  unfold escapeChar
  split
  · rename_i h; subst h; rfl
  split
  · rename_i h; subst h; rfl
  split
  · rename_i h; subst h; rfl
  split
  · rename_i h; subst h; rfl
  split
  · rename_i h; subst h; rfl
  rename_i h1 h2 h3 h4 h5
  simp [scan, step, inBody, quotedInfo, StrInfo.quote, h1, h2, h3, h4]

theorem scan_escape (out : List Token) (s acc : Text) :
    scan (s.flatMap escapeChar) (out, .body (quotedInfo acc)) = (out, .body (quotedInfo (acc ++ s))) := by
  induction s generalizing acc with
  | nil => simp [scan]
  | cons c s ih => rw [List.flatMap_cons, scan_append, scan_escapeChar, ih]; simp

theorem escapeChar_head (c : Char) : ∃ d u, escapeChar c = d :: u ∧ d ≠ '"' := by
  unfold escapeChar
  split
  · exact ⟨_, _, rfl, by decide⟩
  split
  · exact ⟨_, _, rfl, by decide⟩
  split
  · exact ⟨_, _, rfl, by decide⟩
  split
  · exact ⟨_, _, rfl, by decide⟩
  split
  · exact ⟨_, _, rfl, by decide⟩
  · rename_i h _ _ _; exact ⟨_, _, rfl, h⟩

/-- After the opening quote. -/
theorem scan_open (out : List Token) {d : Char} {u : Text} (h : d ≠ '"') :
    scan (d :: u) (out, .open1 (quotedInfo [])) = scan (d :: u) (out, .body (quotedInfo [])) := by
  show scan u (step _ d) = scan u (step _ d)
  congr 1
  simp [step, quotedInfo, StrInfo.quote, h]

theorem scan_quoted {s : Text} (hs : s ≠ []) (out : List Token) :
    scan (quoted s) (out, .normal) = (out ++ [.str false s], .normal) := by
  unfold quoted
  rw [escape_eq]
  show scan (s.flatMap escapeChar ++ ['"']) (out, .open1 (quotedInfo [])) = _
  rw [scan_append]
  obtain ⟨c, s', rfl⟩ := List.exists_cons_of_ne_nil hs
  obtain ⟨d, u, hd, hne⟩ := escapeChar_head c
  have : scan ((c :: s').flatMap escapeChar) (out, .open1 (quotedInfo [])) =
      scan ((c :: s').flatMap escapeChar) (out, .body (quotedInfo [])) := by
    rw [List.flatMap_cons, hd, List.cons_append, scan_open _ hne]
  rw [this, scan_escape]
  rfl

theorem scan_quoted_nil (out : List Token) : scan (quoted []) (out, .normal) = (out, .open2 (quotedInfo [])) := rfl

theorem frag_quoted (s : Text) : Frag (quoted s) [.str false s] := by
  by_cases hs : s = []
  · subst hs; exact ⟨rfl, by decide⟩
  · exact (show Seg (quoted s) [.str false s] from fun out => scan_quoted hs out).frag

/-! ### Written expressions -/

/-- The text is an expression of the tier and leaves no comment open. -/
def Written (n : Nat) (t : Text) (a : Ast) : Prop := ∃ toks, Frag t toks ∧ Reads n toks a

theorem Written.lift {m n : Nat} {t : Text} {a : Ast} (h : Written n t a) (h1 : 1 ≤ m) (hm : m ≤ n) :
    Written m t a := by
  obtain ⟨toks, hf, hr⟩ := h; exact ⟨toks, hf, hr.lift h1 hm⟩

theorem Written.parses {t : Text} {a : Ast} (h : Written 1 t a) : Parses t a := by
  obtain ⟨toks, hf, hr⟩ := h; exact reads_parses hf.lexes hr

theorem Written.closed {n : Nat} {t : Text} {a : Ast} (h : Written n t a) : ¬EndsInComment t := by
  obtain ⟨toks, hf, hr⟩ := h; exact hf.closed

theorem sound_written {P : Text → Ast} {t : Text} (h : Proper P t) : Written 1 t (P t) := by
  obtain ⟨toks, hl, hr⟩ := parses_reads h.1; exact ⟨toks, ⟨hl, h.2⟩, hr⟩

theorem operand_written {P : Text → Ast} {t : Text} (h : ProperOperand P t) : Written 2 t (P t) := by
  obtain ⟨⟨toks, K, hl, hr⟩, hc⟩ := h; exact ⟨toks, ⟨hl, hc⟩, K, hr⟩

theorem written_quoted (s : Text) : Written 8 (quoted s) (string s) := ⟨_, frag_quoted s, reads_str false s⟩

theorem ends_rpar : Ends ')' := by unfold Ends; decide
theorem ends_blank : Ends ' ' := by unfold Ends; decide
theorem ends_comma : Ends ',' := by unfold Ends; decide
theorem ends_rbrack : Ends ']' := by unfold Ends; decide
theorem ends_rbrace : Ends '}' := by unfold Ends; decide
theorem ends_colon : Ends ':' := by unfold Ends; decide
theorem ends_newline : Ends '\n' := by unfold Ends; decide

theorem written_parens {t : Text} {a : Ast} (h : Written 1 t a) : Written 8 (parens t) a := by
  obtain ⟨toks, hf, hr⟩ := h
  refine ⟨_, Seg.frag ?_, reads_paren hr⟩
  exact Seg.append (t := ['(']) (a := [.sym .lpar]) (seg_of rfl) (hf.then ends_rpar (seg_of (toks := [.sym .rpar]) rfl))

theorem written_call {name : Text} {t : Text} {a : Ast} (hn : Seg (name ++ ['(']) [.ident name, .sym .lpar])
    (h : Written 1 t a) : Written 8 (name ++ ['('] ++ t ++ [')']) (.call name [a]) := by
  obtain ⟨toks, hf, hr⟩ := h
  refine ⟨_, Seg.frag ?_, reads_call (items_one (item_expr (.inl rfl) hr))⟩
  rw [List.append_assoc]
  exact hn.append (hf.then ends_rpar (seg_of (toks := [.sym .rpar]) rfl))

theorem written_string {t : Text} {a : Ast} (h : Written 1 t a) :
    Written 8 (lit "string(" ++ t ++ lit ")") (toStringAst a) :=
  written_call (name := lit "string") (seg_of (by decide +kernel)) h

theorem written_uint {t : Text} {a : Ast} (h : Written 1 t a) :
    Written 8 (lit "uint(" ++ t ++ lit ")") (toUintAst a) :=
  written_call (name := lit "uint") (seg_of (by decide +kernel)) h

/-! ### Joined expressions -/

theorem join_cons (sep t : Text) (ts : List Text) : join sep (t :: ts) = t ++ ts.flatMap (sep ++ ·) := by
  induction ts generalizing t with
  | nil => simp [join]
  | cons u ts ih => rw [join, ih] <;> simp

def joinToks (sep : List Token) : List (List Token) → List Token
  | [] => []
  | t :: ts => t ++ ts.flatMap (sep ++ ·)

theorem commas_eq (ts : List (List Token)) : commas ts = joinToks [.sym .comma] ts := by
  induction ts with
  | nil => rfl
  | cons t ts ih =>
    cases ts with
    | nil => simp [commas, joinToks]
    | cons u ts => rw [commas, ih] <;> simp [joinToks]

theorem frag_append {c : Char} {u : Text} {sep : List Token} (hc : Ends c) (hs : Seg (c :: u) sep) :
    ∀ {ts : List Text} {tks : List (List Token)}, Each Frag ts tks → ∀ {t : Text} {tk : List Token}, Frag t tk →
      Frag (t ++ ts.flatMap ((c :: u) ++ ·)) (tk ++ tks.flatMap (sep ++ ·)) := by
  intro ts tks h
  induction h with
  | nil => intro t tk h; simpa using h
  | cons h hs' ih =>
    intro t tk ht
    rw [List.flatMap_cons, List.flatMap_cons]
    have := Seg.then (ht.then hc hs) (ih h)
    simpa [List.append_assoc] using this

theorem frag_join {c : Char} {u : Text} {sep : List Token} (hc : Ends c) (hs : Seg (c :: u) sep)
    {ts : List Text} {tks : List (List Token)} (h : Each Frag ts tks) :
    Frag (join (c :: u) ts) (joinToks sep tks) := by
  cases h with
  | nil => exact ⟨rfl, show ¬EndsInComment [] by decide⟩
  | cons h hs' => rw [join_cons]; exact frag_append hc hs hs' h

/-- The parts of written texts. -/
theorem each_written {n : Nat} {ts : List Text} {as : List Ast} (h : Each (Written n) ts as) :
    ∃ tks, Each Frag ts tks ∧ Each (Reads n) tks as := by
  induction h with
  | nil => exact ⟨[], .nil, .nil⟩
  | cons h _ ih =>
    obtain ⟨tks, h1, h2⟩ := ih
    obtain ⟨tk, h3, h4⟩ := h
    exact ⟨tk :: tks, .cons h3 h1, .cons h4 h2⟩

theorem each_mono {α β : Type} {R S : α → β → Prop} (h : ∀ a b, R a b → S a b) {as : List α} {bs : List β}
    (he : Each R as bs) : Each S as bs := by
  induction he with
  | nil => exact .nil
  | cons h1 _ ih => exact .cons (h _ _ h1) ih

theorem each_map {α β γ : Type} {R : β → γ → Prop} (f : α → β) (g : α → γ) {as : List α}
    (h : ∀ a ∈ as, R (f a) (g a)) : Each R (as.map f) (as.map g) := by
  induction as with
  | nil => exact .nil
  | cons a as ih => exact .cons (h a (by simp)) (ih fun b hb => h b (by simp [hb]))

theorem reads_fold {n : Nat} (h2 : 2 ≤ n) (h6 : n ≤ 6) {t : Token} {o : Binary} (ho : tierOps n t = some o)
    {tks : List (List Token)} {as : List Ast} (h : Each (Reads (n + 1)) tks as) :
    ∀ {l : List Token} {a : Ast}, Reads n l a → Reads n (l ++ tks.flatMap ([t] ++ ·)) (as.foldl (.binary o) a) := by
  induction h with
  | nil => intro l a h; simpa using h
  | cons h _ ih =>
    intro l a hl
    have := ih (Reads.binary h2 h6 hl ho h)
    simpa [List.append_assoc] using this

/-- Operands joined by an operator. -/
theorem written_join {n : Nat} (h2 : 2 ≤ n) (h6 : n ≤ 6) {t : Token} {o : Binary} (ho : tierOps n t = some o)
    {u : Text} (hs : Seg (' ' :: u) [t]) {x : Text} {a : Ast} {ts : List Text} {as : List Ast}
    (hx : Written (n + 1) x a) (h : Each (Written (n + 1)) ts as) :
    Written n (join (' ' :: u) (x :: ts)) (as.foldl (.binary o) a) := by
  obtain ⟨tks, h3, h4⟩ := each_written h
  obtain ⟨tk, h5, h6'⟩ := hx
  exact ⟨_, frag_join ends_blank hs (.cons h5 h3), reads_fold h2 h6 ho h4 (h6'.lift (by omega) (by omega))⟩

theorem each_parens {ts : List Text} {as : List Ast} (h : Each (Written 1) ts as) :
    Each (Written 8) (ts.map parens) as := by
  induction h with
  | nil => exact .nil
  | cons h _ ih => exact .cons (written_parens h) ih

/-- The joined predicates are the conjunction of the predicates. -/
theorem written_predicates {ps : List Text} {as : List Ast} (h : Each (Written 1) ps as) :
    Written 1 (joinPredicates ps (lit "&&")) (allOf as) := by
  cases h with
  | nil => exact ⟨[.ident (lit "true")], ⟨by decide +kernel, by decide +kernel⟩, (reads_ident _).lift (by decide) (by decide)⟩
  | cons h hs =>
    cases hs with
    | nil => exact h
    | cons h' hs' =>
      have h3 := each_parens (.cons h (.cons h' hs'))
      cases h3 with
      | cons h4 h5 =>
        have hw := (written_join (n := 3) (by decide) (by decide) (t := .sym .and) rfl (u := lit "&&" ++ [' '])
          (seg_of (by decide +kernel)) (h4.lift (by decide) (by decide))
          (each_mono (fun _ _ h => h.lift (by decide) (by decide)) h5)).lift (m := 1) (by decide) (by decide)
        exact hw

/-! ### Predicates of rate limit actions -/

/-- Written expressions joined by `||`. -/
theorem written_or {T : Type} (holds : T → Ast → Prop)
    (hor : ∀ t a b, holds t (.binary .or a b) ↔ holds t a ∨ holds t b) {ts : List Text} {as : List Ast}
    (h : Each (Written 2) ts as) : ∀ {t : Text} {a : Ast}, Written 2 t a →
      ∃ c, Written 2 (join (lit " || ") (t :: ts)) c ∧ ∀ v, holds v c ↔ holds v a ∨ ∃ b ∈ as, holds v b := by
  induction h with
  | nil => intro t a h; exact ⟨a, by simpa [join] using h, by simp⟩
  | @cons u b us bs h _ ih =>
    intro t a ht
    obtain ⟨c, ⟨tks, hc1, hc2⟩, hc3⟩ := ih h
    obtain ⟨tk, h1, h2⟩ := ht
    obtain ⟨d, hd1, hd2⟩ := Reads.or holds hor h2 hc2
    refine ⟨d, ⟨_, ?_, hd1⟩, fun v => by rw [hd2, hc3]; simp⟩
    have : join (lit " || ") (t :: u :: us) = (t ++ lit " || ") ++ join (lit " || ") (u :: us) := by
      rw [join] <;> simp
    rw [this]
    have hs : Seg (' ' :: lit "|| ") [.sym .or] := seg_of (by decide +kernel)
    have he : lit " || " = ' ' :: lit "|| " := by decide +kernel
    have := Seg.then (h1.then ends_blank hs) hc1
    rw [← he] at this
    simpa [List.append_assoc] using this

/-! ### Messages -/

/-- `name: value` -/
def Field (t : Text) (f : Text × Ast) : Prop :=
  ∃ toks, Frag t toks ∧ Item (fun K => entry fieldName (expr K)) .rbrace toks f

theorem field {name label : Text} {t : Text} {a : Ast} (hn : Seg label [.ident name, .sym .colon])
    (h : Written 1 t a) : Field (label ++ t) (name, a) := by
  obtain ⟨toks, hf, hr⟩ := h
  exact ⟨_, hn.then hf, item_field hr⟩

/-- `key: value` in a map -/
def MapEntry (t : Text) (f : Ast × Ast) : Prop :=
  ∃ toks, Frag t toks ∧ Item (fun K => entry (expr K) (expr K)) .rbrace toks f

theorem mapEntry {k t : Text} {a b : Ast} (hk : Written 1 k a) (h : Written 1 t b) :
    MapEntry (k ++ lit ": " ++ t) (a, b) := by
  obtain ⟨tk, hf, hr⟩ := h
  obtain ⟨kk, hf', hr'⟩ := hk
  refine ⟨_, ?_, item_entry hr' hr⟩
  have := Seg.then (hf'.then (u := [' ']) ends_colon (seg_of (toks := [.sym .colon]) rfl)) hf
  have he : lit ": " = ':' :: [' '] := by decide +kernel
  rw [he]
  simpa [List.append_assoc] using this

theorem each_items {α : Type} {R : Text → α → Prop} {e : Nat → Parser α} {close : Sym}
    (hR : ∀ t a, R t a → ∃ toks, Frag t toks ∧ Item e close toks a) {ts : List Text} {as : List α}
    (h : Each R ts as) : ∃ tks, Each Frag ts tks ∧ Each (Item e close) tks as := by
  induction h with
  | nil => exact ⟨[], .nil, .nil⟩
  | cons h _ ih =>
    obtain ⟨tks, h1, h2⟩ := ih
    obtain ⟨tk, h3, h4⟩ := hR _ _ h
    exact ⟨tk :: tks, .cons h3 h1, .cons h4 h2⟩

/-- Elements separated by commas and blanks. -/
theorem items_join {α : Type} {R : Text → α → Prop} {e : Nat → Parser α} {close : Sym} (hc : close ≠ .comma)
    (hR : ∀ t a, R t a → ∃ toks, Frag t toks ∧ Item e close toks a) {u : Text} (hs : Seg (',' :: u) [.sym .comma])
    {ts : List Text} {as : List α} (h : Each R ts as) :
    ∃ toks, Frag (join (',' :: u) ts) toks ∧ Items e close toks as := by
  obtain ⟨tks, h1, h2⟩ := each_items hR h
  exact ⟨_, frag_join ends_comma hs h1, by rw [← commas_eq]; exact items_commas hc h2⟩

theorem item_written {close : Sym} (hc : Closes close) (t : Text) (a : Ast) (h : Written 1 t a) :
    ∃ toks, Frag t toks ∧ Item expr close toks a := by
  obtain ⟨toks, hf, hr⟩ := h; exact ⟨toks, hf, item_expr hc hr⟩

theorem seg_comma : Seg (',' :: [' ']) [.sym .comma] := seg_of rfl

theorem written_list {ts : List Text} {as : List Ast} (h : Each (Written 1) ts as) :
    Written 8 (lit "[" ++ join (lit ", ") ts ++ lit "]") (.list as) := by
  obtain ⟨toks, hf, hi⟩ := items_join (close := .rbrack) (by decide) (item_written (.inr (.inl rfl))) seg_comma h
  refine ⟨_, Seg.frag ?_, reads_list hi⟩
  rw [List.append_assoc]
  exact Seg.append (t := ['[']) (a := [.sym .lbrack]) (seg_of rfl)
    (hf.then ends_rbrack (seg_of (toks := [.sym .rbrack]) rfl))

theorem written_map {ts : List Text} {as : List (Ast × Ast)} (h : Each MapEntry ts as) :
    Written 8 (lit "{" ++ join (lit ", ") ts ++ lit "}") (.map as) := by
  obtain ⟨toks, hf, hi⟩ := items_join (close := .rbrace) (by decide) (fun _ _ h => h) seg_comma h
  refine ⟨_, Seg.frag ?_, reads_map hi⟩
  rw [List.append_assoc]
  exact Seg.append (t := ['{']) (a := [.sym .lbrace]) (seg_of rfl)
    (hf.then ends_rbrace (seg_of (toks := [.sym .rbrace]) rfl))

/-- A message: `head` is the name with the opening brace, `tail` ends with the closing one. -/
theorem written_message {first : Text} {names : List Text} {head sep tail : Text} {c : Char}
    (hh : Seg head (.ident first :: dots names ++ [.sym .lbrace])) (hs : Seg (',' :: sep) [.sym .comma])
    (hc : Ends c) (ht : Seg (c :: tail) [.sym .rbrace]) {ts : List Text} {fs : List (Text × Ast)}
    (h : Each Field ts fs) :
    Written 8 (head ++ join (',' :: sep) ts ++ c :: tail) (.message (path first names) fs) := by
  obtain ⟨toks, hf, hi⟩ := items_join (close := .rbrace) (by decide) (fun _ _ h => h) hs h
  refine ⟨_, Seg.frag ?_, reads_message hi⟩
  have := hh.append (hf.then hc ht)
  simpa [List.append_assoc] using this

/-! ### Requests to the rate limit service -/

def entryHead : Text := lit "envoy.extensions.common.ratelimit.v3.RateLimitDescriptor.Entry { "

theorem written_entry (key : Text) {value : Text} {a : Ast} (h : Written 1 value a) :
    Written 8 (entryCel key value) (entryAst key a) := by
  have hf : Each Field [lit "key: " ++ quoted key, lit "value: " ++ value]
      [(lit "key", string key), (lit "value", a)] :=
    .cons (field (label := lit "key: ") (name := lit "key") (seg_of (by decide +kernel)) ((written_quoted key).lift (by decide) (by decide)))
      (.cons (field (label := lit "value: ") (name := lit "value") (seg_of (by decide +kernel)) h) .nil)
  have := written_message (first := lit "envoy")
    (names := ["extensions", "common", "ratelimit", "v3", "RateLimitDescriptor", "Entry"].map String.toList)
    (head := entryHead) (sep := [' ']) (c := ' ') (tail := ['}']) (seg_of (by decide +kernel)) seg_comma ends_blank
    (seg_of rfl) hf
  have h1 : lit "envoy.extensions.common.ratelimit.v3.RateLimitDescriptor.Entry { key: " = entryHead ++ lit "key: " := by
    decide +kernel
  have h2 : lit ", value: " = ',' :: ' ' :: lit "value: " := by decide +kernel
  have h3 : lit " }" = [' ', '}'] := by decide +kernel
  have he : entryCel key value = entryHead ++ join (',' :: [' ']) [lit "key: " ++ quoted key, lit "value: " ++ value] ++
      ' ' :: ['}'] := by
    simp only [entryCel, h1, h2, h3, join, List.append_assoc, List.cons_append, List.nil_append]
  rw [he]
  exact this

theorem written_descriptor {entries : Text} {a : Ast} (h : Written 1 entries a) :
    Written 8 (lit "envoy.extensions.common.ratelimit.v3.RateLimitDescriptor { entries: " ++ entries ++ lit " }")
      (descriptorAst a) := by
  have hf : Each Field [lit "entries: " ++ entries] [(lit "entries", a)] :=
    .cons (field (label := lit "entries: ") (name := lit "entries") (seg_of (by decide +kernel)) h) .nil
  have := written_message (first := lit "envoy")
    (names := ["extensions", "common", "ratelimit", "v3", "RateLimitDescriptor"].map String.toList)
    (head := lit "envoy.extensions.common.ratelimit.v3.RateLimitDescriptor { ") (sep := [' ']) (c := ' ')
    (tail := ['}']) (seg_of (by decide +kernel)) seg_comma ends_blank (seg_of rfl) hf
  have h1 : lit "envoy.extensions.common.ratelimit.v3.RateLimitDescriptor { entries: " =
      lit "envoy.extensions.common.ratelimit.v3.RateLimitDescriptor { " ++ lit "entries: " := by decide +kernel
  have h3 : lit " }" = ' ' :: ['}'] := by decide +kernel
  rw [h1, h3]
  simp only [join, List.append_assoc] at this ⊢
  exact this

attribute [local irreducible] entryCel entryAst quoted

section
variable {P : Text → Ast}

theorem written_item {i : DataItem} (h : ∀ k v, i = .expression k v → Proper P v) :
    Written 8 (descriptorEntry i) (itemAst P i) := by
  cases i with
  | static k v => exact written_entry k ((written_quoted v).lift (by decide) (by decide))
  | expression k v =>
    exact written_entry k ((written_string (sound_written (h k v rfl))).lift (by decide) (by decide))

theorem each_sound {ps : List Text} (h : ∀ p ∈ ps, Proper P p) : Each (Written 1) ps (ps.map P) := by
  have := each_map (R := Written 1) (fun p : Text => p) P fun p hp => sound_written (h p hp)
  rwa [List.map_id'] at this

/-- The predicates of a list as one expression. -/
theorem written_all {ps : List Text} (h : ∀ p ∈ ps, Proper P p) :
    Written 1 (joinPredicates ps (lit "&&")) (allOf (ps.map P)) := written_predicates (each_sound h)

theorem written_cond {c a : Text} {x y : Ast} (hc : Written 1 c x) (ha : Written 8 a y) :
    Written 8 (lit "((" ++ c ++ lit ") ? " ++ a ++ lit " : [])") (.cond x y (.list [])) := by
  obtain ⟨tc, hc1, hc2⟩ := written_parens hc
  obtain ⟨ta, ha1, ha2⟩ := ha
  have hq : Seg (' ' :: lit "? ") [.sym .quest] := seg_of (by decide +kernel)
  have he : Seg (' ' :: lit ": []") [.sym .colon, .sym .lbrack, .sym .rbrack] := seg_of (by decide +kernel)
  have hf := (Seg.then (hc1.then ends_blank hq) ha1).then ends_blank he
  have hr := reads_cond (hc2.lift (by decide) (by decide)) (ha2.lift (m := 2) (by decide) (by decide))
    ((reads_list (items_nil expr .rbrack)).lift (m := 1) (by decide) (by decide))
  have hw : Written 1 (parens c ++ ' ' :: lit "? " ++ a ++ ' ' :: lit ": []") (.cond x y (.list [])) :=
    ⟨_, hf.frag, by simpa [List.append_assoc] using hr⟩
  have := written_parens hw
  have h1 : lit "((" = ['(', '('] := by decide +kernel
  have h2 : lit ") ? " = ')' :: ' ' :: lit "? " := by decide +kernel
  have h3 : lit " : [])" = ' ' :: lit ": []" ++ [')'] := by decide +kernel
  rw [h1, h2, h3]
  simpa [parens, List.append_assoc] using this

theorem not_mem_pair (k a b : Text) : decide (k ∉ [a, b]) = !(decide (k = a) || decide (k = b)) := by
  by_cases h1 : k = a <;> by_cases h2 : k = b <;> simp [h1, h2]

theorem descriptorItems_eq (cd : ConditionalData) :
    descriptorItems cd = cd.data.filter fun i => !isKnownAttr i := by
  unfold descriptorItems
  congr 1
  funext i
  exact not_mem_pair _ _ _

theorem pair_if (k a b : Text) (x y : Text) :
    (if k ∈ [a, b] then x else y) = if decide (k = a) || decide (k = b) then x else y := by
  by_cases h1 : k = a <;> by_cases h2 : k = b <;> simp [h1, h2]

theorem dataKey_eq (d f : Text) : dataKey d f = requestKey d f := by
  unfold dataKey
  rw [pair_if, List.append_assoc]
  rfl

theorem domainName_eq (d : Text) : domainName d = metadataDomain d := by
  cases d <;> rfl

theorem contains_iff (n t : Text) : contains n t = true ↔ n <:+: t := by
  induction t with
  | nil => simp [contains]
  | cons c t ih =>
    rw [contains, Bool.or_eq_true, ih, List.isPrefixOf_iff_prefix, List.infix_cons_iff]

theorem entryList_eq (cd : ConditionalData) : entryList cd =
    if (descriptorItems cd).isEmpty then none
    else if cd.predicates.isEmpty then
      some (lit "[" ++ join (lit ", ") ((descriptorItems cd).map descriptorEntry) ++ lit "]")
    else some (lit "((" ++ joinPredicates cd.predicates (lit "&&") ++ lit ") ? " ++
      (lit "[" ++ join (lit ", ") ((descriptorItems cd).map descriptorEntry) ++ lit "]") ++ lit " : [])") := by
  rw [descriptorItems_eq]
  unfold entryList
  simp only [List.isEmpty_map]

variable {blocks : List ConditionalData} {data : RequestData}

theorem written_block {cd : ConditionalData} (hp : ∀ p ∈ cd.predicates, Proper P p)
    (he : ∀ k v, .expression k v ∈ cd.data → Proper P v) :
    (entryList cd = none ∧ (descriptorItems cd).isEmpty = true) ∨
    ∃ t, entryList cd = some t ∧ (descriptorItems cd).isEmpty = false ∧ Written 8 t (blockAst P cd) := by
  rw [entryList_eq]
  by_cases h : (descriptorItems cd).isEmpty = true
  · exact .inl ⟨if_pos h, h⟩
  · right
    rw [if_neg h]
    have hl : Written 8 (lit "[" ++ join (lit ", ") ((descriptorItems cd).map descriptorEntry) ++ lit "]")
        (.list ((descriptorItems cd).map (itemAst P))) := by
      refine written_list (each_map (R := Written 1) descriptorEntry (itemAst P) fun i hi => ?_)
      have hw : Written 8 (descriptorEntry i) (itemAst P i) := written_item fun k v hk => by
        subst hk; exact he k v (List.mem_filter.1 hi).1
      exact hw.lift (by decide) (by decide)
    unfold blockAst
    by_cases h' : cd.predicates.isEmpty = true
    · rw [if_pos h', if_pos h']
      exact ⟨_, rfl, by simpa using h, hl⟩
    · rw [if_neg h', if_neg h']
      exact ⟨_, rfl, by simpa using h, written_cond (written_all hp) hl⟩

theorem written_blocks (hp : ∀ cd ∈ blocks, ∀ p ∈ cd.predicates, Proper P p)
    (he : ∀ cd ∈ blocks, ∀ k v, .expression k v ∈ cd.data → Proper P v) :
    Each (Written 8) (blocks.filterMap entryList) ((entryBlocks blocks).map (blockAst P)) := by
  induction blocks with
  | nil => exact .nil
  | cons cd blocks ih =>
    have ih := ih (fun c h => hp c (by simp [h])) (fun c h => he c (by simp [h]))
    rcases written_block (P := P) (hp cd (by simp)) (he cd (by simp)) with ⟨h1, h2⟩ | ⟨t, h1, h2, h3⟩
    · rw [List.filterMap_cons_none h1]
      unfold entryBlocks
      rw [List.filter_cons_of_neg (by simp [h2])]
      exact ih
    · rw [List.filterMap_cons_some h1]
      unfold entryBlocks
      rw [List.filter_cons_of_pos (by simp [h2]), List.map_cons]
      exact .cons h3 ih

theorem written_concat {ts : List Text} {as : List Ast} (h : Each (Written 8) ts as) (hn : ts ≠ []) :
    Written 1 (join (lit " + ") ts) (concat as) := by
  cases h with
  | nil => exact absurd rfl hn
  | cons h hs =>
    have he : lit " + " = ' ' :: lit "+ " := by decide +kernel
    rw [he]
    exact (written_join (n := 5) (by decide) (by decide) (t := .sym .plus) rfl (seg_of (by decide +kernel))
      (h.lift (by decide) (by decide)) (each_mono (fun _ _ h => h.lift (by decide) (by decide)) hs)).lift
      (by decide) (by decide)

theorem each_isEmpty {α β : Type} {R : α → β → Prop} {as : List α} {bs : List β} (h : Each R as bs) :
    as.isEmpty = bs.isEmpty := by cases h <;> rfl

theorem each_append {α β : Type} {R : α → β → Prop} {as as' : List α} {bs bs' : List β} (h : Each R as bs)
    (h' : Each R as' bs') : Each R (as ++ as') (bs ++ bs') := by
  induction h with
  | nil => exact h'
  | cons h _ ih => exact .cons h ih

theorem written_descriptors (hp : ∀ cd ∈ blocks, ∀ p ∈ cd.predicates, Proper P p)
    (he : ∀ cd ∈ blocks, ∀ k v, .expression k v ∈ cd.data → Proper P v) :
    Each (Written 1) (descriptorsCel blocks).toList
      (if (entryBlocks blocks).isEmpty then [] else [descriptorAst (concat ((entryBlocks blocks).map (blockAst P)))]) := by
  have h := written_blocks hp he
  have hie := each_isEmpty h
  rw [List.isEmpty_map] at hie
  unfold descriptorsCel
  simp only [← hie]
  by_cases hb : (blocks.filterMap entryList).isEmpty = true
  · rw [if_pos hb, if_pos hb]; exact .nil
  · rw [if_neg hb, if_neg hb]
    exact .cons ((written_descriptor (written_concat h (by simpa using hb))).lift (by decide) (by decide)) .nil

theorem find_known {attr : String} {items : List DataItem} :
    items.findSome? (knownAttr attr.toList) = match items.find? fun i => i.key = attr.toList with
      | none => none
      | some i => knownAttr attr.toList i := by
  induction items with
  | nil => rfl
  | cons i items ih =>
    rw [List.findSome?_cons, List.find?_cons]
    by_cases h : i.key = attr.toList
    · simp only [h, decide_true]
      cases i with
      | static k v => have : k = attr.toList := h; simp [knownAttr, this]
      | expression k v => have : k = attr.toList := h; simp [knownAttr, this]
    · simp only [h, decide_false]
      cases i with
      | static k v => have : k ≠ attr.toList := h; simpa [knownAttr, this] using ih
      | expression k v => have : k ≠ attr.toList := h; simpa [knownAttr, this] using ih

theorem first_mem {key : String} {i : DataItem} (h : firstItem blocks key = some i) :
    ∃ cd ∈ blocks, i ∈ cd.data ∧ i.key = key.toList := by
  have h1 := List.mem_of_find?_eq_some h
  have h2 := List.find?_some h
  obtain ⟨cd, hcd, hi⟩ := List.mem_flatMap.1 h1
  exact ⟨cd, hcd, hi, by simpa using h2⟩

theorem written_domain (h : ProperConfig P blocks data) (scope : Text) :
    Written 1 ((findKnownAttr blocks (lit "ratelimit.domain")).getD (quoted scope)) (domainAst P scope blocks) := by
  have hf : findKnownAttr blocks (lit "ratelimit.domain") = _ := find_known (attr := "ratelimit.domain")
  have hne : ¬("ratelimit.domain".toList = lit "ratelimit.hits_addend") := by decide +kernel
  rw [hf]
  unfold domainAst
  cases hi : firstItem blocks "ratelimit.domain" with
  | none =>
    unfold firstItem at hi
    rw [hi]
    exact (written_quoted scope).lift (by decide) (by decide)
  | some i =>
    obtain ⟨cd, hcd, hmem, hk⟩ := first_mem hi
    unfold firstItem at hi
    rw [hi]
    cases i with
    | static k v =>
      have : k = "ratelimit.domain".toList := hk
      subst this
      simp only [knownAttr, if_true, if_neg hne, Option.getD_some]
      exact (written_quoted v).lift (by decide) (by decide)
    | expression k v =>
      have : k = "ratelimit.domain".toList := hk
      subst this
      simp only [knownAttr, if_true, if_neg hne, Option.getD_some]
      exact sound_written (h.expressions cd hcd _ v hmem)

theorem written_hits (h : ProperConfig P blocks data) :
    Written 1 ((findKnownAttr blocks (lit "ratelimit.hits_addend")).getD (lit "1u")) (hitsAst P blocks) := by
  have hf : findKnownAttr blocks (lit "ratelimit.hits_addend") = _ := find_known (attr := "ratelimit.hits_addend")
  have hne : "ratelimit.hits_addend".toList = lit "ratelimit.hits_addend" := rfl
  rw [hf]
  unfold hitsAst
  cases hi : firstItem blocks "ratelimit.hits_addend" with
  | none =>
    unfold firstItem at hi
    rw [hi]
    exact ⟨[.num (lit "1u")], ⟨by decide +kernel, by decide +kernel⟩, (reads_num _).lift (by decide) (by decide)⟩
  | some i =>
    obtain ⟨cd, hcd, hmem, hk⟩ := first_mem hi
    unfold firstItem at hi
    rw [hi]
    cases i with
    | static k v =>
      have : k = "ratelimit.hits_addend".toList := hk
      subst this
      simp only [knownAttr, if_true, if_pos hne, Option.getD_some]
      exact (written_uint (sound_written (h.hits cd hcd v hmem))).lift (by decide) (by decide)
    | expression k v =>
      have : k = "ratelimit.hits_addend".toList := hk
      subst this
      simp only [knownAttr, if_true, if_pos hne, Option.getD_some]
      exact (written_uint (sound_written (h.expressions cd hcd _ v hmem))).lift (by decide) (by decide)

theorem written_requestEntry {d : (Text × Text) × Text} (h : Proper P d.2) :
    Written 1 (entryCel (requestKey d.1.1 d.1.2) (lit "string(" ++ d.2 ++ lit ")")) (requestEntryAst P d) := by
  have h1 := (written_string (sound_written h)).lift (m := 1) (by decide) (by decide)
  rw [← dataKey_eq]
  exact (written_entry (dataKey d.1.1 d.1.2) h1).lift (by decide) (by decide)

theorem written_request (h : ∀ d ∈ data, Proper P d.2) :
    Each (Written 1) (if data.isEmpty then [] else
      [lit "envoy.extensions.common.ratelimit.v3.RateLimitDescriptor { entries: [" ++
        join (lit ", ") (data.map fun d => entryCel (requestKey d.1.1 d.1.2) (lit "string(" ++ d.2 ++ lit ")")) ++
        lit "] }"])
      (if data.isEmpty then [] else [descriptorAst (.list (data.map (requestEntryAst P)))]) := by
  by_cases hd : data.isEmpty = true
  · rw [if_pos hd, if_pos hd]; exact .nil
  · rw [if_neg hd, if_neg hd]
    have hl := written_list (each_map (R := Written 1)
      (fun d => entryCel (requestKey d.1.1 d.1.2) (lit "string(" ++ d.2 ++ lit ")")) (requestEntryAst P)
      (as := data) fun d hd => written_requestEntry (d := d) (h d hd))
    have hw := written_descriptor (hl.lift (m := 1) (by decide) (by decide))
    have h1 : lit "envoy.extensions.common.ratelimit.v3.RateLimitDescriptor { entries: [" =
        lit "envoy.extensions.common.ratelimit.v3.RateLimitDescriptor { entries: " ++ lit "[" := by decide +kernel
    have h2 : lit "] }" = lit "]" ++ lit " }" := by decide +kernel
    rw [h1, h2]
    simp only [List.append_assoc] at hw ⊢
    exact .cons (hw.lift (by decide) (by decide)) .nil

/-- The request is written as it should be. -/
theorem written_ratelimit (h : ProperConfig P blocks data) (scope : Text) :
    Written 8 (ratelimitMessage scope blocks data) (ratelimitAst P scope blocks data) := by
  have hd := written_list (each_append (written_descriptors h.predicates h.expressions) (written_request h.data))
  have hf : Each Field
      [lit "domain: " ++ (findKnownAttr blocks (lit "ratelimit.domain")).getD (quoted scope),
       lit "hits_addend: " ++ (findKnownAttr blocks (lit "ratelimit.hits_addend")).getD (lit "1u"),
       lit "descriptors: " ++ _] [(lit "domain", _), (lit "hits_addend", _), (lit "descriptors", _)] :=
    .cons (field (label := lit "domain: ") (name := lit "domain") (seg_of (by decide +kernel)) (written_domain h scope)) <|
    .cons (field (label := lit "hits_addend: ") (name := lit "hits_addend") (seg_of (by decide +kernel)) (written_hits h)) <|
    .cons (field (label := lit "descriptors: ") (name := lit "descriptors") (seg_of (by decide +kernel)) (hd.lift (by decide) (by decide))) .nil
  have hw := written_message (first := lit "envoy")
    (names := ["service", "ratelimit", "v3", "RateLimitRequest"].map String.toList)
    (head := lit "envoy.service.ratelimit.v3.RateLimitRequest {\n    ") (sep := lit "\n    ") (c := '\n')
    (tail := ['}']) (seg_of (by decide +kernel)) (seg_of (by decide +kernel)) ends_newline (seg_of rfl) hf
  have h1 : lit "envoy.service.ratelimit.v3.RateLimitRequest {\n    domain: " =
      lit "envoy.service.ratelimit.v3.RateLimitRequest {\n    " ++ lit "domain: " := by decide +kernel
  have h2 : lit ",\n    hits_addend: " = ',' :: lit "\n    " ++ lit "hits_addend: " := by decide +kernel
  have h3 : lit ",\n    descriptors: " = ',' :: lit "\n    " ++ lit "descriptors: " := by decide +kernel
  have h4 : lit "\n}" = '\n' :: ['}'] := by decide +kernel
  have h5 : ∀ l : List Text, (if l.isEmpty then lit "[]" else lit "[" ++ join (lit ", ") l ++ lit "]") =
      lit "[" ++ join (lit ", ") l ++ lit "]" := by
    intro l
    cases l with
    | nil => decide +kernel
    | cons => rfl
  unfold ratelimitMessage
  simp only [h5]
  simp only [h1, h2, h3, h4, join, List.append_assoc] at hw ⊢
  exact hw

end

end Verif.Legacy
