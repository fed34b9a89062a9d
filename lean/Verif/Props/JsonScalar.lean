import Verif.Lemmas.Decimal
/-!
C31: JSON scalars are typed canonically.
-/
namespace Verif.Props
open Verif Spec

variable (f64 : Text → Option UInt64)

/-- The text is one of the three words of JSON. -/
def IsWord (t : Text) : Prop := t = "null".toList ∨ t = "true".toList ∨ t = "false".toList

/-- The text is a number of 64 bits, signed or unsigned. -/
def IsInteger (t : Text) : Prop :=
  (∃ i, Signed t i ∧ -(2 ^ 63) ≤ i ∧ i < 2 ^ 63) ∨ (∃ n, Unsigned t n ∧ n < 2 ^ 64)

theorem signed_word {t : Text} (h : IsWord t) (i : Int) : ¬Signed t i := by
  intro hs
  have hd : ∀ {c : Char} {r : Text} {n : Nat}, Digits (c :: r) n → '0' ≤ c ∧ c ≤ '9' := fun h =>
    h.2.1 _ (List.mem_cons_self ..)
  rcases h with rfl | rfl | rfl <;>
    (generalize ht : String.toList _ = t at hs
     cases hs with
     | unsigned h =>
       cases h with
       | plain h => subst ht; exact absurd (hd h) (by decide)
       | plus h => exact by simp at ht
     | minus h => exact by simp at ht)

/-- C31: a text is read as a signed integer if and only if it is a decimal number with that value, and
the value fits in 64 bits. -/
theorem C31_int (t : Text) (i : Int) :
    parseJsonScalar f64 t = .int i ↔ Signed t i ∧ -(2 ^ 63) ≤ i ∧ i < 2 ^ 63 := by
  rw [← parseI64_iff]
  unfold parseJsonScalar
  by_cases h1 : t = "null".toList
  · rw [if_pos h1]
    constructor
    · intro h; exact nomatch h
    · intro h; exact absurd ((parseI64_iff t i).1 h).1 (signed_word (.inl h1) i)
  rw [if_neg h1]
  by_cases h2 : t = "true".toList
  · rw [if_pos h2]
    constructor
    · intro h; exact nomatch h
    · intro h; exact absurd ((parseI64_iff t i).1 h).1 (signed_word (.inr (.inl h2)) i)
  rw [if_neg h2]
  by_cases h3 : t = "false".toList
  · rw [if_pos h3]
    constructor
    · intro h; exact nomatch h
    · intro h; exact absurd ((parseI64_iff t i).1 h).1 (signed_word (.inr (.inr h3)) i)
  rw [if_neg h3]
  cases hi : parseI64 t with
  | some j => simp
  | none =>
    cases hu : Sse.parseU64 t with
    | some n => simp
    | none => cases hf : f64 t <;> simp

/-- C31: a text is read as an unsigned integer if and only if it is a decimal number without minus sign
with that value, too large for a signed and not for an unsigned 64-bit integer. -/
theorem C31_uint (t : Text) (n : Nat) :
    parseJsonScalar f64 t = .uint n ↔ Unsigned t n ∧ 2 ^ 63 ≤ n ∧ n < 2 ^ 64 := by
  have huniq : ∀ {m : Nat}, Unsigned t m → Unsigned t n → m = n := by
    intro m h h'
    have hh : ∀ {c : Char} {r : Text} {n : Nat}, Digits (c :: r) n → '0' ≤ c := fun h =>
      (h.2.1 _ (List.mem_cons_self ..)).1
    cases h with
    | plain h => cases h' with
      | plain h' => rw [h.2.2, h'.2.2]
      | plus h' => exact absurd (hh h) (by decide)
    | plus h => cases h' with
      | plain h' => exact absurd (hh h') (by decide)
      | plus h' => rw [h.2.2, h'.2.2]
  constructor
  · intro h
    unfold parseJsonScalar at h
    split at h
    · exact nomatch h
    split at h
    · exact nomatch h
    split at h
    · exact nomatch h
    split at h
    · exact nomatch h
    · rename_i hi
      split at h
      · rename_i m hu
        cases h
        obtain ⟨hu, hlt⟩ := (parseU64_iff t n).1 hu
        refine ⟨hu, ?_, hlt⟩
        refine Nat.le_of_not_lt fun hsmall => ?_
        have := (parseI64_iff t n).2 ⟨.unsigned hu, by omega, by omega⟩
        rw [hi] at this; exact nomatch this
      · split at h <;> exact nomatch h
  · rintro ⟨hu, hge, hlt⟩
    have hw : ¬IsWord t := fun hw => signed_word hw n (.unsigned hu)
    unfold parseJsonScalar
    rw [if_neg fun h => hw (.inl h), if_neg fun h => hw (.inr (.inl h)), if_neg fun h => hw (.inr (.inr h))]
    cases hi : parseI64 t with
    | some j =>
      exfalso
      obtain ⟨hs, -, hj⟩ := (parseI64_iff t j).1 hi
      cases hs with
      | unsigned h => have := huniq h hu; omega
      | minus h =>
        cases hu with
        | plain hu => exact absurd (hu.2.1 _ (List.mem_cons_self ..)).1 (by decide)
    | none => simp only [(parseU64_iff t n).2 ⟨hu, hlt⟩]

/-- C31: the words `null`, `true` and `false` are read as themselves, and no other text is. -/
theorem C31_words (t : Text) :
    (parseJsonScalar f64 t = .null ↔ t = "null".toList) ∧
    (parseJsonScalar f64 t = .bool true ↔ t = "true".toList) ∧
    (parseJsonScalar f64 t = .bool false ↔ t = "false".toList) := by
  have hwords : ("true".toList ≠ "null".toList) ∧ ("false".toList ≠ "null".toList) ∧
    ("false".toList ≠ "true".toList) := by decide
  unfold parseJsonScalar
  by_cases h1 : t = "null".toList
  · simp [h1]
  rw [if_neg h1]
  by_cases h2 : t = "true".toList
  · simp [h2]
  rw [if_neg h2]
  by_cases h3 : t = "false".toList
  · simp [h3]
  rw [if_neg h3]
  simp only [h1, h2, h3, iff_false]
  cases parseI64 t with
  | some j => simp
  | none =>
    cases Sse.parseU64 t with
    | some n => simp
    | none => cases f64 t <;> simp

/-- C31: every other text is read as the float it denotes, or kept as it is. -/
theorem C31_rest (t : Text) (hw : ¬IsWord t) (hi : ¬IsInteger t) :
    parseJsonScalar f64 t = match f64 t with
      | some bits => .float bits
      | none => .str t := by
  unfold parseJsonScalar
  rw [if_neg fun h => hw (.inl h), if_neg fun h => hw (.inr (.inl h)), if_neg fun h => hw (.inr (.inr h))]
  cases h : parseI64 t with
  | some j => exact absurd (.inl ⟨j, (parseI64_iff t j).1 h⟩) hi
  | none =>
    cases h' : Sse.parseU64 t with
    | some n => exact absurd (.inr ⟨n, (parseU64_iff t n).1 h'⟩) hi
    | none => cases f64 t <;> rfl

/-- C31: the text of every 64-bit signed integer is read back as that integer. -/
theorem C31_int_text (i : Int) (h : -(2 ^ 63) ≤ i ∧ i < 2 ^ 63) :
    parseJsonScalar f64 (toString i).toList = .int i :=
  (C31_int f64 _ i).2 ⟨signed_int i, h⟩

/-- C31: the text of a larger unsigned 64-bit integer is read back as that unsigned integer. -/
theorem C31_uint_text (n : Nat) (h : 2 ^ 63 ≤ n ∧ n < 2 ^ 64) :
    parseJsonScalar f64 (toString n).toList = .uint n :=
  (C31_uint f64 _ n).2 ⟨.plain (digits_nat n), h⟩

/-- A JSON library for which the pointer `/f` of the body delivers the text `t`: the streaming parser
hands over the characters of a string without its quotes. -/
def stringLib (t : Text) : JsonLib where
  parse _ := some (.obj [(['f'], .str t)])
  pointer _ _ := some (.str t)
  render _ := []
  parseF64 _ := none
  acuteRegister _ := true
  acuteFeed _ _ _ := some true
  acuteFinish _ _ := true
  acuteMatched fields _ _ := fields.map fun f => (f, utf8 t)

/-- The typing loses information for strings: the parser for plain JSON bodies looks at the characters of
a JSON string only, so the string `"true"` becomes the boolean and `"42"` the integer, while the parser
for event streams keeps the same strings as strings. -/
theorem C31_strings_confused :
    (∃ b', (BodyParser.json { fields := ["/f".toList] }).feed (stringLib "true".toList) [] = some b' ∧
      b'.extracted = [("/f".toList, .bool true)]) ∧
    (∃ b', (BodyParser.json { fields := ["/f".toList] }).feed (stringLib "42".toList) [] = some b' ∧
      b'.extracted = [("/f".toList, .int 42)]) ∧
    (∃ b', (BodyParser.sse { fields := ["/f".toList], beforeLast := some {} }).finalize
        (stringLib "42".toList) = some b' ∧ b'.extracted = [("/f".toList, .str "42".toList)]) := by
  have h1 : fromUtf8 (utf8 "true".toList) = some "true".toList := by decide +kernel
  have h2 : fromUtf8 (utf8 "42".toList) = some "42".toList := by decide +kernel
  refine ⟨?_, ?_, ?_⟩
  · simp only [BodyParser.feed, JsonBody.feed, JsonBody.finalizeExtracted, stringLib, List.map, List.foldl,
      h1, Bool.false_eq_true, if_true, if_false, Option.map_some]
    exact ⟨_, rfl, rfl⟩
  · simp only [BodyParser.feed, JsonBody.feed, JsonBody.finalizeExtracted, stringLib, List.map, List.foldl,
      h2, Bool.false_eq_true, if_true, if_false, Option.map_some]
    refine ⟨_, rfl, ?_⟩
    show [(_, parseJsonScalar _ _)] = _
    rw [(C31_int _ "42".toList 42).2 ⟨signed_int 42, by decide, by decide⟩]
  · exact ⟨_, rfl, rfl⟩

example : parseJsonScalar (fun _ => none) "-9223372036854775808".toList = .int (-(2 ^ 63)) :=
  C31_int_text _ (-(2 ^ 63)) (by decide)
example : parseJsonScalar (fun _ => none) "18446744073709551615".toList = .uint (2 ^ 64 - 1) :=
  (C31_uint _ _ _).2 ⟨.plain ⟨by decide, by decide, by decide⟩, by decide, by decide⟩
example : ¬IsWord "gpt-4".toList := by unfold IsWord; decide

/-- C31 is about store actions. Token counting reads the same field of the same body as an unsigned integer where a
store action reads a signed one. -/
theorem C31_signedness_deviation :
    parseJsonScalar f64 "7".toList = .int 7 ∧ jsonToStored (.pos 7) = some (.uint 7) :=
  ⟨C31_int_text f64 7 (by decide), rfl⟩

end Verif.Props
