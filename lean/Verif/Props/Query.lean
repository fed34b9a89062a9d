import Verif.Lemmas.Query
/-!
C42: the query decoder `queryMap`.
-/
namespace Verif.Props
open Spec

/-- Every query consists of parts separated by `&`, each with a name and a value, so that `C42_first` and
`C42_repeats` are about every query. -/
theorem C42_parts (q : Text) : ∃ parts ps, q = glue ['&'] parts ∧ parts ≠ [] ∧ (∀ p ∈ parts, '&' ∉ p) ∧
    RawParams parts ps := by
  refine ⟨splitText q ['&'], (splitText q ['&']).map rawParam, ?_, splitText_ne_nil,
    fun p hp => splitText_clean p hp, ?_⟩
  · rw [glue_eq]; exact (joinWith_pieces _ _ _).symm
  · generalize splitText q ['&'] = l
    induction l with
    | nil => exact .nil
    | cons p l ih => exact .cons (rawParam_exists p) ih

theorem rawParams_eq {parts : List Text} {ps : List (Text × Text)} (h : RawParams parts ps) :
    parts.map rawParam = ps := by
  induction h with
  | nil => rfl
  | cons hp _ ih => rw [List.map_cons, rawParam_eq hp, ih]

theorem lookup_eq {parts : List Text} {ps : List (Text × Text)} (hne : parts ≠ [])
    (hc : ∀ p ∈ parts, '&' ∉ p) (h : RawParams parts ps) (args : List Val) (name : Text) :
    mapGet (queryMap (glue ['&'] parts) args) (.str name) =
      heldFor (allowRepeats args) (valuesFor (ps.map fun p => (urlDecode p.1, urlDecode p.2)) name) := by
  rw [queryMap, glue_eq, splitText_join hne hc, fold_held, ← rawParams_eq h, List.map_map]
  rfl

/-- Without `true` as second argument a name has the first of the values given for it. Names and values
are those between `&` and `=`, with escapes decoded. -/
theorem C42_first (parts : List Text) (ps : List (Text × Text)) (hne : parts ≠ []) (hc : ∀ p ∈ parts, '&' ∉ p)
    (h : RawParams parts ps) (args : List Val) (ha : ∀ v, args ≠ [v, .bool true]) (name : Text) :
    mapGet (queryMap (glue ['&'] parts) args) (.str name) =
      (valuesFor (ps.map fun p => (urlDecode p.1, urlDecode p.2)) name).head?.map .str := by
  have hr : allowRepeats args = false := by
    rcases args with _ | ⟨a, _ | ⟨b, _ | ⟨c, l⟩⟩⟩
    · rfl
    · rfl
    · cases b with
      | bool b => cases b with
        | false => rfl
        | true => exact absurd rfl (ha a)
      | _ => rfl
    · cases b <;> rfl
  rw [lookup_eq hne hc h, hr]
  rcases valuesFor _ name with _ | ⟨a, _ | ⟨b, l⟩⟩ <;> rfl

/-- With `true` as second argument a name given once has its value, and a name given several times has
the list of all its values in order. -/
theorem C42_repeats (parts : List Text) (ps : List (Text × Text)) (hne : parts ≠ []) (hc : ∀ p ∈ parts, '&' ∉ p)
    (h : RawParams parts ps) (v : Val) (name : Text) :
    mapGet (queryMap (glue ['&'] parts) [v, .bool true]) (.str name) =
      match valuesFor (ps.map fun p => (urlDecode p.1, urlDecode p.2)) name with
      | [] => none
      | [w] => some (.str w)
      | ws => some (.list (ws.map .str)) := by
  rw [lookup_eq hne hc h]
  rcases valuesFor _ name with _ | ⟨a, _ | ⟨b, l⟩⟩ <;> rfl

/-- A text written with escapes, whichever way, is decoded to the text. -/
theorem C42_decode (t e : Text) (h : UrlEncoded t e) : urlDecode e = t := urlDecode_encoded h

/-- A text without `%` is left as it is; in particular `+` is not a space. -/
theorem C42_decode_plain (t : Text) (h : '%' ∉ t) : urlDecode t = t := by
  have hp : ∀ s : Text, '%' ∉ s → (37 : UInt8) ∉ utf8 s := by
    intro s
    induction s with
    | nil => intro _ h; cases h
    | cons c s ih =>
      intro hs hm
      simp only [List.mem_cons, not_or] at hs
      rw [utf8_cons, List.mem_append] at hm
      exact hm.elim (percent_not_mem (Ne.symm hs.1)) (ih hs.2)
  have := percentDecode_plain (hp t h) []
  rw [List.append_nil] at this
  rw [urlDecode, this]
  have : percentDecode [] = [] := rfl
  rw [this, List.append_nil, fromUtf8_utf8]; rfl

/-- What decoding does with any text. The text stands for bytes: `%` with two hexadecimal digits for one
byte, every other character, also a `%` without such digits, for its own bytes. If these bytes are the
UTF-8 encoding of a text, it is the result; otherwise the text stays as it is. -/
theorem C42_decode_any (t : Text) : ∃ bs, Unescaped t bs ∧ (∀ r, utf8 r = bs → urlDecode t = r) ∧
    ((∀ r, utf8 r ≠ bs) → urlDecode t = t) := by
  obtain ⟨bs, h⟩ := unescaped_exists t
  refine ⟨bs, h, ?_, ?_⟩
  · rintro r rfl
    rw [urlDecode, percentDecode_unescaped h, fromUtf8_utf8]; rfl
  · intro hr
    rw [urlDecode, percentDecode_unescaped h]
    cases hf : fromUtf8 bs with
    | none => rfl
    | some r => exact absurd (eq_utf8_of_fromUtf8 hf).symm (hr r)

/-- The bytes a text stands for are determined, so that `C42_decode_any` determines the result. -/
theorem C42_decode_unique (t : Text) (a b : Bytes) (ha : Unescaped t a) (hb : Unescaped t b) : a = b :=
  (percentDecode_unescaped ha).symm.trans (percentDecode_unescaped hb)

example : urlDecode "50%".toList = "50%".toList ∧ urlDecode "%zz%41%4".toList = "%zzA%4".toList ∧
    urlDecode "%ff%41".toList = "%ff%41".toList := by
  refine ⟨?_, ?_, ?_⟩ <;> with_unfolding_all rfl

/-- Names and values survive: a query written for a list of parameters, with any choice of escapes, gives
every name the values it was written with. -/
theorem C42_round_trip (ps : List (Text × Text)) (parts : List Text) (hne : ps ≠ []) (h : EncodedParams ps parts)
    (v : Val) (name : Text) :
    mapGet (queryMap (glue ['&'] parts) [v]) (.str name) = (valuesFor ps name).head?.map .str ∧
    mapGet (queryMap (glue ['&'] parts) [v, .bool true]) (.str name) =
      match valuesFor ps name with
      | [] => none
      | [w] => some (.str w)
      | ws => some (.list (ws.map .str)) := by
  have key : ∃ raw, RawParams parts raw ∧ raw.map (fun p => (urlDecode p.1, urlDecode p.2)) = ps ∧
      (∀ p ∈ parts, '&' ∉ p) ∧ (ps ≠ [] → parts ≠ []) := by
    clear hne
    induction h with
    | nil => exact ⟨[], .nil, rfl, by simp, fun h => absurd rfl h⟩
    | @cons n v en ev ps parts hn hv _ ih =>
      obtain ⟨raw, hr, hm, hc, _⟩ := ih
      refine ⟨(en, ev) :: raw, .cons (.pair (encoded_clean hn).2 (encoded_clean hv).2) hr, ?_, ?_, by simp⟩
      · rw [List.map_cons, hm, urlDecode_encoded hn, urlDecode_encoded hv]
      · intro p hp
        rcases List.mem_cons.mp hp with rfl | hp
        · simp only [List.mem_append, List.mem_cons, not_or]
          exact ⟨(encoded_clean hn).1, by decide, (encoded_clean hv).1⟩
        · exact hc p hp
  obtain ⟨raw, hr, hm, hc, hn⟩ := key
  refine ⟨?_, ?_⟩
  · rw [C42_first parts raw (hn hne) hc hr [v] (by simp), hm]
  · rw [C42_repeats parts raw (hn hne) hc hr v, hm]

/-! ### Examples -/

/-- A query with a repeated name, an escape, a parameter without `=` and an empty value. -/
example : ∃ parts, EncodedParams [("a".toList, "x&".toList), ("b".toList, []), ("a".toList, "z".toList)] parts ∧
    glue ['&'] parts = "a=x%26&b=&a=z".toList := by
  have esc : EscBytes (utf8 ['&']) "%26".toList :=
    .cons (b := 38) (e := "%26".toList) (es := []) (.mk (.inl ⟨by decide, by decide⟩) (.inl ⟨by decide, by decide⟩)) .nil
  have raw : ∀ c : Char, c ≠ '%' → c ≠ '&' → c ≠ '=' → UrlEncoded [c] [c] := fun c h1 h2 h3 => .raw h1 h2 h3 .nil
  exact ⟨_, .cons (raw 'a' (by decide) (by decide) (by decide))
    (.raw (c := 'x') (by decide) (by decide) (by decide) (.esc esc .nil))
    (.cons (raw 'b' (by decide) (by decide) (by decide)) .nil
      (.cons (raw 'a' (by decide) (by decide) (by decide)) (raw 'z' (by decide) (by decide) (by decide)) .nil)), rfl⟩

example : mapGet (queryMap "a=1&b&a=2".toList [.null, .bool true]) (.str "a".toList) =
    some (.list [.str "1".toList, .str "2".toList]) := by with_unfolding_all rfl
example : mapGet (queryMap "a=1&b&a=2".toList [.null]) (.str "a".toList) = some (.str "1".toList) := by
  with_unfolding_all rfl
example : mapGet (queryMap "a=1&b&a=2".toList [.null]) (.str "b".toList) = some (.str []) := by
  with_unfolding_all rfl

/-- A value with `=` in it, as in padded base64, is cut at that `=`. -/
theorem C42_second_equals :
    mapGet (queryMap "token=YWI=&n=1".toList [.null]) (.str "token".toList) = some (.str "YWI".toList) ∧
    mapGet (queryMap "e=a=b".toList [.null]) (.str "e".toList) = some (.str "a".toList) :=
  ⟨by with_unfolding_all rfl, by with_unfolding_all rfl⟩

/-- `+` stays `+`: a form's space is not decoded. -/
theorem C42_plus : mapGet (queryMap "q=a+b".toList [.null]) (.str "q".toList) = some (.str "a+b".toList) := by
  with_unfolding_all rfl

/-- Called as a method the second argument is not seen: `true` has no effect. -/
theorem C42_method :
    mapGet (queryMap "a=1&a=2".toList [.bool true]) (.str "a".toList) = some (.str "1".toList) := by
  with_unfolding_all rfl

/-- The empty query has one parameter, with an empty name and an empty value. -/
theorem C42_empty : queryMap [] [.null] = [(.str [], .str [])] := by with_unfolding_all rfl

end Verif.Props
