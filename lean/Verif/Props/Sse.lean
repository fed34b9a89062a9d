import Verif.Lemmas.SseStream
import Verif.Lemmas.Attributes
/-!
C27, C28, C29: server-sent events.
-/
set_option linter.unusedSimpArgs false
namespace Verif.Props
open Verif Verif.Sse Verif.Spec.Sse

/-- C27. However a body is split into chunks at character boundaries, the events are those of the
body read in one piece. The reader never fails on such chunks. -/
theorem C27_chunks (chunks : List Bytes) (h : ∀ c ∈ chunks, (fromUtf8 c).isSome) :
    readStream {} chunks = readStream {} [chunks.flatten] ∧ (readStream {} chunks).isSome := by
  have : ∃ ts : List Text, chunks = ts.map utf8 := by
    induction chunks with
    | nil => exact ⟨[], rfl⟩
    | cons c cs ih =>
      obtain ⟨ts, hts⟩ := ih (fun c hc => h c (by simp [hc]))
      obtain ⟨t, ht⟩ := Option.isSome_iff_exists.1 (h c (by simp))
      exact ⟨t :: ts, by simp [← hts, eq_utf8_of_fromUtf8 ht]⟩
  obtain ⟨ts, rfl⟩ := this
  have hf : ((ts.map utf8).flatten) = utf8 ts.flatten := (utf8_flatten ts).symm
  have e1 := readStream_texts {} (by rfl) ts
  have e2 := readStream_texts {} (by rfl) [ts.flatten]
  rw [feedAll_eq {} (by rfl)] at e1 e2
  simp only [List.map_cons, List.map_nil, List.flatten_cons, List.flatten_nil, List.append_nil] at e2
  rw [hf, e1, e2]
  refine ⟨rfl, ?_⟩
  rw [parseText_eq]; rfl

/-- The hypothesis of `C27_chunks` on a body cut inside a field, between CR and LF, and before a
two-byte character. -/
example : ∀ c ∈ [utf8 "da".toList, utf8 "ta: x\r".toList, utf8 "\n\r\n".toList, utf8 "é".toList],
    (fromUtf8 c).isSome := by
  intro c hc
  simp only [List.mem_cons, List.not_mem_nil, or_false] at hc
  rcases hc with rfl | rfl | rfl | rfl <;> simp [fromUtf8_utf8]

/-- The restriction to character boundaries is needed: the two bytes of `é` in different chunks make
the reader fail, while the whole body is accepted. -/
theorem C27_split_inside_character :
    ∃ c₁ c₂ : Bytes, readStream {} [c₁, c₂] = none ∧ (readStream {} [c₁ ++ c₂]).isSome := by
  refine ⟨[0xC3], [0xA9], ?_, ?_⟩
  · have h : fromUtf8 [0xC3] = none := by
      cases h : fromUtf8 [0xC3] with
      | none => rfl
      | some t =>
        exfalso
        have := eq_utf8_of_fromUtf8 h
        cases t with
        | nil => simp [utf8] at this
        | cons c cs =>
          simp only [utf8, List.flatMap_cons] at this
          have hl := congrArg List.length this
          have hs := String.length_utf8EncodeChar c
          simp only [List.length_append, List.length_cons, List.length_nil, hs] at hl
          have hp := c.utf8Size_pos
          have h1 : c.utf8Size = 1 := by omega
          rw [String.utf8EncodeChar_eq_singleton h1] at this
          have hv : c.val ≤ 127 := by
            have := Char.utf8Size_eq_one_iff.1 h1
            simpa using this
          have h3 : c.val.toUInt8 = 0xC3 := by
            simp at this
            exact this.1.symm
          have h4 : c.val.toNat ≤ 127 := UInt32.le_iff_toNat_le.1 hv
          have h5 := congrArg UInt8.toNat h3
          rw [UInt32.toNat_toUInt8] at h5
          have h6 : (0xC3 : UInt8).toNat = 195 := by decide
          omega
    simp [readStream, parseBytes, h]
  · have : ([0xC3] ++ [0xA9] : Bytes) = utf8 "é".toList := by decide
    rw [this]
    have := readStream_texts {} (by rfl) ["é".toList]
    simp only [List.map_cons, List.map_nil] at this
    rw [this, feedAll_eq {} (by rfl), parseText_eq]; rfl

/-! ### C28 -/

/-- C28. The events of a text are those the specification gives: split into lines at CRLF, LF or CR,
group into blocks ended by an empty line, interpret the fields of each block. -/
theorem C28_events (text : Text) :
    readStream {} [utf8 text] = some ((Spec.Sse.events text).map toModel) := by
  have := readStream_texts {} (by rfl) [text]
  simp only [List.map_cons, List.map_nil] at this
  rw [this, feedAll_eq {} (by rfl), parseText_eq]
  simp only [List.flatten_cons, List.flatten_nil, List.append_nil, List.nil_append, Option.map_some,
    Option.some.injEq]
  have hb := runLines_build [] (splitLines [] text).1 (by simp)
  show (runLines (build []) (splitLines [] text).1).1 = _
  rw [hb]
  simp only [Spec.Sse.events, List.map_filterMap]
  apply filterMap_ext
  intro blk hblk
  have hm := blocks_mem [] _ blk hblk
  have h0 : ∀ l ∈ blk, l ≠ [] := fun l hl => by
    rcases hm l hl with h | h
    · simp at h
    · exact h.2
  have h1 : ∀ l ∈ blk, ∀ c ∈ l, isAnyChar c = true := fun l hl => by
    rcases hm l hl with h | h
    · simp at h
    · exact splitLines_clean text l h.1
  exact dispatch_eq blk h0 h1

/-- Non-empty data lines are joined as the HTML standard says. -/
theorem C28_standard_data (vs : List Text) (h : ∀ v ∈ vs, v ≠ [] ∧ v.getLast? ≠ some '\n') :
    joinData vs = standardData vs := by
  have hd : vs.dropWhile (· = []) = vs := by
    cases vs with
    | nil => rfl
    | cons v vs => rw [List.dropWhile_cons_of_neg (by simpa using (h v (by simp)).1)]
  simp only [joinData, hd, standardData]
  rw [if_neg]
  intro hl
  induction vs using snoc_ind with
  | nil => simp [List.intercalate, List.intersperse] at hl
  | snoc xs x _ =>
    have hx := h x (by simp)
    by_cases hxs : xs = []
    · subst hxs
      simp [List.intercalate, List.intersperse] at hl
      exact hx.2 hl
    · rw [intercalate_snoc _ _ hxs] at hl
      have : List.getLast? (List.intercalate ['\n'] xs ++ '\n' :: x) = x.getLast? := by
        cases hxe : x with
        | nil => exact absurd hxe hx.1
        | cons c cs =>
          rw [List.getLast?_append]
          simp [List.getLast?_cons]
      rw [this] at hl
      exact hx.2 hl

example : ∀ v ∈ ["{\"a\":".toList, "1}".toList], v ≠ [] ∧ v.getLast? ≠ some '\n' := by decide

/-- Deviation from the HTML standard: leading empty data lines are lost. -/
theorem C28_leading_empty_data_lost :
    (Spec.Sse.events "data\ndata: x\n\n".toList).map (·.data) = ["x".toList] ∧
    standardData (values "data".toList ["data".toList, "data: x".toList]) = "\nx".toList := by
  decide

/-- Deviation from the HTML standard: a trailing empty data line is lost. -/
theorem C28_trailing_empty_data_lost :
    (Spec.Sse.events "data: x\ndata\n\n".toList).map (·.data) = ["x".toList] ∧
    standardData (values "data".toList ["data: x".toList, "data".toList]) = "x\n".toList := by
  decide

/-- A non-trivial text: comment, several fields, two events, unknown field, all three line ends. -/
example : (Spec.Sse.events
    ":c\nevent: a\rdata: 1\r\ndata:2\nfoo: 3\n\nid: 7\nretry: 10\ndata: 4\n\n".toList).map toModel =
    [⟨"a".toList, "1\n2".toList, [], none⟩, ⟨"message".toList, "4".toList, "7".toList, some 10⟩] := by
  decide

/-! ### C29 -/

/-- C29. After any chunks, cut at character boundaries, the event kept by the store action for
extraction is the second to last event of the whole stream; none if there were fewer than two. -/
theorem C29_store (fields : List Text) (chunks : List Bytes)
    (h : ∀ c ∈ chunks, (fromUtf8 c).isSome) :
    ∃ b text, chunks.flatten = utf8 text ∧ feedBody { fields } chunks = some b ∧
      b.beforeLast = secondToLast ((Spec.Sse.events text).map toModel) := by
  obtain ⟨h1, h2⟩ := C27_chunks chunks h
  have ⟨text, ht⟩ : ∃ text, chunks.flatten = utf8 text := by
    clear h1 h2
    induction chunks with
    | nil => exact ⟨[], rfl⟩
    | cons c cs ih =>
      obtain ⟨t, ht⟩ := Option.isSome_iff_exists.1 (h c (by simp))
      obtain ⟨t2, ht2⟩ := ih (fun c hc => h c (by simp [hc]))
      exact ⟨t ++ t2, by simp [utf8_append, ht2, eq_utf8_of_fromUtf8 ht]⟩
  rw [ht, C28_events] at h1
  obtain ⟨b', hb, hr, _⟩ := feedBody_spec { fields } chunks [] rfl rfl rfl _ h1
  exact ⟨b', text, ht, hb, by simpa using hr⟩

/-- C29 for the token-usage task: the document values are read from is the data of the second to last
event of the whole stream. -/
theorem C29_tokens (lib : JsonLib) (chunks : List Bytes) (h : ∀ c ∈ chunks, (fromUtf8 c).isSome) :
    ∃ text, chunks.flatten = utf8 text ∧
      (feedStrategy (.sse {} none none) chunks).doc lib =
        (secondToLast (Spec.Sse.events text)).bind (fun e => lib.parse e.data) := by
  obtain ⟨_, text, ht, _, _⟩ := C29_store [] chunks h
  have h1 := (C27_chunks chunks h).1
  rw [ht, C28_events] at h1
  obtain ⟨p', hp⟩ := feedStrategy_spec {} none none chunks [] _ rfl rfl h1
  refine ⟨text, ht, ?_⟩
  rw [hp]
  simp only [Strategy.doc, List.nil_append, secondToLast, ← List.map_reverse, List.getElem?_map,
    Option.bind_map]
  rfl

theorem feedBody_keeps (chunks : List Bytes) : ∀ (b b' : SseBody), feedBody b chunks = some b' →
    b'.extracted = b.extracted := by
  have hp : ∀ (es : List Sse.Event) (b : SseBody), (es.foldl SseBody.push b).extracted = b.extracted := by
    intro es
    induction es with
    | nil => intro b; rfl
    | cons e es ih => intro b; rw [List.foldl_cons, ih]; rfl
  induction chunks with
  | nil => intro b b' h; simp [feedBody] at h; rw [h]
  | cons c cs ih =>
    intro b b' h
    simp only [feedBody] at h
    cases hf : b.feed c with
    | none => simp [hf] at h
    | some b1 =>
      rw [hf] at h
      rw [ih b1 b' h]
      unfold SseBody.feed at hf
      split at hf
      · cases hf; rfl
      · split at hf
        · simp at hf
        · cases hf; rw [hp]

theorem finalize_fold (lib : JsonLib) (json : Json) (fs : List Text) : ∀ (b : SseBody) (f : Text),
    mapGet (fs.foldl (init := b) fun b field =>
        match lib.pointer json field with
        | none => b
        | some (.str s) => { b with extracted := mapInsert b.extracted field (.str s) }
        | some other => { b with
            extracted := mapInsert b.extracted field (parseJsonScalar lib.parseF64 (lib.render other)) }).extracted f =
      if f ∈ fs ∧ (lib.pointer json f).isSome then
        (lib.pointer json f).map fun
          | .str s => .str s
          | other => parseJsonScalar lib.parseF64 (lib.render other)
      else mapGet b.extracted f := by
  induction fs with
  | nil => intro b f; simp
  | cons g fs ih =>
    intro b f
    rw [List.foldl_cons, ih]
    by_cases hf : f ∈ fs ∧ (lib.pointer json f).isSome
    · rw [if_pos hf, if_pos ⟨List.mem_cons_of_mem _ hf.1, hf.2⟩]
    · rw [if_neg hf]
      by_cases e : f = g
      · subst e
        cases hp : lib.pointer json f with
        | none => simp
        | some j => cases j <;> simp [mapGet_mapInsert]
      · have hne : ¬(f ∈ g :: fs ∧ (lib.pointer json f).isSome) := fun h =>
          hf ⟨(List.mem_cons.1 h.1).resolve_left e, h.2⟩
        rw [if_neg hne]
        split <;> simp [mapGet_mapInsert, e]

/-- C29 for the values the store action uses: they are those of the second to last event of the whole stream, read as
JSON. Without such an event there are none, and if it is not JSON the action fails. -/
theorem C29_values (lib : JsonLib) (fields : List Text) (chunks : List Bytes)
    (h : ∀ c ∈ chunks, (fromUtf8 c).isSome) :
    ∃ text, chunks.flatten = utf8 text ∧
      match secondToLast (Spec.Sse.events text) with
      | none => ∃ b, (feedBody { fields } chunks).bind (SseBody.finalize lib) = some b ∧ ∀ f, mapGet b.extracted f = none
      | some e => match lib.parse e.data with
        | none => (feedBody { fields } chunks).bind (SseBody.finalize lib) = none
        | some json => ∃ b, (feedBody { fields } chunks).bind (SseBody.finalize lib) = some b ∧
            ∀ f ∈ fields, mapGet b.extracted f = (lib.pointer json f).map fun
              | .str s => .str s
              | other => parseJsonScalar lib.parseF64 (lib.render other) := by
  obtain ⟨h1, h2⟩ := C27_chunks chunks h
  obtain ⟨b, text, ht, hb, hl⟩ := C29_store fields chunks h
  refine ⟨text, ht, ?_⟩
  rw [ht, C28_events] at h1
  obtain ⟨b', hb', -, -, -, hfields⟩ := feedBody_spec { fields } chunks [] rfl rfl rfl _ h1
  rw [hb] at hb'
  cases hb'
  have hx := feedBody_keeps chunks { fields } b hb
  have hmap : secondToLast ((Spec.Sse.events text).map toModel) =
      (secondToLast (Spec.Sse.events text)).map toModel := by
    simp [secondToLast, ← List.map_reverse]
  rw [hmap] at hl
  rw [hb]
  cases he : secondToLast (Spec.Sse.events text) with
  | none =>
    rw [he] at hl
    refine ⟨{ b with complete := true }, ?_, fun f => ?_⟩
    · simp only [Option.bind_some, SseBody.finalize]
      rw [hl]; rfl
    · show mapGet b.extracted f = none
      rw [hx]; rfl
  | some e =>
    rw [he] at hl
    have hd : (toModel e).data = e.data := rfl
    simp only [Option.map_some] at hl
    cases hj : lib.parse e.data with
    | none =>
      simp only [hj, Option.bind_some, SseBody.finalize]
      rw [hl]; simp only [hd, hj]
    | some json =>
      simp only [hj, Option.bind_some, SseBody.finalize]
      rw [hl]; simp only [hd, hj]
      refine ⟨_, rfl, fun f hf => ?_⟩
      refine (finalize_fold lib json _ _ f).trans ?_
      dsimp only
      rw [hfields, hx]
      cases hp : lib.pointer json f with
      | none => simp [mapGet]
      | some j => rw [if_pos ⟨hf, rfl⟩]

example : secondToLast [1, 2, 3] = some 2 ∧ secondToLast [1] = none := by decide

end Verif.Props
