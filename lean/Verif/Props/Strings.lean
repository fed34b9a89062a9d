import Verif.Lemmas.Strings
/-!
C43: the string functions the filter adds to CEL.
-/
set_option linter.unusedSimpArgs false
namespace Verif.Props
open Spec

/-- Positions and counts that fit `usize` of the filter's 32-bit target. -/
def Fits (i : Int) : Prop := 0 ≤ i ∧ i < 4294967296

private theorem usize_fits {n : Nat} (h : Fits n) : usizeOf n = n := by
  rw [usizeOf_small h.1 h.2]; rfl

/-! ### charAt and substring -/

/-- `charAt` gives the character at a position, counted in characters. -/
theorem C43_charAt (pre post : Text) (c : Char) (h : Fits pre.length) :
    charAt (pre ++ c :: post) pre.length = .ok (.str [c]) := by
  simp [charAt, usize_fits h]

/-- A position at or beyond the end is an error. -/
theorem C43_charAt_beyond (t : Text) (i : Int) (h : Fits i) (hl : t.length ≤ i) : charAt t i = .error := by
  have : usizeOf i = i.toNat := usizeOf_small h.1 h.2
  have hn : t[i.toNat]? = none := by
    rw [List.getElem?_eq_none_iff]; omega
  simp [charAt, this, hn]

/-- `substring` gives the characters between two positions, counted in characters. -/
theorem C43_substring (pre r post : Text) (h : Fits (pre.length + r.length)) :
    substringFn (pre ++ r ++ post) [.int pre.length, .int (pre.length + r.length)] = .ok (.str r) := by
  have h1 : usizeOf pre.length = pre.length := usize_fits ⟨by omega, by have := h.2; omega⟩
  have h2 : usizeOf (pre.length + r.length) = pre.length + r.length := by
    rw [usizeOf_small h.1 h.2]; omega
  simp only [substringFn, indexArg, charsBetween, h1, h2]
  rw [if_neg (by omega), List.append_assoc, List.drop_left, Nat.add_sub_cancel_left, List.take_left]

/-- Without an end `substring` goes to the end of the text. -/
theorem C43_substring_tail (pre r : Text) (h : Fits pre.length) :
    substringFn (pre ++ r) [.int pre.length] = .ok (.str r) := by
  simp only [substringFn, indexArg, charsBetween, usize_fits h]
  rw [if_neg (by simp), List.drop_left, List.take_of_length_le (by simp)]

/-- An end in front of the start is an error. -/
theorem C43_substring_order (t : Text) (i j : Int) (hi : Fits i) (hj : Fits j) (h : j < i) :
    substringFn t [.int i, .int j] = .error := by
  simp only [substringFn, indexArg, charsBetween, usizeOf_small hi.1 hi.2, usizeOf_small hj.1 hj.2]
  rw [if_pos (by have := hi.1; have := hj.1; omega)]

/-- An end beyond the end of the text is no error: the text is simply cut there. -/
theorem C43_substring_beyond (pre r : Text) (j : Int) (hj : Fits j) (h : (pre.length + r.length : Int) ≤ j) :
    substringFn (pre ++ r) [.int pre.length, .int j] = .ok (.str r) := by
  have := hj.2
  simp only [substringFn, indexArg, charsBetween, usize_fits (n := pre.length) ⟨by omega, by omega⟩,
    usizeOf_small hj.1 hj.2]
  rw [if_neg (by omega), List.drop_left, List.take_of_length_le (by omega)]

/-! ### split, join and replace -/

/-- `split` cuts a text at the occurrences of a separator, from left to right, and these pieces are the
only ones described by `Pieces`. The bound is more than a text of this length can have. -/
theorem C43_split (t sep : Text) (h : sep ≠ []) (l : List Text) :
    splitFn t [.str sep] = .ok (.list (l.map .str)) ↔ Pieces sep (t.length + 1) t l := by
  have hp := pieces_spec h (t.length + 1) t
  constructor
  · intro he
    simp only [splitFn, splitText, FnRes.ok.injEq, Val.list.injEq] at he
    rwa [(List.map_inj_right (by simp)).mp he] at hp
  · intro hl
    rw [splitFn, splitText, hp.unique hl]

/-- With a limit `split` makes at most that many pieces, the last one holding the rest of the text. -/
theorem C43_split_limit (t sep : Text) (h : sep ≠ []) (n : Nat) (hn : Fits (n + 1)) (l : List Text) :
    splitFn t [.str sep, .int (n + 1)] = .ok (.list (l.map .str)) ↔ Pieces sep n t l := by
  have hu : usizeOf (n + 1) = n + 1 := usize_fits (n := n + 1) hn
  have hp := pieces_spec h n t
  constructor
  · intro he
    simp only [splitFn, indexArg, hu, splitnText, FnRes.ok.injEq, Val.list.injEq] at he
    rwa [(List.map_inj_right (by simp)).mp he] at hp
  · intro hl
    simp only [splitFn, indexArg, hu, splitnText, hp.unique hl]

/-- A limit of zero gives no piece at all, whatever the text. -/
theorem C43_split_zero (t sep : Text) : splitFn t [.str sep, .int 0] = .ok (.list []) := by
  have hu : usizeOf 0 = 0 := rfl
  simp [splitFn, indexArg, hu, splitnText]

/-- An empty separator gives the characters, with an empty text in front and one at the end. -/
theorem C43_split_chars (t : Text) :
    splitFn t [.str []] = .ok (.list ((([] : Text) :: t.map (fun c => [c]) ++ [[]]).map .str)) := by
  have hc : splitText t [] = [] :: (t.map (fun c => [c]) ++ [[]]) := by
    change [] :: cutChars t.length t = _
    cases t with
    | nil => rfl
    | cons c t => rw [cutChars_eq _ (Nat.le_refl _) (by simp)]
  rw [splitFn, hc]; rfl

/-- `join` puts a list of texts together, with the separator between them. -/
theorem C43_join (l : List Text) (sep : Text) :
    joinFn (l.map .str) [.str sep] = .ok (.str (glue sep l)) := by
  have ht : textsOf (l.map .str) = some l := by
    induction l with
    | nil => rfl
    | cons t l ih => simp [textsOf, ih]
  rw [joinFn, ht, glue_eq]; rfl

/-- Without a separator the texts are put together directly. -/
theorem C43_join_plain (l : List Text) : joinFn (l.map .str) [] = .ok (.str l.flatten) := by
  have ht : textsOf (l.map .str) = some l := by
    induction l with
    | nil => rfl
    | cons t l ih => simp [textsOf, ih]
  have hf : joinWith [] l = l.flatten := by
    clear ht
    induction l with
    | nil => rfl
    | cons t l ih =>
      cases l with
      | nil => simp [joinWith]
      | cons u l => rw [joinWith_cons (by simp), ih]; simp
  rw [joinFn, ht]; simp [hf]

/-- A list with an element that is not a text cannot be joined. -/
theorem C43_join_error (l : List Val) (v : Val) (hv : v ∈ l) (hn : ∀ t, v ≠ .str t) (args : List Val) :
    joinFn l args = .error := by
  have ht : textsOf l = none := by
    induction l with
    | nil => cases hv
    | cons w l ih =>
      rcases List.mem_cons.mp hv with rfl | hv'
      · cases v <;> first | rfl | exact absurd rfl (hn _)
      · cases w <;> simp [textsOf, ih hv']
  cases args with
  | nil => rw [joinFn, ht]; rfl
  | cons a args => cases a <;> simp [joinFn, ht]

/-- Joining the pieces of a text with the separator gives the text back, for every text and separator. -/
theorem C43_join_split (t sep : Text) :
    ∃ l : List Val, splitFn t [.str sep] = .ok (.list l) ∧ joinFn l [.str sep] = .ok (.str t) := by
  refine ⟨(splitText t sep).map .str, rfl, ?_⟩
  rw [C43_join, glue_eq, splitText, joinWith_pieces]

/-- Splitting joined texts gives the texts back when none of them contains the separating character. -/
theorem C43_split_join (l : List Text) (c : Char) (hne : l ≠ []) (h : ∀ t ∈ l, c ∉ t) :
    splitFn (glue [c] l) [.str [c]] = .ok (.list (l.map .str)) := by
  rw [glue_eq, splitFn, splitText_join hne h]

/-- `replace` replaces the occurrences of a text, from left to right. -/
theorem C43_replace (t sub new : Text) (h : sub ≠ []) (r : Text) :
    replaceFn t [.str sub, .str new] = .ok (.str r) ↔ ReplacedIn sub new (t.length + 1) t r := by
  have hp := (pieces_spec h (t.length + 1) t).replaced (new := new)
  constructor
  · intro he
    simp only [replaceFn, replaceText, replacenText, FnRes.ok.injEq, Val.str.injEq] at he
    rwa [he] at hp
  · intro hr
    rw [replaceFn, replaceText, replacenText, hp.unique hr]

/-- With a count `replace` replaces that many occurrences. -/
theorem C43_replace_count (t sub new : Text) (h : sub ≠ []) (n : Nat) (hn : Fits n) (r : Text) :
    replaceFn t [.str sub, .str new, .int n] = .ok (.str r) ↔ ReplacedIn sub new n t r := by
  have hp := (pieces_spec h n t).replaced (new := new)
  constructor
  · intro he
    simp only [replaceFn, indexArg, usize_fits hn, replacenText, FnRes.ok.injEq, Val.str.injEq] at he
    rwa [he] at hp
  · intro hr
    simp only [replaceFn, indexArg, usize_fits hn, replacenText, hp.unique hr]

/-- Replacing the empty text puts the new text in front of every character and at the end. -/
theorem C43_replace_empty (t new : Text) :
    replaceFn t [.str [], .str new] = .ok (.str (new ++ t.flatMap fun c => c :: new)) := by
  have hc : ∀ (s : Text) (n : Nat), s.length < n → joinWith new (cutChars n s) = s.flatMap (fun c => c :: new) := by
    intro s
    induction s with
    | nil => intro n hn; obtain ⟨n, rfl⟩ : ∃ k, n = k + 1 := ⟨n - 1, by omega⟩; rfl
    | cons c s ih =>
      intro n hn
      obtain ⟨n, rfl⟩ : ∃ k, n = k + 1 := ⟨n - 1, by omega⟩
      simp only [List.length_cons] at hn
      have : cutChars n s ≠ [] := by cases n <;> cases s <;> simp [cutChars]
      rw [cutChars, joinWith_cons this, ih n (by omega)]; simp
  have hc' : joinWith new (cutChars t.length t) = t.flatMap (fun c => c :: new) := by
    cases t with
    | nil => rfl
    | cons c t =>
      rw [cutChars_eq _ (Nat.le_refl _) (by simp), ← hc (c :: t) ((c :: t).length + 1) (by simp),
        cutChars_eq _ (by simp) (by simp)]
  have hne : cutChars t.length t ≠ [] := by cases t <;> simp [cutChars]
  change FnRes.ok (.str (joinWith new ([] :: cutChars t.length t))) = _
  rw [joinWith_cons hne, hc']; simp

/-! ### trim and the case functions -/

/-- `trim` removes exactly the spaces at both ends. -/
theorem C43_trim (t : Text) : ∃ a r b, t = a ++ r ++ b ∧ trimFn t = .ok (.str r) ∧ (∀ c ∈ a, White c) ∧
    (∀ c ∈ b, White c) ∧ (∀ c ∈ r.head?, ¬ White c) ∧ (∀ c ∈ r.getLast?, ¬ White c) := by
  have hdrop : ∀ s : Text, ∃ a, s = a ++ s.dropWhile isSpace ∧ (∀ c ∈ a, White c) ∧
      ∀ c ∈ (s.dropWhile isSpace).head?, ¬ White c := by
    intro s
    refine ⟨s.takeWhile isSpace, List.takeWhile_append_dropWhile.symm, ?_, ?_⟩
    · intro c hc
      have := List.all_takeWhile (p := isSpace) (l := s)
      rw [List.all_eq_true] at this
      exact isSpace_iff.mp (this c hc)
    · intro c hc hw
      have := List.head?_dropWhile_not isSpace s
      rw [hc] at this
      simp only at this
      rw [isSpace_iff.mpr hw] at this
      exact absurd this (by simp)
  obtain ⟨a, ha, hwa, hha⟩ := hdrop t
  obtain ⟨b, hb, hwb, hhb⟩ := hdrop (t.dropWhile isSpace).reverse
  refine ⟨a, trimText t, b.reverse, ?_, rfl, hwa, by simpa using hwb, ?_, ?_⟩
  · rw [List.append_assoc]
    refine ha.trans (congrArg (a ++ ·) ?_)
    rw [trimText, ← List.reverse_append, ← hb, List.reverse_reverse]
  · intro c hc
    refine hha c ?_
    have hr : t.dropWhile isSpace = trimText t ++ b.reverse := by
      rw [trimText, ← List.reverse_append, ← hb, List.reverse_reverse]
    rw [hr]
    cases hx : trimText t with
    | nil => rw [hx] at hc; simp at hc
    | cons d x => rw [hx] at hc; simpa using hc
  · intro c hc
    refine hhb c ?_
    rw [trimText, List.getLast?_reverse] at hc
    exact hc

/-- These conditions leave one text only, the one `trim` gives. -/
theorem C43_trim_unique (a r b a' r' b' : Text) (h : a ++ r ++ b = a' ++ r' ++ b')
    (ha : ∀ c ∈ a, White c) (hb : ∀ c ∈ b, White c) (hr : ∀ c ∈ r.head?, ¬ White c)
    (hr2 : ∀ c ∈ r.getLast?, ¬ White c) (ha' : ∀ c ∈ a', White c) (hb' : ∀ c ∈ b', White c)
    (hr' : ∀ c ∈ r'.head?, ¬ White c) (hr2' : ∀ c ∈ r'.getLast?, ¬ White c) : r = r' := by
  have hfront : ∀ (s u : Text), (∀ c ∈ s, isSpace c = true) → (s ++ u).dropWhile isSpace = u.dropWhile isSpace := by
    intro s u hs
    induction s with
    | nil => rfl
    | cons c s ih =>
      rw [List.cons_append, List.dropWhile_cons_of_pos (hs c (by simp))]
      exact ih fun d hd => hs d (by simp [hd])
  have hkeep : ∀ (u : Text), (∀ c ∈ u.head?, ¬ White c) → u.dropWhile isSpace = u := by
    intro u hu
    cases u with
    | nil => rfl
    | cons c u =>
      rw [List.dropWhile_cons_of_neg]
      intro hc
      exact hu c rfl (isSpace_iff.mp hc)
  have hall : ∀ (s : Text), (∀ c ∈ s, isSpace c = true) → s.dropWhile isSpace = [] := by
    intro s hs
    have := hfront s [] hs
    simpa using this
  have key : ∀ (a r b : Text), (∀ c ∈ a, White c) → (∀ c ∈ b, White c) → (∀ c ∈ r.head?, ¬ White c) →
      (∀ c ∈ r.getLast?, ¬ White c) → trimText (a ++ r ++ b) = r := by
    intro a r b ha hb hr hr2
    rw [trimText, List.append_assoc, hfront a _ fun c hc => isSpace_iff.mpr (ha c hc)]
    cases r with
    | nil =>
      rw [List.nil_append, hall b fun c hc => isSpace_iff.mpr (hb c hc)]; rfl
    | cons c r =>
      rw [hkeep (c :: r ++ b) (by simpa using hr), List.reverse_append,
        hfront b.reverse _ (fun d hd => isSpace_iff.mpr (hb d (by simpa using hd))),
        hkeep _ (by rw [List.head?_reverse]; exact hr2), List.reverse_reverse]
  rw [← key a r b ha hb hr hr2, h, key a' r' b' ha' hb' hr' hr2']

private theorem lower_char (c : Char) :
    (if 'A' ≤ c ∧ c ≤ 'Z' then Char.ofNat (c.toNat + 32) else c) = small c := by
  split
  · rename_i h
    have h1 : 65 ≤ c.toNat := h.1
    have h2 : c.toNat ≤ 90 := h.2
    have hc : ∀ n, 65 ≤ n → n ≤ 90 → Char.ofNat (n + 32) = small (Char.ofNat n) := by
      intro n h1 h2
      have : ∀ m, m < 26 → Char.ofNat (65 + m + 32) = small (Char.ofNat (65 + m)) := by decide +kernel
      have := this (n - 65) (by omega)
      rwa [show 65 + (n - 65) = n by omega] at this
    have := hc c.toNat h1 h2
    rwa [Char.ofNat_toNat] at this
  · rename_i h
    have hn : letters.find? (fun p => p.1 == c) = none := by
      rw [List.find?_eq_none]
      intro p hp he
      apply h
      rw [← eq_of_beq he]
      have ha : ∀ p ∈ letters, 'A' ≤ p.1 ∧ p.1 ≤ 'Z' := by decide +kernel
      exact ha p hp
    rw [small, hn]; rfl

private theorem upper_char (c : Char) :
    (if 'a' ≤ c ∧ c ≤ 'z' then Char.ofNat (c.toNat - 32) else c) = capital c := by
  split
  · rename_i h
    have h1 : 97 ≤ c.toNat := h.1
    have h2 : c.toNat ≤ 122 := h.2
    have hc : ∀ n, 97 ≤ n → n ≤ 122 → Char.ofNat (n - 32) = capital (Char.ofNat n) := by
      intro n h1 h2
      have : ∀ m, m < 26 → Char.ofNat (97 + m - 32) = capital (Char.ofNat (97 + m)) := by decide +kernel
      have := this (n - 97) (by omega)
      rwa [show 97 + (n - 97) = n by omega] at this
    have := hc c.toNat h1 h2
    rwa [Char.ofNat_toNat] at this
  · rename_i h
    have hn : letters.find? (fun p => p.2 == c) = none := by
      rw [List.find?_eq_none]
      intro p hp he
      apply h
      rw [← eq_of_beq he]
      have ha : ∀ p ∈ letters, 'a' ≤ p.2 ∧ p.2 ≤ 'z' := by decide +kernel
      exact ha p hp
    rw [capital, hn]; rfl

/-- `lowerAscii` replaces the capital letters of ASCII and nothing else. -/
theorem C43_lower (t : Text) : lowerAscii t = .ok (.str (t.map small)) := by
  rw [lowerAscii, asciiLower]
  exact congrArg (fun f => FnRes.ok (.str (t.map f))) (funext lower_char)

/-- `upperAscii` replaces the small letters of ASCII and nothing else. -/
theorem C43_upper (t : Text) : upperAscii t = .ok (.str (t.map capital)) := by
  rw [upperAscii, asciiUpper]
  exact congrArg (fun f => FnRes.ok (.str (t.map f))) (funext upper_char)

/-! ### indexOf and lastIndexOf -/

/-- `indexOf` finds the first occurrence; it gives the number of bytes in front of it. -/
theorem C43_indexOf (t sub : Text) (n : Nat) :
    indexOf t [.str sub] = .ok (.uint n) ↔ ∃ pre post, FirstOcc sub t pre post ∧ n = bytesOf pre := by
  constructor
  · intro h
    simp only [indexOf] at h
    cases hf : findText sub t with
    | none => rw [hf] at h; cases h
    | some k =>
      obtain ⟨pre, post, ho, hl⟩ := findText_some hf
      rw [hf] at h
      subst hl
      simp only [offsetVal, take_of_occ ho.occurs, FnRes.ok.injEq, Val.uint.injEq, Nat.zero_add] at h
      exact ⟨pre, post, ho, h.symm⟩
  · rintro ⟨pre, post, ho, rfl⟩
    simp only [indexOf, findText_eq ho, offsetVal, take_of_occ ho.occurs, Nat.zero_add]
    rfl

/-- `indexOf` gives -1 exactly when there is no occurrence. -/
theorem C43_indexOf_none (t sub : Text) : indexOf t [.str sub] = .ok (.int (-1)) ↔ ¬ sub <:+: t := by
  rw [← findText_none_iff, indexOf]
  cases findText sub t <;> simp [offsetVal]

/-- With an offset in bytes that is the beginning of a character, `indexOf` finds the first occurrence
from there on. -/
theorem C43_indexOf_from (front t sub : Text) (ht : t ≠ []) (h : Fits (bytesOf front)) (n : Nat) :
    indexOf (front ++ t) [.str sub, .int (bytesOf front)] = .ok (.uint n) ↔
      ∃ pre post, FirstOcc sub t pre post ∧ n = bytesOf (front ++ pre) := by
  have hb : bytesOf front = byteLen front := rfl
  have hlt : ¬ byteLen (front ++ t) ≤ byteLen front := by
    cases t with
    | nil => exact absurd rfl ht
    | cons c t =>
      have := byteLen_append front (c :: t)
      have := byteLen_append [c] t
      have := byteLen_pos c
      simp at *; omega
  simp only [indexOf, indexArg, usize_fits h]
  rw [hb, if_neg hlt, dropBytes_append]
  simp only
  constructor
  · intro h
    cases hf : findText sub t with
    | none => rw [hf] at h; cases h
    | some k =>
      obtain ⟨pre, post, ho, hl⟩ := findText_some hf
      rw [hf] at h
      subst hl
      simp only [offsetVal, take_of_occ ho.occurs, FnRes.ok.injEq, Val.uint.injEq] at h
      exact ⟨pre, post, ho, h.symm.trans (byteLen_append front pre).symm⟩
  · rintro ⟨pre, post, ho, rfl⟩
    simp only [findText_eq ho, offsetVal, take_of_occ ho.occurs]
    rw [← byteLen_append]; rfl

/-- `lastIndexOf` finds the last occurrence; it gives the number of bytes in front of it. -/
theorem C43_lastIndexOf (t sub : Text) (n : Nat) :
    lastIndexOf t [.str sub] = .ok (.uint n) ↔ ∃ pre post, LastOcc sub t pre post ∧ n = bytesOf pre := by
  constructor
  · intro h
    simp only [lastIndexOf] at h
    cases hf : rfindText sub t with
    | none => rw [hf] at h; cases h
    | some k =>
      obtain ⟨pre, post, ho, hl⟩ := rfindText_some hf
      rw [hf] at h
      subst hl
      simp only [offsetVal, take_of_occ ho.occurs, FnRes.ok.injEq, Val.uint.injEq, Nat.zero_add] at h
      exact ⟨pre, post, ho, h.symm⟩
  · rintro ⟨pre, post, ho, rfl⟩
    simp only [lastIndexOf, rfindText_eq ho, offsetVal, take_of_occ ho.occurs, Nat.zero_add]
    rfl

/-- `lastIndexOf` gives -1 exactly when there is no occurrence. -/
theorem C43_lastIndexOf_none (t sub : Text) : lastIndexOf t [.str sub] = .ok (.int (-1)) ↔ ¬ sub <:+: t := by
  rw [← rfindText_none_iff, lastIndexOf]
  cases rfindText sub t <;> simp [offsetVal]

/-- With an offset `lastIndexOf` gives the bytes between the offset and the last occurrence, not the
position in the text. -/
theorem C43_lastIndexOf_from (front t sub : Text) (ht : t ≠ []) (h : Fits (bytesOf front)) (n : Nat) :
    lastIndexOf (front ++ t) [.str sub, .int (bytesOf front)] = .ok (.uint n) ↔
      ∃ pre post, LastOcc sub t pre post ∧ n = bytesOf pre := by
  have hb : bytesOf front = byteLen front := rfl
  have hlt : ¬ byteLen (front ++ t) ≤ byteLen front := by
    cases t with
    | nil => exact absurd rfl ht
    | cons c t =>
      have := byteLen_append front (c :: t)
      have := byteLen_append [c] t
      have := byteLen_pos c
      simp at *; omega
  simp only [lastIndexOf, indexArg, usize_fits h]
  rw [hb, if_neg hlt, dropBytes_append]
  simp only
  constructor
  · intro h
    cases hf : rfindText sub t with
    | none => rw [hf] at h; cases h
    | some k =>
      obtain ⟨pre, post, ho, hl⟩ := rfindText_some hf
      rw [hf] at h
      subst hl
      simp only [offsetVal, take_of_occ ho.occurs, FnRes.ok.injEq, Val.uint.injEq, Nat.zero_add] at h
      exact ⟨pre, post, ho, h.symm⟩
  · rintro ⟨pre, post, ho, rfl⟩
    simp only [rfindText_eq ho, offsetVal, take_of_occ ho.occurs, Nat.zero_add]
    rfl

/-- An offset in bytes that is inside a character makes both functions panic. -/
theorem C43_offset_panics (t sub : Text) (n : Nat) (hf : Fits n) (hl : n < bytesOf t)
    (h : ∀ front rest, t = front ++ rest → bytesOf front ≠ n) :
    indexOf t [.str sub, .int n] = .panic ∧ lastIndexOf t [.str sub, .int n] = .panic := by
  have hn : dropBytes n t = none := by
    cases hd : dropBytes n t with
    | none => rfl
    | some rest =>
      obtain ⟨s, hs, hb⟩ := dropBytes_some hd
      exact absurd hb (h s rest hs)
  have hb : bytesOf t = byteLen t := rfl
  simp only [indexOf, lastIndexOf, indexArg, usize_fits hf]
  rw [if_neg (by omega), if_neg (by omega), hn]
  exact ⟨rfl, rfl⟩

/-- No other function panics, and these two do so with a second argument only. -/
theorem C43_no_panic (t : Text) (i : Int) (args l : List Val) (sub : Text) :
    charAt t i ≠ .panic ∧ substringFn t args ≠ .panic ∧ splitFn t args ≠ .panic ∧ replaceFn t args ≠ .panic ∧
    joinFn l args ≠ .panic ∧ trimFn t ≠ .panic ∧ lowerAscii t ≠ .panic ∧ upperAscii t ≠ .panic ∧
    indexOf t [.str sub] ≠ .panic ∧ lastIndexOf t [.str sub] ≠ .panic := by
  refine ⟨?_, ?_, ?_, ?_, ?_, nofun, nofun, nofun, ?_, ?_⟩
  · rw [charAt]; split <;> nofun
  · unfold substringFn
    repeat' split
    all_goals first | (rw [charsBetween]; split <;> nofun) | nofun
  · unfold splitFn; repeat' split
    all_goals nofun
  · unfold replaceFn; repeat' split
    all_goals nofun
  · unfold joinFn
    split
    · cases textsOf l <;> nofun
    · cases textsOf l <;> nofun
    · nofun
  · rw [indexOf]; cases findText sub t <;> nofun
  · rw [lastIndexOf]; cases rfindText sub t <;> nofun

/-! ### Examples, and where the functions differ from what their names promise -/

example : Fits ("añb".toList.length + "cd".toList.length) := ⟨by decide, by decide⟩
example : substringFn "añbcd".toList [.int 1, .int 3] = .ok (.str "ñb".toList) := by with_unfolding_all rfl
example : splitFn "a,,b,".toList [.str ",".toList] =
    .ok (.list [.str "a".toList, .str [], .str "b".toList, .str []]) := by with_unfolding_all rfl
example : splitFn "a,b,c".toList [.str ",".toList, .int 2] =
    .ok (.list [.str "a".toList, .str "b,c".toList]) := by with_unfolding_all rfl
example : replaceFn "aaa".toList [.str "aa".toList, .str "b".toList] = .ok (.str "ba".toList) := by
  with_unfolding_all rfl
example : trimFn "\t a b\n".toList = .ok (.str "a b".toList) := by with_unfolding_all rfl
example : lowerAscii "ÀB-c".toList = .ok (.str "Àb-c".toList) := by with_unfolding_all rfl
example : FirstOcc "b".toList "abab".toList "a".toList "ab".toList :=
  ⟨by decide, fun pre' _ h => by cases pre' with
    | nil => cases h
    | cons => simp⟩
example : ∀ front rest, "é=".toList = front ++ rest → bytesOf front ≠ 1 := by
  intro front rest h
  rcases front with _ | ⟨c, front⟩
  · decide +kernel
  · have hc : c = 'é' := by simpa using (congrArg List.head? h).symm
    subst hc
    have : bytesOf ('é' :: front) = 2 + bytesOf front := by simp [bytesOf, utf8]; decide +kernel
    omega

/-- `indexOf` counts bytes but `charAt` and `substring` count characters: the position found is not that
of the text searched for when a character outside ASCII stands in front of it. -/
theorem C43_offsets_differ :
    indexOf "é=x".toList [.str "=".toList] = .ok (.uint 2) ∧ charAt "é=x".toList 2 = .ok (.str "x".toList) ∧
    charAt "é=x".toList 1 = .ok (.str "=".toList) :=
  ⟨by with_unfolding_all rfl, by with_unfolding_all rfl, by with_unfolding_all rfl⟩

/-- On ASCII texts bytes and characters are the same. -/
theorem C43_ascii (t : Text) (h : ∀ c ∈ t, c.toNat < 128) : bytesOf t = t.length := by
  induction t with
  | nil => rfl
  | cons c t ih =>
    have h1 : (utf8 [c]).length = 1 := by
      have : c.val ≤ 127 := UInt32.le_iff_toNat_le.mpr (Nat.le_of_lt_succ (h c (by simp)))
      simp [utf8, Char.utf8Size, this]
    have h2 : bytesOf (c :: t) = (utf8 [c]).length + bytesOf t := byteLen_append [c] t
    rw [h2, h1, ih fun d hd => h d (by simp [hd])]; simp; omega

/-- `lastIndexOf` with an offset: the last `c` of `abcabc` is at 5, the answer from 3 on is 2. -/
theorem C43_last_relative :
    lastIndexOf "abcabc".toList [.str "c".toList] = .ok (.uint 5) ∧
    lastIndexOf "abcabc".toList [.str "c".toList, .int 3] = .ok (.uint 2) :=
  ⟨by with_unfolding_all rfl, by with_unfolding_all rfl⟩

/-- Numbers are taken modulo 2^32: a negative position is a huge one and a huge one can be a small one. -/
theorem C43_wraps :
    charAt "abc".toList 4294967296 = .ok (.str "a".toList) ∧
    substringFn "abc".toList [.int 0, .int (-1)] = .ok (.str "abc".toList) ∧
    splitFn "a,b".toList [.str ",".toList, .int (-1)] = .ok (.list [.str "a".toList, .str "b".toList]) ∧
    replaceFn "aa".toList [.str "a".toList, .str "b".toList, .int (-1)] = .ok (.str "bb".toList) := by
  refine ⟨by with_unfolding_all rfl, by with_unfolding_all rfl, ?_, ?_⟩
  · have hu : usizeOf (-1) = 4294967294 + 1 := by decide
    have hp : pieces ",".toList 4294967294 "a,b".toList = ["a".toList, "b".toList] :=
      (pieces_spec (by decide) _ _).unique
        ((show Pieces _ 4 _ _ from pieces_spec (sep := ",".toList) (by decide) 4 "a,b".toList).enough (by decide)
          (by decide) (by decide))
    simp only [splitFn, indexArg, hu, splitnText, hp]; rfl
  · have hu : usizeOf (-1) = 4294967295 := by decide
    have hp : pieces "a".toList 4294967295 "aa".toList = [[], [], []] :=
      (pieces_spec (by decide) _ _).unique
        ((show Pieces _ 4 _ _ from pieces_spec (sep := "a".toList) (by decide) 4 "aa".toList).enough (by decide)
          (by decide) (by decide))
    simp only [replaceFn, indexArg, hu, replacenText, hp]; rfl

end Verif.Props
