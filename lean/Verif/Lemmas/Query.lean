import Verif.Model.Query
import Verif.Lemmas.Strings
import Verif.Lemmas.Attributes
import Verif.Lemmas.Basic
/-!
Facts about percent-decoding and the query decoder.
-/
namespace Verif
open Spec

theorem percentDecode_cons {c : UInt8} (h : c ≠ 37) (bs : Bytes) :
    percentDecode (c :: bs) = c :: percentDecode bs := by
  cases bs with
  | nil => rfl
  | cons a bs =>
    cases bs with
    | nil => rfl
    | cons b bs => rw [percentDecode, if_neg h]

theorem percentDecode_plain {l : Bytes} (h : (37 : UInt8) ∉ l) (bs : Bytes) :
    percentDecode (l ++ bs) = l ++ percentDecode bs := by
  induction l with
  | nil => rfl
  | cons c l ih =>
    simp only [List.mem_cons, not_or] at h
    rw [List.cons_append, percentDecode_cons (Ne.symm h.1), ih h.2]; rfl

theorem ofNat_ne {n : Nat} (h : n < 256) (hn : n ≠ 37) : UInt8.ofNat n ≠ 37 := by
  intro he
  have := congrArg UInt8.toNat he
  simp only [UInt8.toNat_ofNat'] at this
  rw [Nat.mod_eq_of_lt (by simpa using h)] at this
  exact hn this

theorem percent_not_mem {c : Char} (h : c ≠ '%') : (37 : UInt8) ∉ String.utf8EncodeChar c := by
  have hv : c.val.toNat ≠ 37 := fun he => h (Char.ext (UInt32.toNat_inj.mp he))
  unfold String.utf8EncodeChar
  simp only
  intro hm
  split at hm
  · exact ofNat_ne (by omega) hv (List.mem_singleton.mp hm).symm
  · split at hm
    · rcases List.mem_cons.mp hm with hm | hm
      · exact ofNat_ne (by omega) (by omega) hm.symm
      · exact ofNat_ne (by omega) (by omega) (List.mem_singleton.mp hm).symm
    · split at hm
      · rcases List.mem_cons.mp hm with hm | hm
        · exact ofNat_ne (by omega) (by omega) hm.symm
        · rcases List.mem_cons.mp hm with hm | hm
          · exact ofNat_ne (by omega) (by omega) hm.symm
          · exact ofNat_ne (by omega) (by omega) (List.mem_singleton.mp hm).symm
      · rcases List.mem_cons.mp hm with hm | hm
        · exact ofNat_ne (by omega) (by omega) hm.symm
        · rcases List.mem_cons.mp hm with hm | hm
          · exact ofNat_ne (by omega) (by omega) hm.symm
          · rcases List.mem_cons.mp hm with hm | hm
            · exact ofNat_ne (by omega) (by omega) hm.symm
            · exact ofNat_ne (by omega) (by omega) (List.mem_singleton.mp hm).symm

theorem utf8_cons (c : Char) (t : Text) : utf8 (c :: t) = String.utf8EncodeChar c ++ utf8 t := rfl

theorem hex_char {c : Char} {n : Nat} (h : IsHex c n) :
    String.utf8EncodeChar c = [UInt8.ofNat c.toNat] ∧ hexDigit (UInt8.ofNat c.toNat) = some (UInt8.ofNat n) := by
  have hn : n < 16 := by rcases h with h | h <;> omega
  have hc : c.toNat ≤ 127 := by rcases h with h | h <;> omega
  refine ⟨?_, ?_⟩
  · rw [String.utf8EncodeChar]; exact if_pos hc
  · rcases h with ⟨h1, he⟩ | ⟨h1, h2, he | he⟩ <;> rw [he]
    · have : ∀ k < 10, hexDigit (UInt8.ofNat (48 + k)) = some (UInt8.ofNat k) := by decide +kernel
      exact this n h1
    · have : ∀ k < 16, 10 ≤ k → hexDigit (UInt8.ofNat (55 + k)) = some (UInt8.ofNat k) := by decide +kernel
      exact this n h2 h1
    · have : ∀ k < 16, 10 ≤ k → hexDigit (UInt8.ofNat (87 + k)) = some (UInt8.ofNat k) := by decide +kernel
      exact this n h2 h1

theorem percentDecode_escByte {b : UInt8} {e : Text} (h : EscByte b e) (bs : Bytes) :
    percentDecode (utf8 e ++ bs) = b :: percentDecode bs := by
  obtain ⟨hx, hy⟩ := h
  obtain ⟨ex, dx⟩ := hex_char hx
  obtain ⟨ey, dy⟩ := hex_char hy
  rw [utf8_cons, utf8_cons, utf8_cons, ex, ey]
  have hp : String.utf8EncodeChar '%' = [37] := by decide
  rw [hp, utf8_nil]
  simp only [List.cons_append, List.nil_append, percentDecode, if_true, dx, dy]
  congr 1
  have : ∀ k : Nat, k < 256 → UInt8.ofNat (k / 16) * 16 + UInt8.ofNat (k % 16) = UInt8.ofNat k := by decide +kernel
  have := this b.toNat b.toNat_lt
  rwa [UInt8.ofNat_toNat] at this

theorem percentDecode_escBytes {l : Bytes} {e : Text} (h : EscBytes l e) (bs : Bytes) :
    percentDecode (utf8 e ++ bs) = l ++ percentDecode bs := by
  induction h with
  | nil => rfl
  | cons hb _ ih => rw [utf8_append, List.append_assoc, percentDecode_escByte hb, ih]; rfl

theorem percentDecode_encoded {t e : Text} (h : UrlEncoded t e) : percentDecode (utf8 e) = utf8 t := by
  induction h with
  | nil => rfl
  | raw hp _ _ _ ih => rw [utf8_cons, utf8_cons, percentDecode_plain (percent_not_mem hp), ih]
  | @esc c t x e hx _ ih =>
    rw [utf8_append, percentDecode_escBytes hx, ih, ← utf8_append]; rfl

theorem hexDigit_small {a v : UInt8} (h : hexDigit a = some v) : a.toNat < 128 ∧ v.toNat < 16 ∧
    ∀ c : Char, c.toNat = a.toNat → IsHex c v.toNat := by
  have key : ∀ k : Nat, k < 256 → ∀ v, hexDigit (UInt8.ofNat k) = some v → k < 128 ∧ v.toNat < 16 ∧
      ((v.toNat < 10 ∧ k = 48 + v.toNat) ∨
        (10 ≤ v.toNat ∧ v.toNat < 16 ∧ (k = 55 + v.toNat ∨ k = 87 + v.toNat))) := by
    intro k hk v hv
    have : ∀ k : Nat, k < 256 → match hexDigit (UInt8.ofNat k) with
      | none => True
      | some v => k < 128 ∧ v.toNat < 16 ∧
      ((v.toNat < 10 ∧ k = 48 + v.toNat) ∨
        (10 ≤ v.toNat ∧ v.toNat < 16 ∧ (k = 55 + v.toNat ∨ k = 87 + v.toNat))) := by
      have h : ∀ k : Fin 256, match hexDigit (UInt8.ofNat k.val) with
        | none => True
        | some v => k.val < 128 ∧ v.toNat < 16 ∧
        ((v.toNat < 10 ∧ k.val = 48 + v.toNat) ∨
          (10 ≤ v.toNat ∧ v.toNat < 16 ∧ (k.val = 55 + v.toNat ∨ k.val = 87 + v.toNat))) := by
        intro k
        cases hh : hexDigit (UInt8.ofNat k.val) with
        | none => trivial
        | some v =>
          have h2 : ∀ k : Fin 256, (hexDigit (UInt8.ofNat k.val)).all (fun v => decide (k.val < 128 ∧ v.toNat < 16 ∧
            ((v.toNat < 10 ∧ k.val = 48 + v.toNat) ∨
            (10 ≤ v.toNat ∧ v.toNat < 16 ∧ (k.val = 55 + v.toNat ∨ k.val = 87 + v.toNat))))) = true := by
            decide +kernel
          have := h2 k
          rw [hh] at this
          simpa using this
      exact fun k hk => h ⟨k, hk⟩
    have := this k hk
    rw [hv] at this
    exact this
  have := key a.toNat a.toNat_lt v (by rw [UInt8.ofNat_toNat]; exact h)
  refine ⟨this.1, this.2.1, fun c hc => ?_⟩
  rw [IsHex, hc]
  exact this.2.2

theorem utf8_first {t : Text} {a : UInt8} {bs : Bytes} (ha : a.toNat < 128) (h : utf8 t = a :: bs) :
    ∃ c t', t = c :: t' ∧ c.toNat = a.toNat ∧ utf8 t' = bs := by
  cases t with
  | nil => cases h
  | cons c t =>
    rw [utf8_cons] at h
    refine ⟨c, t, rfl, ?_⟩
    have hs : c.toNat ≤ 127 := by
      unfold String.utf8EncodeChar at h
      have hv : c.toNat = c.val.toNat := rfl
      rw [hv]
      apply Nat.le_of_not_lt
      intro hlt
      rw [if_neg (by omega)] at h
      split at h
      · simp only [List.cons_append, List.cons.injEq] at h
        have := congrArg UInt8.toNat h.1
        simp at this; omega
      · split at h
        · simp only [List.cons_append, List.cons.injEq] at h
          have := congrArg UInt8.toNat h.1
          simp at this; omega
        · simp only [List.cons_append, List.cons.injEq] at h
          have := congrArg UInt8.toNat h.1
          simp at this; omega
    have he : String.utf8EncodeChar c = [UInt8.ofNat c.toNat] := by
      rw [String.utf8EncodeChar]; exact if_pos hs
    rw [he] at h
    cases h
    exact ⟨by simp; omega, rfl⟩

theorem percentDecode_stray {t : Text} (h : ∀ b e rest, EscByte b e → '%' :: t ≠ e ++ rest) :
    percentDecode (37 :: utf8 t) = 37 :: percentDecode (utf8 t) := by
  cases hu : utf8 t with
  | nil => rfl
  | cons a l =>
    cases l with
    | nil => rfl
    | cons b l =>
      rw [percentDecode, if_pos rfl]
      split
      · rename_i x y hx hy
        obtain ⟨sa, la, ka⟩ := hexDigit_small hx
        obtain ⟨sb, lb, kb⟩ := hexDigit_small hy
        obtain ⟨c, t', rfl, hc, ht'⟩ := utf8_first sa hu
        obtain ⟨d, t'', rfl, hd, _⟩ := utf8_first sb ht'
        have e1 : (UInt8.ofNat (x.toNat * 16 + y.toNat)).toNat = x.toNat * 16 + y.toNat := by
          simp; omega
        refine absurd rfl (h (UInt8.ofNat (x.toNat * 16 + y.toNat)) ['%', c, d] t'' (.mk ?_ ?_))
        · rw [e1, show (x.toNat * 16 + y.toNat) / 16 = x.toNat by omega]; exact ka c hc
        · rw [e1, show (x.toNat * 16 + y.toNat) % 16 = y.toNat by omega]; exact kb d hd
      · rfl

theorem percentDecode_unescaped {t : Text} {bs : Bytes} (h : Unescaped t bs) : percentDecode (utf8 t) = bs := by
  induction h with
  | nil => rfl
  | esc hb _ ih => rw [utf8_append, percentDecode_escByte hb, ih]
  | @raw c t bs hr _ ih =>
    rw [utf8_cons]
    by_cases hc : c = '%'
    · subst hc
      have hp : String.utf8EncodeChar '%' = [37] := by decide
      have hq : utf8 ['%'] = [37] := by decide
      rw [hp, hq, List.singleton_append, List.singleton_append, percentDecode_stray hr, ih]
    · rw [percentDecode_plain (percent_not_mem hc), ih, utf8_cons, utf8_nil, List.append_nil]

theorem unescaped_exists (t : Text) : ∃ bs, Unescaped t bs := by
  suffices h : ∀ n (t : Text), t.length ≤ n → ∃ bs, Unescaped t bs from h t.length t (Nat.le_refl _)
  intro n
  induction n with
  | zero => intro t ht; cases t with
    | nil => exact ⟨_, .nil⟩
    | cons c t => simp at ht
  | succ n ih =>
    intro t ht
    cases t with
    | nil => exact ⟨_, .nil⟩
    | cons c t =>
      by_cases h : ∃ b e rest, EscByte b e ∧ c :: t = e ++ rest
      · obtain ⟨b, e, rest, he, heq⟩ := h
        obtain ⟨bs, hb⟩ := ih rest (by
          have h1 := congrArg List.length heq
          cases he
          simp at h1 ht; omega)
        rw [heq]; exact ⟨_, .esc he hb⟩
      · obtain ⟨bs, hb⟩ := ih t (by simp at ht; omega)
        exact ⟨_, .raw (fun b e rest he heq => h ⟨b, e, rest, he, heq⟩) hb⟩

theorem urlDecode_encoded {t e : Text} (h : UrlEncoded t e) : urlDecode e = t := by
  rw [urlDecode, percentDecode_encoded h, fromUtf8_utf8]; rfl

theorem hex_ne {x : Char} {n : Nat} (h : IsHex x n) : x ≠ '&' ∧ x ≠ '=' := by
  constructor
  · rintro rfl
    have : '&'.toNat = 38 := rfl
    rcases h with h | h <;> omega
  · rintro rfl
    have : '='.toNat = 61 := rfl
    rcases h with h | h <;> omega

theorem escBytes_clean {l : Bytes} {e : Text} (h : EscBytes l e) : '&' ∉ e ∧ '=' ∉ e := by
  induction h with
  | nil => simp
  | cons hb _ ih =>
    obtain ⟨hx, hy⟩ := hb
    have := hex_ne hx
    have := hex_ne hy
    simp only [List.mem_append, List.mem_cons, List.not_mem_nil, or_false, not_or]
    exact ⟨⟨⟨by decide, (hex_ne hx).1.symm, (hex_ne hy).1.symm⟩, ih.1⟩,
      ⟨by decide, (hex_ne hx).2.symm, (hex_ne hy).2.symm⟩, ih.2⟩

theorem encoded_clean {t e : Text} (h : UrlEncoded t e) : '&' ∉ e ∧ '=' ∉ e := by
  induction h with
  | nil => simp
  | raw _ h1 h2 _ ih =>
    simp only [List.mem_cons, not_or]
    exact ⟨⟨Ne.symm h1, ih.1⟩, Ne.symm h2, ih.2⟩
  | esc hx _ ih =>
    have := escBytes_clean hx
    simp only [List.mem_append, not_or]
    exact ⟨⟨this.1, ih.1⟩, this.2, ih.2⟩

/-! ### Names and values -/

theorem rawParam_eq {p n v : Text} (h : RawParam p n v) : rawParam p = (n, v) := by
  have key : ∀ l : List Text, l ≠ [] → (∀ t ∈ l, '=' ∉ t) → splitText (joinWith ['='] l) ['='] = l :=
    fun l hl hc => splitText_join hl hc
  cases h with
  | bare h => rw [rawParam, show splitText p ['='] = [p] from key [p] (by simp) (by simpa using h)]
  | pair hn hv =>
    have : splitText (n ++ '=' :: v) ['='] = [n, v] := by
      have := key [n, v] (by simp) (by simpa using ⟨hn, hv⟩)
      simpa [joinWith] using this
    rw [rawParam, this]
  | @more _ _ rest hn hv =>
    have : splitText (n ++ '=' :: (v ++ '=' :: rest)) ['='] = n :: v :: splitText rest ['='] := by
      have := key (n :: v :: splitText rest ['=']) (by simp) (by
        intro t ht
        rcases List.mem_cons.mp ht with rfl | ht
        · exact hn
        · rcases List.mem_cons.mp ht with rfl | ht
          · exact hv
          · exact splitText_clean t ht)
      rw [joinWith_cons (by simp), joinWith_cons splitText_ne_nil,
        show joinWith ['='] (splitText rest ['=']) = rest from joinWith_pieces _ _ _] at this
      simpa using this
    rw [rawParam, this]

theorem rawParam_exists (p : Text) : RawParam p (rawParam p).1 (rawParam p).2 := by
  have hj : joinWith ['='] (splitText p ['=']) = p := joinWith_pieces _ _ _
  have hc := splitText_clean (c := '=') (t := p)
  have hne := splitText_ne_nil (c := '=') (t := p)
  cases hs : splitText p ['='] with
  | nil => exact absurd hs hne
  | cons n l =>
    rw [hs] at hj hc
    cases l with
    | nil =>
      have : p = n := hj.symm
      subst this
      rw [rawParam, hs]
      exact .bare (hc p (by simp))
    | cons v l =>
      rw [rawParam, hs]
      cases l with
      | nil =>
        have : p = n ++ '=' :: v := by rw [← hj]; simp [joinWith]
        simp only
        rw [this]
        exact .pair (hc n (by simp)) (hc v (by simp))
      | cons u l =>
        have : p = n ++ '=' :: (v ++ '=' :: joinWith ['='] (u :: l)) := by
          rw [← hj, joinWith_cons (by simp), joinWith_cons (by simp)]; simp
        simp only
        rw [this]
        exact .more (hc n (by simp)) (hc v (by simp))

/-- What the map holds for a name with these values. -/
def heldFor (repeats : Bool) : List Text → Option Val
  | [] => none
  | [v] => some (.str v)
  | v :: vs => some (if repeats then .list ((v :: vs).map .str) else .str v)

theorem heldFor_snoc (repeats : Bool) (vs : List Text) (v : Text) : heldFor repeats (vs ++ [v]) =
    match heldFor repeats vs with
    | none => some (.str v)
    | some old => if repeats then
        match old with
        | .list l => some (.list (l ++ [.str v]))
        | w => some (.list [w, .str v])
      else some old := by
  rcases vs with _ | ⟨a, _ | ⟨b, vs⟩⟩
  · rfl
  · cases repeats <;> rfl
  · cases repeats
    · rfl
    · simp [heldFor]

theorem fold_held (repeats : Bool) (parts : List Text) (name : Text) :
    mapGet (parts.foldl (addParam repeats) []) (Key.str name) =
      heldFor repeats (valuesFor (parts.map fun p => (urlDecode (rawParam p).1, urlDecode (rawParam p).2)) name) := by
  induction parts using snoc_ind with
  | nil => rfl
  | snoc parts p ih =>
    have hv : valuesFor ((parts ++ [p]).map fun p => (urlDecode (rawParam p).1, urlDecode (rawParam p).2)) name =
        valuesFor (parts.map fun p => (urlDecode (rawParam p).1, urlDecode (rawParam p).2)) name ++
          (if urlDecode (rawParam p).1 = name then [urlDecode (rawParam p).2] else []) := by
      simp only [valuesFor, List.map_append, List.filter_append, List.map_cons, List.map_nil, List.filter_cons,
        List.filter_nil, decide_eq_true_eq]
      split <;> rfl
    rw [List.foldl_append, hv]
    generalize hm : parts.foldl (addParam repeats) [] = m at *
    change mapGet (addParam repeats m p) (Key.str name) = _
    rw [addParam]
    by_cases he : urlDecode (rawParam p).1 = name
    · rw [if_pos he, heldFor_snoc, ← ih]
      simp only [he]
      cases hg : mapGet m (Key.str name) with
      | none => simp [mapGet_mapInsert]
      | some old =>
        cases repeats with
        | false => simp [hg]
        | true => cases old <;> simp [mapGet_mapInsert]
    · have hk : Key.str name ≠ Key.str (urlDecode (rawParam p).1) := fun h => he (Key.str.inj h).symm
      rw [if_neg he, List.append_nil, ← ih]
      cases hg : mapGet m (Key.str (urlDecode (rawParam p).1)) with
      | none => simp [mapGet_mapInsert, hk]
      | some old =>
        cases repeats with
        | false => simp
        | true => cases old <;> simp [mapGet_mapInsert, hk]

end Verif
