import Verif.Model.Strings
import Verif.Spec.Strings
import Verif.Lemmas.Text
/-!
Facts about the string functions.
-/
namespace Verif
open Spec

theorem textStarts_iff {t p : Text} : textStarts t p = true ↔ p <+: t := by
  induction p generalizing t with
  | nil => simp [textStarts]
  | cons a p ih =>
    cases t with
    | nil => simp [textStarts]
    | cons c t =>
      simp only [textStarts, Bool.and_eq_true, beq_iff_eq, ih, List.cons_prefix_cons]
      constructor <;> rintro ⟨h1, h2⟩ <;> exact ⟨h1.symm, h2⟩

theorem occ_cons {sub t pre post : Text} {c : Char} (h : c :: t = pre ++ sub ++ post)
    (hn : ¬ sub <+: c :: t) : ∃ pre', pre = c :: pre' ∧ t = pre' ++ sub ++ post := by
  cases pre with
  | nil => exact absurd ⟨post, by simpa using h.symm⟩ hn
  | cons d pre' =>
    simp only [List.cons_append, List.cons.injEq] at h
    exact ⟨pre', by rw [h.1], h.2⟩

theorem findText_some {sub t : Text} {k : Nat} (h : findText sub t = some k) :
    ∃ pre post, FirstOcc sub t pre post ∧ pre.length = k := by
  induction t generalizing k with
  | nil =>
    simp only [findText] at h
    split at h
    · rename_i he
      simp only [List.isEmpty_iff] at he
      cases h
      exact ⟨[], [], ⟨by simp [he], by simp⟩, rfl⟩
    · cases h
  | cons c t ih =>
    simp only [findText] at h
    split at h
    · rename_i hs
      rw [textStarts_iff] at hs
      obtain ⟨post, hp⟩ := hs
      cases h
      exact ⟨[], post, ⟨by simp [hp], by simp⟩, rfl⟩
    · rename_i hs
      rw [textStarts_iff] at hs
      cases hf : findText sub t with
      | none => rw [hf] at h; cases h
      | some j =>
        rw [hf] at h
        cases h
        obtain ⟨pre, post, ho, hl⟩ := ih hf
        refine ⟨c :: pre, post, ⟨by rw [ho.occurs]; simp, ?_⟩, by simp [hl]⟩
        intro pre' post' h'
        obtain ⟨pre'', rfl, h''⟩ := occ_cons h' hs
        simpa using ho.first _ _ h''

theorem findText_none {sub t : Text} (h : findText sub t = none) : ¬ sub <:+: t := by
  induction t with
  | nil =>
    simp only [findText] at h
    split at h
    · cases h
    · rename_i he
      simpa using he
  | cons c t ih =>
    simp only [findText] at h
    split at h
    · cases h
    · rename_i hs
      rw [textStarts_iff] at hs
      simp only [Option.map_eq_none_iff] at h
      rw [List.infix_cons_iff]
      exact fun h' => h'.elim hs (ih h)

theorem Spec.FirstOcc.infix {sub t pre post : Text} (h : FirstOcc sub t pre post) : sub <:+: t :=
  ⟨pre, post, h.occurs.symm⟩

theorem Spec.LastOcc.infix {sub t pre post : Text} (h : LastOcc sub t pre post) : sub <:+: t :=
  ⟨pre, post, h.occurs.symm⟩

theorem occ_eq {sub t pre post pre' post' : Text} (h : t = pre ++ sub ++ post)
    (h' : t = pre' ++ sub ++ post') (hl : pre.length = pre'.length) : pre = pre' ∧ post = post' := by
  rw [h, List.append_assoc, List.append_assoc] at h'
  obtain ⟨h1, h2⟩ := List.append_inj h' hl
  exact ⟨h1, List.append_cancel_left h2⟩

theorem Spec.FirstOcc.unique {sub t pre post pre' post' : Text} (h : FirstOcc sub t pre post)
    (h' : FirstOcc sub t pre' post') : pre = pre' ∧ post = post' :=
  occ_eq h.occurs h'.occurs (Nat.le_antisymm (h.first _ _ h'.occurs) (h'.first _ _ h.occurs))

theorem Spec.LastOcc.unique {sub t pre post pre' post' : Text} (h : LastOcc sub t pre post)
    (h' : LastOcc sub t pre' post') : pre = pre' ∧ post = post' :=
  occ_eq h.occurs h'.occurs (Nat.le_antisymm (h'.last _ _ h.occurs) (h.last _ _ h'.occurs))

theorem findText_eq {sub t pre post : Text} (h : FirstOcc sub t pre post) :
    findText sub t = some pre.length := by
  cases hf : findText sub t with
  | none => exact absurd h.infix (findText_none hf)
  | some k =>
    obtain ⟨p, q, ho, hl⟩ := findText_some hf
    rw [(h.unique ho).1, hl]

theorem findText_none_iff {sub t : Text} : findText sub t = none ↔ ¬ sub <:+: t := by
  refine ⟨findText_none, fun h => ?_⟩
  cases hf : findText sub t with
  | none => rfl
  | some k =>
    obtain ⟨p, q, ho, _⟩ := findText_some hf
    exact absurd ho.infix h

theorem rfindText_some {sub t : Text} {k : Nat} (h : rfindText sub t = some k) :
    ∃ pre post, LastOcc sub t pre post ∧ pre.length = k := by
  induction t generalizing k with
  | nil =>
    simp only [rfindText] at h
    split at h
    · rename_i he
      simp only [List.isEmpty_iff] at he
      cases h
      refine ⟨[], [], ⟨by simp [he], ?_⟩, rfl⟩
      intro pre' post' h'
      have := congrArg List.length h'
      simp only [List.length_nil, List.length_append] at this
      simp only [List.length_nil]; omega
    · cases h
  | cons c t ih =>
    simp only [rfindText] at h
    cases hf : rfindText sub t with
    | some j =>
      rw [hf] at h
      cases h
      obtain ⟨pre, post, ho, hl⟩ := ih hf
      refine ⟨c :: pre, post, ⟨by rw [ho.occurs]; simp, ?_⟩, by simp [hl]⟩
      intro pre' post' h'
      cases pre' with
      | nil => simp
      | cons d pre' =>
        simp only [List.cons_append, List.cons.injEq] at h'
        simpa using ho.last _ _ h'.2
    | none =>
      rw [hf] at h
      simp only at h
      split at h
      · rename_i hs
        rw [textStarts_iff] at hs
        obtain ⟨post, hp⟩ := hs
        cases h
        refine ⟨[], post, ⟨by simp [hp], ?_⟩, rfl⟩
        intro pre' post' h'
        cases pre' with
        | nil => simp
        | cons d pre' =>
          exfalso
          simp only [List.cons_append, List.cons.injEq] at h'
          have : ∀ (t : Text), rfindText sub t = none → ¬ sub <:+: t := by
            intro t
            induction t with
            | nil =>
              simp only [rfindText]
              split
              · intro h; cases h
              · rename_i he; intro _; simpa using he
            | cons c t ih =>
              simp only [rfindText]
              intro h
              split at h
              · cases h
              · rename_i hn
                split at h
                · cases h
                · rename_i hs
                  rw [textStarts_iff] at hs
                  rw [List.infix_cons_iff]
                  exact fun h' => h'.elim hs (ih hn)
          exact this t hf ⟨pre', post', h'.2.symm⟩
      · cases h

theorem rfindText_none {sub t : Text} (h : rfindText sub t = none) : ¬ sub <:+: t := by
  induction t with
  | nil =>
    simp only [rfindText] at h
    split at h
    · cases h
    · rename_i he; simpa using he
  | cons c t ih =>
    simp only [rfindText] at h
    split at h
    · cases h
    · rename_i hn
      split at h
      · cases h
      · rename_i hs
        rw [textStarts_iff] at hs
        rw [List.infix_cons_iff]
        exact fun h' => h'.elim hs (ih hn)

theorem rfindText_eq {sub t pre post : Text} (h : LastOcc sub t pre post) :
    rfindText sub t = some pre.length := by
  cases hf : rfindText sub t with
  | none => exact absurd h.infix (rfindText_none hf)
  | some k =>
    obtain ⟨p, q, ho, hl⟩ := rfindText_some hf
    rw [(h.unique ho).1, hl]

theorem rfindText_none_iff {sub t : Text} : rfindText sub t = none ↔ ¬ sub <:+: t := by
  refine ⟨rfindText_none, fun h => ?_⟩
  cases hf : rfindText sub t with
  | none => rfl
  | some k =>
    obtain ⟨p, q, ho, _⟩ := rfindText_some hf
    exact absurd ho.infix h

theorem byteLen_append (s t : Text) : byteLen (s ++ t) = byteLen s + byteLen t := by
  simp [byteLen, utf8_append]

theorem byteLen_pos (c : Char) : 0 < byteLen [c] := by
  simp [byteLen, utf8, Char.utf8Size_pos]

/-- Slicing at a boundary of characters. -/
theorem dropBytes_append (s t : Text) : dropBytes (byteLen s) (s ++ t) = some t := by
  induction s with
  | nil => cases t <;> rfl
  | cons c s ih =>
    have h : byteLen (c :: s) = byteLen [c] + byteLen s := byteLen_append [c] s
    have hp := byteLen_pos c
    obtain ⟨n, hn⟩ : ∃ n, byteLen (c :: s) = n + 1 := ⟨byteLen (c :: s) - 1, by omega⟩
    rw [hn, List.cons_append, dropBytes, if_pos (by omega)]
    rw [show n + 1 - byteLen [c] = byteLen s by omega]
    exact ih

theorem dropBytes_some {n : Nat} {t rest : Text} (h : dropBytes n t = some rest) :
    ∃ s, t = s ++ rest ∧ byteLen s = n := by
  induction t generalizing n with
  | nil =>
    cases n with
    | zero => cases h; exact ⟨[], rfl, rfl⟩
    | succ n => cases h
  | cons c t ih =>
    cases n with
    | zero => cases h; exact ⟨[], rfl, rfl⟩
    | succ n =>
      rw [dropBytes] at h
      split at h
      · rename_i hl
        obtain ⟨s, hs, hb⟩ := ih h
        refine ⟨c :: s, by rw [hs]; rfl, ?_⟩
        have h' : byteLen (c :: s) = byteLen [c] + byteLen s := byteLen_append [c] s
        omega
      · cases h

theorem take_of_occ {sub t pre post : Text} (h : t = pre ++ sub ++ post) : t.take pre.length = pre := by
  rw [h, List.append_assoc]; exact List.take_left' rfl

theorem drop_of_occ {sub t pre post : Text} (h : t = pre ++ sub ++ post) :
    t.drop (pre.length + sub.length) = post := by
  rw [h]; exact List.drop_left' (by simp)

theorem glue_eq : glue = joinWith := by
  funext sep l
  induction l with
  | nil => rfl
  | cons t l ih =>
    cases l with
    | nil => rfl
    | cons u l => simp only [glue, joinWith, ih]

/-- Cutting at the first occurrences of a separator. -/
theorem cutPieces_spec (sep : Text) (n : Nat) (t : Text) : Pieces sep n t (cutPieces sep n t) := by
  induction n generalizing t with
  | zero => exact .stop t
  | succ n ih =>
    rw [cutPieces]
    cases hf : findText sep t with
    | none => exact .last _ (findText_none hf)
    | some k =>
      obtain ⟨pre, post, ho, hl⟩ := findText_some hf
      subst hl
      simp only [take_of_occ ho.occurs, drop_of_occ ho.occurs]
      exact .cut ho (ih post)

theorem Spec.Pieces.unique {sep : Text} {n : Nat} {t : Text} {l l' : List Text} (h : Pieces sep n t l)
    (h' : Pieces sep n t l') : l = l' := by
  induction h generalizing l' with
  | stop t => cases h' <;> rfl
  | last n hn =>
    cases h' with
    | stop => rfl
    | last => rfl
    | cut ho => exact absurd ho.infix hn
  | cut ho _ ih =>
    cases h' with
    | last _ hn => exact absurd ho.infix hn
    | cut ho' hp =>
      obtain ⟨rfl, rfl⟩ := ho.unique ho'
      rw [ih hp]

/-- A text of `n` characters has at most `n` occurrences of a separator that is not empty. -/
theorem Spec.Pieces.enough {sep : Text} (hs : sep ≠ []) {n m : Nat} {t : Text} {l : List Text}
    (h : Pieces sep n t l) (hn : t.length < n) (hm : t.length < m) : Pieces sep m t l := by
  induction h generalizing m with
  | stop t => omega
  | last n hn' => exact .last _ hn'
  | @cut n t pre post l ho _ ih =>
    obtain ⟨m, rfl⟩ : ∃ k, m = k + 1 := ⟨m - 1, by omega⟩
    have hp : 0 < sep.length := List.length_pos_iff.mpr hs
    have : t.length = pre.length + sep.length + post.length := by rw [ho.occurs]; simp; omega
    exact .cut ho (ih (by omega) (by omega))

theorem Spec.Pieces.ne_nil {sep : Text} {n : Nat} {t : Text} {l : List Text} (h : Pieces sep n t l) : l ≠ [] := by
  cases h <;> simp

theorem joinWith_cons {sep t : Text} {l : List Text} (h : l ≠ []) :
    joinWith sep (t :: l) = t ++ sep ++ joinWith sep l := by
  cases l with
  | nil => exact absurd rfl h
  | cons u l => rfl

theorem Spec.Pieces.join {sep : Text} {n : Nat} {t : Text} {l : List Text} (h : Pieces sep n t l) :
    joinWith sep l = t := by
  induction h with
  | stop t => rfl
  | last => rfl
  | cut ho hp ih => rw [joinWith_cons hp.ne_nil, ih, ← ho.occurs]

theorem Spec.Pieces.replaced {sep new : Text} {n : Nat} {t : Text} {l : List Text} (h : Pieces sep n t l) :
    ReplacedIn sep new n t (joinWith new l) := by
  induction h with
  | stop t => exact .stop t
  | last n hn => exact .last n hn
  | cut ho hp ih => rw [joinWith_cons hp.ne_nil]; exact .step ho ih

theorem Spec.ReplacedIn.unique {sub new : Text} {n : Nat} {t r r' : Text} (h : ReplacedIn sub new n t r)
    (h' : ReplacedIn sub new n t r') : r = r' := by
  induction h generalizing r' with
  | stop t => cases h' <;> rfl
  | last n hn =>
    cases h' with
    | stop => rfl
    | last => rfl
    | step ho => exact absurd ho.infix hn
  | step ho _ ih =>
    cases h' with
    | last _ hn => exact absurd ho.infix hn
    | step ho' hp =>
      obtain ⟨rfl, rfl⟩ := ho.unique ho'
      rw [ih hp]

theorem pieces_eq {sep : Text} (hs : sep ≠ []) (n : Nat) (t : Text) : pieces sep n t = cutPieces sep n t := by
  cases sep with
  | nil => exact absurd rfl hs
  | cons c s => cases n <;> rfl

theorem pieces_spec {sep : Text} (hs : sep ≠ []) (n : Nat) (t : Text) : Pieces sep n t (pieces sep n t) := by
  rw [pieces_eq hs]; exact cutPieces_spec sep n t

theorem cutChars_eq (t : Text) {n : Nat} (h : t.length ≤ n) (h0 : 0 < n) :
    cutChars n t = t.map (fun c => [c]) ++ [[]] := by
  induction t generalizing n with
  | nil => obtain ⟨n, rfl⟩ : ∃ k, n = k + 1 := ⟨n - 1, by omega⟩; rfl
  | cons c t ih =>
    obtain ⟨n, rfl⟩ : ∃ k, n = k + 1 := ⟨n - 1, by omega⟩
    simp only [List.length_cons, Nat.add_le_add_iff_right] at h
    rw [cutChars]
    cases n with
    | zero =>
      cases t with
      | nil => rfl
      | cons => simp at h
    | succ n => rw [ih h (by omega)]; rfl

theorem joinWith_nil_cutChars (n : Nat) (t : Text) : joinWith [] (cutChars n t) = t := by
  induction t generalizing n with
  | nil => cases n <;> rfl
  | cons c t ih =>
    cases n with
    | zero => rfl
    | succ n =>
      have : cutChars n t ≠ [] := by cases n <;> cases t <;> simp [cutChars]
      rw [cutChars, joinWith_cons this, ih]; rfl

theorem joinWith_pieces (sep : Text) (n : Nat) (t : Text) : joinWith sep (pieces sep n t) = t := by
  cases sep with
  | nil =>
    cases n with
    | zero => rfl
    | succ n =>
      have : cutChars n t ≠ [] := by cases n <;> cases t <;> simp [cutChars]
      change joinWith [] ([] :: cutChars n t) = t
      rw [joinWith_cons this, joinWith_nil_cutChars]; rfl
  | cons c s => exact (pieces_spec (List.cons_ne_nil _ _) n t).join

theorem singleton_infix {c : Char} {t : Text} : [c] <:+: t ↔ c ∈ t := by
  constructor
  · rintro ⟨a, b, rfl⟩; simp
  · intro h
    obtain ⟨a, b, rfl⟩ := List.append_of_mem h
    exact ⟨a, b, by simp⟩

theorem firstOcc_char {c : Char} {pre post : Text} (h : c ∉ pre) :
    FirstOcc [c] (pre ++ [c] ++ post) pre post := by
  refine ⟨rfl, fun pre' post' h' => ?_⟩
  rcases Nat.lt_or_ge pre'.length pre.length with hl | hl
  · exfalso
    simp only [List.append_assoc] at h'
    obtain ⟨s, hs, _⟩ | ⟨s, hs, hs'⟩ := List.append_eq_append_iff.mp h'
    · have := congrArg List.length hs; simp at this; omega
    · cases s with
      | nil =>
        have := congrArg List.length hs; simp at this; omega
      | cons d s =>
        simp at hs'
        rw [hs, hs'.1] at h
        simp at h
  · exact hl

/-- Texts without the separating character, separated by it, are cut into these texts. -/
theorem pieces_char {c : Char} {l : List Text} (hne : l ≠ []) (h : ∀ t ∈ l, c ∉ t) {n : Nat} (hn : l.length ≤ n) :
    Pieces [c] n (joinWith [c] l) l := by
  induction l generalizing n with
  | nil => exact absurd rfl hne
  | cons t l ih =>
    cases l with
    | nil => exact .last _ (by rw [singleton_infix]; exact h t (by simp))
    | cons u l =>
      rw [joinWith_cons (by simp)]
      obtain ⟨n, rfl⟩ : ∃ k, n = k + 1 := ⟨n - 1, by simp at hn; omega⟩
      exact .cut (firstOcc_char (h t (by simp)))
        (ih (by simp) (fun v hv => h v (List.mem_cons_of_mem _ hv)) (by simp at hn ⊢; omega))

theorem joinWith_length (c : Char) (l : List Text) : l.length ≤ (joinWith [c] l).length + 1 := by
  induction l with
  | nil => simp
  | cons t l ih =>
    cases l with
    | nil => simp [joinWith]
    | cons u l => rw [joinWith_cons (by simp)]; simp at ih ⊢; omega

theorem splitText_join {c : Char} {l : List Text} (hne : l ≠ []) (h : ∀ t ∈ l, c ∉ t) :
    splitText (joinWith [c] l) [c] = l :=
  (pieces_spec (List.cons_ne_nil _ _) _ _).unique (pieces_char hne h (joinWith_length c l))

theorem Spec.Pieces.clean {c : Char} {n : Nat} {t : Text} {l : List Text} (h : Pieces [c] n t l)
    (hn : t.length < n) : ∀ u ∈ l, c ∉ u := by
  induction h with
  | stop => omega
  | last n h' => intro u hu; cases List.mem_singleton.mp hu; rwa [singleton_infix] at h'
  | @cut n t pre post l ho _ ih =>
    have hl : t.length = pre.length + 1 + post.length := by rw [ho.occurs]; simp; omega
    intro u hu
    rcases List.mem_cons.mp hu with rfl | hu
    · intro hc
      obtain ⟨a, b, rfl⟩ := List.append_of_mem hc
      have := ho.first a (b ++ [c] ++ post) (by rw [ho.occurs]; simp)
      simp at this; omega
    · exact ih (by omega) u hu

theorem splitText_clean {c : Char} {t : Text} : ∀ u ∈ splitText t [c], c ∉ u :=
  (pieces_spec (List.cons_ne_nil _ _) _ _).clean (by omega)

theorem splitText_ne_nil {c : Char} {t : Text} : splitText t [c] ≠ [] := (pieces_spec (List.cons_ne_nil _ _) _ _).ne_nil

theorem isSpace_iff {c : Char} : isSpace c = true ↔ White c := by
  simp only [isSpace, White, Bool.or_eq_true, Bool.and_eq_true, decide_eq_true_eq, beq_iff_eq, List.mem_cons,
    List.not_mem_nil, or_false]
  omega

theorem usizeOf_small {i : Int} (h0 : 0 ≤ i) (h : i < 4294967296) : usizeOf i = i.toNat := by
  rw [usizeOf, Int.emod_eq_of_lt h0 h]

end Verif
