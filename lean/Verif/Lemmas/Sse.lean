import Verif.Model.Sse
import Verif.Spec.Sse
import Verif.Lemmas.Basic

/-! Helper lemmas about the event-stream parser. -/
set_option linter.unusedSimpArgs false

namespace Verif.Sse

theorem dropWhile_nil_iff (p : Char → Bool) (l : Text) :
    l.dropWhile p = [] ↔ ∀ c ∈ l, p c = true := by
  induction l with
  | nil => simp
  | cons c cs ih =>
    by_cases h : p c
    · simp [h, ih]
    · simp [h]

/-- First complete line of a text and what follows it. -/
def cut : Text → Option (Text × Text)
  | [] => none
  | '\n' :: cs => some ([], cs)
  | '\r' :: [] => none
  | '\r' :: '\n' :: cs => some ([], cs)
  | '\r' :: c :: cs => some ([], c :: cs)
  | c :: cs => match cut cs with
    | some (l, r) => some (c :: l, r)
    | none => none

theorem takeWhile_eq (p : Char → Bool) (s : Text) :
    takeWhile p s = if s.dropWhile p = [] then .incomplete
      else .ok (s.dropWhile p) (s.takeWhile p) := by
  induction s with
  | nil => simp [takeWhile]
  | cons c cs ih =>
    by_cases h : p c
    · simp only [takeWhile, h, if_true, ih, List.dropWhile_cons_of_pos, List.takeWhile_cons_of_pos]
      by_cases h2 : cs.dropWhile p = [] <;> simp [h2]
    · simp [takeWhile, h]

theorem endOfLine_crlf (cs) : endOfLine ('\r' :: '\n' :: cs) = .ok cs () := by
  simp [endOfLine, alt, tag, cr, lf]

theorem endOfLine_cr_end : endOfLine ['\r'] = .incomplete := by
  simp [endOfLine, alt, tag, cr, lf]

theorem endOfLine_nil : endOfLine [] = .incomplete := by
  simp [endOfLine, alt, tag, cr, lf]

theorem endOfLine_lf (cs) : endOfLine ('\n' :: cs) = .ok cs () := by
  simp [endOfLine, alt, tag, cr, lf]

theorem endOfLine_cr (c cs) (h : c ≠ '\n') : endOfLine ('\r' :: c :: cs) = .ok (c :: cs) () := by
  have h' : ¬ '\n' = c := fun e => h e.symm
  simp [endOfLine, alt, tag, cr, lf, h']

/-- Line cutting in terms of the parser for line ends. -/
theorem cut_eq (s : Text) : cut s = match endOfLine (s.dropWhile isAnyChar) with
    | .ok rem _ => some (s.takeWhile isAnyChar, rem)
    | _ => none := by
  induction s using cut.induct with
  | case1 => simp [cut, endOfLine_nil]
  | case2 cs => simp [cut, isAnyChar, lf, cr, endOfLine_lf]
  | case3 => simp [cut, isAnyChar, lf, cr, endOfLine_cr_end]
  | case4 cs => simp [cut, isAnyChar, lf, cr, endOfLine_crlf]
  | case5 c cs h =>
    rw [cut.eq_5 _ _ h]
    simp [isAnyChar, lf, cr, endOfLine_cr c cs h]
  | case6 c cs h1 h2 h3 h4 l r hc ih =>
    have hcr : c ≠ '\r' := by
      intro e; subst e
      cases cs with
      | nil => exact h2 rfl rfl
      | cons d ds => exact h4 d ds rfl rfl
    have hlf : c ≠ '\n' := fun e => h1 e
    have hany : isAnyChar c = true := by simp [isAnyChar, lf, cr, hcr, hlf]
    rw [cut.eq_6 _ _ h1 h2 h3 h4, ih]
    simp only [List.dropWhile_cons_of_pos hany, List.takeWhile_cons_of_pos hany]
    cases endOfLine (cs.dropWhile isAnyChar) <;> simp
  | case7 c cs h1 h2 h3 h4 hc ih =>
    have hcr : c ≠ '\r' := by
      intro e; subst e
      cases cs with
      | nil => exact h2 rfl rfl
      | cons d ds => exact h4 d ds rfl rfl
    have hlf : c ≠ '\n' := fun e => h1 e
    have hany : isAnyChar c = true := by simp [isAnyChar, lf, cr, hcr, hlf]
    rw [cut.eq_6 _ _ h1 h2 h3 h4, ih]
    simp only [List.dropWhile_cons_of_pos hany, List.takeWhile_cons_of_pos hany]
    cases endOfLine (cs.dropWhile isAnyChar) <;> simp

/-- What a complete line (without its end) is read as. -/
def classify : Text → RawLine
  | [] => .empty
  | ':' :: c => .comment c
  | l => match l.dropWhile isNameChar with
    | [] => .field (l.takeWhile isNameChar) none
    | _ :: ' ' :: v => .field (l.takeWhile isNameChar) (some v)
    | _ :: v => .field (l.takeWhile isNameChar) (some v)

theorem endOfLine_not_error (s : Text) : endOfLine (s.dropWhile isAnyChar) ≠ .error := by
  have h := List.head?_dropWhile_not isAnyChar s
  cases hs : s.dropWhile isAnyChar with
  | nil => simp [endOfLine_nil]
  | cons c cs =>
    rw [hs] at h
    simp [isAnyChar, lf, cr] at h
    by_cases hc : c = '\n'
    · subst hc; simp [endOfLine_lf]
    · have := h hc; subst this
      cases cs with
      | nil => simp [endOfLine_cr_end]
      | cons d ds =>
        by_cases hd : d = '\n'
        · subst hd; simp [endOfLine_crlf]
        · simp [endOfLine_cr d ds hd]

theorem isAny_of_isName {c : Char} (h : isNameChar c = true) : isAnyChar c = true := by
  simp [isNameChar, isAnyChar] at *; exact h.1

theorem comment_colon (s : Text) : comment (':' :: s) = match cut s with
    | some (l, rem) => .ok rem (.comment l)
    | none => .incomplete := by
  have h := endOfLine_not_error s
  simp only [comment, takeOne, bind, takeWhile_eq, cut_eq]
  by_cases h0 : s.dropWhile isAnyChar = []
  · simp [h0, endOfLine_nil]
  · simp only [beq_self_eq_true, ↓reduceIte, h0]
    cases he : endOfLine (s.dropWhile isAnyChar) <;> simp_all

theorem takeWhile_name_any (s : Text) (d : Char) (r : Text)
    (h : s.dropWhile isNameChar = d :: r) (hd : d ≠ ':') :
    s.dropWhile isAnyChar = d :: r ∧ s.takeWhile isAnyChar = s.takeWhile isNameChar := by
  induction s with
  | nil => simp at h
  | cons c cs ih =>
    by_cases hc : isNameChar c
    · rw [List.dropWhile_cons_of_pos hc] at h
      have ha := isAny_of_isName hc
      rw [List.dropWhile_cons_of_pos ha, List.takeWhile_cons_of_pos hc,
        List.takeWhile_cons_of_pos ha]
      exact ⟨(ih h).1, by rw [(ih h).2]⟩
    · rw [List.dropWhile_cons_of_neg hc] at h
      injection h with h1 h2
      subst h1 h2
      have : ¬ isAnyChar c := by
        simp only [isNameChar, isAnyChar, Bool.and_eq_true, bne_iff_ne, not_and] at *
        intro a b; exact absurd hd (by simpa using hc ⟨a, b⟩)
      rw [List.dropWhile_cons_of_neg this, List.takeWhile_cons_of_neg this,
        List.takeWhile_cons_of_neg hc]
      simp

theorem takeWhile_name_any_colon (s : Text) (r : Text)
    (h : s.dropWhile isNameChar = ':' :: r) :
    s.dropWhile isAnyChar = r.dropWhile isAnyChar ∧
    s.takeWhile isAnyChar = s.takeWhile isNameChar ++ ':' :: r.takeWhile isAnyChar := by
  induction s with
  | nil => simp at h
  | cons c cs ih =>
    by_cases hc : isNameChar c
    · rw [List.dropWhile_cons_of_pos hc] at h
      have ha := isAny_of_isName hc
      rw [List.dropWhile_cons_of_pos ha, List.takeWhile_cons_of_pos hc,
        List.takeWhile_cons_of_pos ha]
      exact ⟨(ih h).1, by rw [(ih h).2]; simp⟩
    · rw [List.dropWhile_cons_of_neg hc] at h
      injection h with h1 h2
      subst h1 h2
      have : isAnyChar ':' := by decide
      rw [List.dropWhile_cons_of_pos this, List.takeWhile_cons_of_pos this,
        List.takeWhile_cons_of_neg hc]
      simp

theorem dropWhile_append_stop (p : Char → Bool) (a b : Text) (ha : ∀ c ∈ a, p c = true)
    (hb : ∀ c, b.head? = some c → p c = false) :
    (a ++ b).dropWhile p = b ∧ (a ++ b).takeWhile p = a := by
  induction a with
  | nil =>
    cases b with
    | nil => simp
    | cons c cs =>
      have := hb c rfl
      simp [this]
  | cons c cs ih =>
    have hc := ha c (by simp)
    have := ih (fun d hd => ha d (by simp [hd]))
    simp [hc, this]

theorem mem_takeWhile_imp' {p : Char → Bool} {l : Text} {c : Char} (h : c ∈ l.takeWhile p) :
    p c = true := by
  induction l with
  | nil => simp at h
  | cons d ds ih =>
    by_cases hd : p d
    · rw [List.takeWhile_cons_of_pos hd] at h
      rcases List.mem_cons.1 h with rfl | h
      · exact hd
      · exact ih h
    · rw [List.takeWhile_cons_of_neg hd] at h; simp at h

/-- Value part of a line after the colon. -/
def valueOf : Text → Text
  | ' ' :: r' => r'.takeWhile isAnyChar
  | r => r.takeWhile isAnyChar

theorem valueOf_ne {e : Char} {r : Text} (h : e ≠ ' ') :
    valueOf (e :: r) = (e :: r).takeWhile isAnyChar := by
  rw [valueOf.eq_2]; intro x hx; injection hx with a _; exact h a

/-- The field parser on a line that starts with a name character. -/
theorem field_eq (s : Text) (c : Char) (cs : Text) (hs : s = c :: cs) (hc : isNameChar c = true) :
    field s = match cut s with
    | some (l, rem) => .ok rem (classify l)
    | none => .incomplete := by
  have hne := endOfLine_not_error s
  have hcc : c ≠ ':' := by rintro rfl; simp [isNameChar] at hc
  have htw : takeWhile1 isNameChar s = takeWhile isNameChar s := by
    subst hs; simp [takeWhile1, hc]
  have hname : (s.takeWhile isNameChar) = c :: cs.takeWhile isNameChar := by
    subst hs; rw [List.takeWhile_cons_of_pos hc]
  simp only [field, htw, takeWhile_eq, cut_eq]
  cases hr : s.dropWhile isNameChar with
  | nil =>
    have hall : s.dropWhile isAnyChar = [] := by
      rw [dropWhile_nil_iff] at hr ⊢
      intro x hx; exact isAny_of_isName (hr x hx)
    simp [bind, hall, endOfLine_nil]
  | cons d r =>
    simp only [reduceCtorEq, ↓reduceIte, bind]
    by_cases hd : d = ':'
    · subst hd
      obtain ⟨h1, h2⟩ := takeWhile_name_any_colon s r hr
      rw [h1] at hne ⊢
      -- the optional space
      have hval : opt fieldValue (':' :: r) =
          if r.dropWhile isAnyChar = [] then .incomplete else
          .ok (r.dropWhile isAnyChar) (some (valueOf r)) := by
        cases r with
        | nil => simp [opt, fieldValue, bind, takeOne, valueOf]
        | cons e r' =>
          by_cases he : e = ' '
          · subst he
            have : isAnyChar ' ' = true := by decide
            simp only [opt, fieldValue, bind, takeOne, beq_self_eq_true, ↓reduceIte, takeWhile_eq,
              List.dropWhile_cons_of_pos this]
            by_cases h0 : r'.dropWhile isAnyChar = [] <;> simp [h0, valueOf]
          · have he' : (e == ' ') = false := by simp [he]
            have hm := valueOf_ne (r := r') he
            simp only [opt, fieldValue, bind, takeOne, beq_self_eq_true, ↓reduceIte, he',
              takeWhile_eq, Bool.false_eq_true, hm]
            by_cases h0 : (e :: r').dropWhile isAnyChar = [] <;> simp [h0]
      rw [hval]
      by_cases h0 : r.dropWhile isAnyChar = []
      · simp [h0, endOfLine_nil]
      · simp only [h0, ↓reduceIte]
        cases he : endOfLine (r.dropWhile isAnyChar) with
        | incomplete => simp
        | error => exact absurd he hne
        | ok rem u =>
          simp only [h2]
          -- classify the line
          have hcl : classify (s.takeWhile isNameChar ++ ':' :: r.takeWhile isAnyChar) =
              .field (s.takeWhile isNameChar) (some (valueOf r)) := by
            have hst := dropWhile_append_stop isNameChar (s.takeWhile isNameChar)
              (':' :: r.takeWhile isAnyChar) (fun _ h => mem_takeWhile_imp' h)
              (fun x hx => by simp at hx; subst hx; decide)
            rw [classify.eq_3]
            · rw [hst.1, hst.2]
              cases r with
              | nil => simp [valueOf]
              | cons e r' =>
                by_cases he' : e = ' '
                · subst he'
                  have : isAnyChar ' ' = true := by decide
                  simp [List.takeWhile_cons_of_pos this, valueOf]
                · have hx : ∀ y ys, (e :: r').takeWhile isAnyChar = y :: ys → y ≠ ' ' := by
                    intro y ys hy
                    by_cases hae : isAnyChar e
                    · rw [List.takeWhile_cons_of_pos hae] at hy
                      injection hy with hy _; subst hy; exact he'
                    · rw [List.takeWhile_cons_of_neg hae] at hy; simp at hy
                  rw [valueOf_ne he']
                  split
                  · simp at *
                  · rename_i heq; injection heq with _ heq
                    exact absurd rfl (hx _ _ heq)
                  · rename_i heq; injection heq with _ heq
                    rw [heq]
            · rw [hname]; simp
            · rw [hname]; intro x hx; simp at hx; exact hcc hx.1
          rw [hcl]
    · obtain ⟨h1, h2⟩ := takeWhile_name_any s d r hr hd
      rw [h1] at hne ⊢
      have hopt : opt fieldValue (d :: r) = .ok (d :: r) none := by
        have : (d == ':') = false := by simp [hd]
        simp [opt, fieldValue, bind, takeOne, this]
      rw [hopt]
      simp only [h2]
      cases he : endOfLine (d :: r) with
      | incomplete => simp
      | error => exact absurd he hne
      | ok rem u =>
        have hst := dropWhile_append_stop isNameChar (s.takeWhile isNameChar) []
          (fun _ h => mem_takeWhile_imp' h) (by simp)
        rw [List.append_nil] at hst
        simp only
        rw [classify.eq_3]
        · rw [hst.1, hst.2]
        · rw [hname]; simp
        · rw [hname]; intro x hx; simp at hx; exact hcc hx.1

/-- The line parser cuts off one complete line and classifies it, or is incomplete. -/
theorem line_eq (s : Text) : line s = match cut s with
    | some (l, rem) => .ok rem (classify l)
    | none => .incomplete := by
  cases s with
  | nil => simp [line, alt, comment, takeOne, bind, cut]
  | cons c cs =>
    by_cases hcolon : c = ':'
    · subst hcolon
      have h := comment_colon cs
      have hcut : cut (':' :: cs) = match cut cs with
          | some (l, r) => some (':' :: l, r)
          | none => none := by
        rw [cut.eq_6] <;> simp
      simp only [line, alt, h, hcut]
      cases cut cs with
      | none => simp
      | some v => obtain ⟨l, r⟩ := v; simp [classify]
    · have h1 : comment (c :: cs) = .error := by
        have : (c == ':') = false := by simp [hcolon]
        simp [comment, takeOne, bind, this]
      by_cases hn : isNameChar c
      · have hf := field_eq (c :: cs) c cs rfl hn
        simp only [line, alt, h1, hf]
        cases cut (c :: cs) with
        | none => simp
        | some v => obtain ⟨l, r⟩ := v; simp
      · have h2 : field (c :: cs) = .error := by
          simp [field, takeWhile1, hn, bind]
        have hna : ¬ isAnyChar c := by
          simp only [isNameChar, isAnyChar, Bool.and_eq_true, bne_iff_ne, not_and] at *
          intro a b; exact absurd hcolon (by simpa using hn ⟨a, b⟩)
        have hne := endOfLine_not_error (c :: cs)
        simp only [line, alt, h1, h2, empty, bind, cut_eq, List.dropWhile_cons_of_neg hna,
          List.takeWhile_cons_of_neg hna] at *
        cases he : endOfLine (c :: cs) with
        | incomplete => simp
        | error => exact absurd he hne
        | ok rem u => simp [classify]

/-! ### From lines to events -/

open Verif.Spec.Sse (splitLines blocks)

theorem cut_length {s l r : Text} (h : cut s = some (l, r)) : r.length < s.length := by
  induction s using cut.induct generalizing l r with
  | case1 => simp [cut] at h
  | case2 cs => simp [cut] at h; simp [h.2]
  | case3 => simp [cut] at h
  | case4 cs => simp [cut] at h; simp [← h.2]; omega
  | case5 c cs hh => rw [cut.eq_5 _ _ hh] at h; simp at h; simp [← h.2]
  | case6 c cs h1 h2 h3 h4 l' r' hc ih =>
    rw [cut.eq_6 _ _ h1 h2 h3 h4, hc] at h
    simp at h
    have := ih hc
    simp [← h.2]; omega
  | case7 c cs h1 h2 h3 h4 hc ih =>
    rw [cut.eq_6 _ _ h1 h2 h3 h4, hc] at h; simp at h

theorem cut_append {s l r : Text} (h : cut s = some (l, r)) (t : Text) :
    cut (s ++ t) = some (l, r ++ t) := by
  induction s using cut.induct generalizing l r with
  | case1 => simp [cut] at h
  | case2 cs => simp [cut] at h; simp [cut, h]
  | case3 => simp [cut] at h
  | case4 cs => simp [cut] at h; simp [cut, h]
  | case5 c cs hh =>
    rw [cut.eq_5 _ _ hh] at h; simp at h
    simp only [List.cons_append]
    rw [cut.eq_5 _ _ hh]; simp [h.1, ← h.2]
  | case6 c cs h1 h2 h3 h4 l' r' hc ih =>
    rw [cut.eq_6 _ _ h1 h2 h3 h4, hc] at h
    simp at h
    have hcr : c ≠ '\r' := by
      intro e; subst e
      cases cs with
      | nil => exact h2 rfl rfl
      | cons d ds => exact h4 d ds rfl rfl
    have := ih hc
    simp only [List.cons_append]
    rw [cut.eq_6, this]
    · simp [h.1, ← h.2]
    · exact h1
    · intro e; exact absurd e hcr
    · intro _ e; exact absurd e hcr
    · intro _ _ e; exact absurd e hcr
  | case7 c cs h1 h2 h3 h4 hc ih =>
    rw [cut.eq_6 _ _ h1 h2 h3 h4, hc] at h; simp at h

theorem cut_line_clean {s l r : Text} (h : cut s = some (l, r)) : ∀ c ∈ l, isAnyChar c = true := by
  rw [cut_eq] at h
  split at h
  · injection h with h; injection h with h1 h2
    subst h1; intro c hc; exact mem_takeWhile_imp' hc
  · simp at h

/-- The specification's line splitting, one line at a time. -/
theorem splitLines_cut (acc s : Text) : splitLines acc s = match cut s with
    | none => ([], acc ++ s)
    | some (l, r) => ((acc ++ l) :: (splitLines [] r).1, (splitLines [] r).2) := by
  induction s using cut.induct generalizing acc with
  | case1 => simp [splitLines, cut]
  | case2 cs => simp [splitLines, cut]
  | case3 => simp [splitLines, cut]
  | case4 cs => simp [splitLines, cut]
  | case5 c cs hh =>
    rw [cut.eq_5 _ _ hh, splitLines.eq_5 _ _ _ hh]; simp
  | case6 c cs h1 h2 h3 h4 l' r' hc ih =>
    rw [cut.eq_6 _ _ h1 h2 h3 h4, splitLines.eq_6 _ _ _ h1 h2 h3 h4, ih, hc]; simp
  | case7 c cs h1 h2 h3 h4 hc ih =>
    rw [cut.eq_6 _ _ h1 h2 h3 h4, splitLines.eq_6 _ _ _ h1 h2 h3 h4, ih, hc]; simp

theorem splitLines_append (s t : Text) :
    splitLines [] (s ++ t) =
      ((splitLines [] s).1 ++ (splitLines [] ((splitLines [] s).2 ++ t)).1,
       (splitLines [] ((splitLines [] s).2 ++ t)).2) := by
  induction hn : s.length using Nat.strongRecOn generalizing s with
  | _ n ih =>
    rw [splitLines_cut [] s]
    cases hc : cut s with
    | none => simp
    | some v =>
      obtain ⟨l, r⟩ := v
      rw [splitLines_cut [] (s ++ t), cut_append hc]
      have := ih r.length (by have := cut_length hc; omega) r rfl
      simp [this]

theorem splitLines_rest (s : Text) : cut (splitLines [] s).2 = none := by
  induction hn : s.length using Nat.strongRecOn generalizing s with
  | _ n ih =>
    rw [splitLines_cut [] s]
    cases hc : cut s with
    | none => simpa using hc
    | some v =>
      obtain ⟨l, r⟩ := v
      simpa using ih r.length (by have := cut_length hc; omega) r rfl

theorem splitLines_clean (s : Text) : ∀ l ∈ (splitLines [] s).1, ∀ c ∈ l, isAnyChar c = true := by
  induction hn : s.length using Nat.strongRecOn generalizing s with
  | _ n ih =>
    rw [splitLines_cut [] s]
    cases hc : cut s with
    | none => simp
    | some v =>
      obtain ⟨l, r⟩ := v
      have := ih r.length (by have := cut_length hc; omega) r rfl
      intro x hx
      simp at hx
      rcases hx with rfl | hx
      · exact cut_line_clean hc
      · exact this x hx

/-- The builder run over complete lines. -/
def runLines (b : Builder) : List Text → List Event × Builder
  | [] => ([], b)
  | l :: ls =>
    let b' := b.add (classify l)
    if b'.isComplete then
      let r := runLines {} ls
      (match b'.dispatch with
        | some e => e :: r.1
        | none => r.1, r.2)
    else runLines b' ls

theorem runLines_append (b : Builder) (xs ys : List Text) :
    runLines b (xs ++ ys) =
      ((runLines b xs).1 ++ (runLines (runLines b xs).2 ys).1, (runLines (runLines b xs).2 ys).2) := by
  induction xs generalizing b with
  | nil => simp [runLines]
  | cons x xs ih =>
    simp only [List.cons_append, runLines]
    by_cases h : (b.add (classify x)).isComplete
    · simp only [h, if_true, ih]
      cases (b.add (classify x)).dispatch <;> simp
    · simp only [h, if_false, ih]; simp

theorem parseOneLoop_eq (fuel : Nat) (s : Text) (b : Builder) (hf : s.length < fuel) :
    (parseOneLoop fuel ⟨s, b⟩ = some (none, ⟨(splitLines [] s).2, (runLines b (splitLines [] s).1).2⟩)
      ∧ (runLines b (splitLines [] s).1).1 = []) ∨
    ∃ e s', parseOneLoop fuel ⟨s, b⟩ = some (some e, ⟨s', {}⟩) ∧ s'.length < s.length ∧
      (splitLines [] s').2 = (splitLines [] s).2 ∧
      runLines b (splitLines [] s).1 =
        (e :: (runLines {} (splitLines [] s').1).1, (runLines {} (splitLines [] s').1).2) := by
  induction fuel generalizing s b with
  | zero => omega
  | succ fuel ih =>
    simp only [parseOneLoop, line_eq]
    rw [splitLines_cut [] s]
    cases hc : cut s with
    | none => left; simp [runLines]
    | some v =>
      obtain ⟨l, r⟩ := v
      have hl := cut_length hc
      simp only [List.nil_append, runLines]
      by_cases hcomp : (b.add (classify l)).isComplete
      · simp only [hcomp, if_true]
        cases hd : (b.add (classify l)).dispatch with
        | some e => right; exact ⟨e, r, rfl, hl, rfl, rfl⟩
        | none =>
          rcases ih r {} (by omega) with ⟨h1, h2⟩ | ⟨e, s', h1, h2, h3, h4⟩
          · left; exact ⟨h1, h2⟩
          · right; exact ⟨e, s', h1, by omega, h3, by simp [h4]⟩
      · simp only [hcomp]
        rcases ih r (b.add (classify l)) (by omega) with ⟨h1, h2⟩ | ⟨e, s', h1, h2, h3, h4⟩
        · left; exact ⟨by simpa using h1, by simpa using h2⟩
        · right; exact ⟨e, s', by simpa using h1, by omega, h3, by simpa using h4⟩

theorem parseOne_eq (s : Text) (b : Builder) :
    (parseOne ⟨s, b⟩ = some (none, ⟨(splitLines [] s).2, (runLines b (splitLines [] s).1).2⟩)
      ∧ (runLines b (splitLines [] s).1).1 = []) ∨
    ∃ e s', parseOne ⟨s, b⟩ = some (some e, ⟨s', {}⟩) ∧ s'.length < s.length ∧
      (splitLines [] s').2 = (splitLines [] s).2 ∧
      runLines b (splitLines [] s).1 =
        (e :: (runLines {} (splitLines [] s').1).1, (runLines {} (splitLines [] s').1).2) := by
  by_cases h : s = []
  · subst h; left; simp [parseOne, splitLines, runLines]
  · simp only [parseOne, h, if_false]
    exact parseOneLoop_eq _ s b (by simp)

theorem parseLoop_eq (fuel : Nat) (s : Text) (b : Builder) (hf : s.length < fuel) :
    parseLoop fuel ⟨s, b⟩ = some ((runLines b (splitLines [] s).1).1,
      ⟨(splitLines [] s).2, (runLines b (splitLines [] s).1).2⟩) := by
  induction fuel generalizing s b with
  | zero => omega
  | succ fuel ih =>
    rcases parseOne_eq s b with ⟨h1, h2⟩ | ⟨e, s', h1, h2, h3, h4⟩
    · simp [parseLoop, h1, h2]
    · simp only [parseLoop, h1]
      rw [ih s' {} (by omega)]
      simp [h4, h3]

/-- The parser applied to a chunk: split buffer and chunk into lines and run the builder. -/
theorem parseText_eq (p : Parser) (chunk : Text) :
    parseText p chunk = some ((runLines p.builder (splitLines [] (p.buffer ++ chunk)).1).1,
      ⟨(splitLines [] (p.buffer ++ chunk)).2,
       (runLines p.builder (splitLines [] (p.buffer ++ chunk)).1).2⟩) := by
  obtain ⟨s, b⟩ := p
  exact parseLoop_eq _ _ _ (by simp)

theorem feedAll_eq (p : Parser) (hp : cut p.buffer = none) (chunks : List Text) :
    feedAll p chunks = parseText p chunks.flatten := by
  induction chunks generalizing p with
  | nil =>
    have : splitLines [] p.buffer = ([], p.buffer) := by rw [splitLines_cut, hp]; simp
    simp [feedAll, parseText_eq, this, runLines]
  | cons c cs ih =>
    simp only [feedAll, parseText_eq p c]
    rw [ih _ (by simpa using splitLines_rest _)]
    simp only [parseText_eq, List.flatten_cons]
    rw [← List.append_assoc, splitLines_append (p.buffer ++ c), runLines_append]

/-! ### The builder against the specification -/

open Verif.Spec.Sse (fieldOf values joinData eventOf)

theorem classify_ne_empty {l : Text} (h : l ≠ []) : classify l ≠ .empty := by
  unfold classify
  split
  · contradiction
  · simp
  · split <;> simp

theorem add_isComplete (b : Builder) {l : Text} (h : l ≠ []) :
    (b.add (classify l)).isComplete = b.isComplete := by
  have := classify_ne_empty h
  cases hc : classify l with
  | empty => exact absurd hc this
  | comment => simp [Builder.add]
  | field n v =>
    simp only [Builder.add]
    repeat' split
    all_goals simp

/-- Builder after the lines of an open block. -/
def build (acc : List Text) : Builder := acc.foldl (fun b l => b.add (classify l)) {}

theorem build_snoc (acc : List Text) (l : Text) : build (acc ++ [l]) = (build acc).add (classify l) := by
  simp [build]

theorem build_isComplete (acc : List Text) (h : ∀ l ∈ acc, l ≠ []) :
    (build acc).isComplete = false := by
  induction acc using snoc_ind with
  | nil => rfl
  | snoc xs x ih =>
    rw [build_snoc, add_isComplete _ (h x (by simp))]
    exact ih (fun l hl => h l (by simp [hl]))

theorem runLines_build (acc ls : List Text) (h : ∀ l ∈ acc, l ≠ []) :
    (runLines (build acc) ls).1 =
      (blocks acc ls).1.filterMap (fun blk => (build blk).dispatch) := by
  induction ls generalizing acc with
  | nil => simp [runLines, blocks]
  | cons l ls ih =>
    by_cases hl : l = []
    · subst hl
      have h0 := ih [] (by simp)
      have he : ((build acc).add .empty).dispatch = (build acc).dispatch := rfl
      simp only [runLines, blocks, classify, Builder.add, if_true, List.filterMap_cons]
      have hb : build [] = ({} : Builder) := rfl
      rw [hb] at h0
      simp only [Builder.add] at he
      rw [he, h0]
      cases (build acc).dispatch <;> rfl
    · have hb : blocks acc (l :: ls) = blocks (acc ++ [l]) ls := by
        cases l with
        | nil => contradiction
        | cons c cs => simp [blocks]
      have hc : ((build acc).add (classify l)).isComplete = false := by
        rw [add_isComplete _ hl, build_isComplete acc h]
      rw [hb, ← ih (acc ++ [l]) (by
        intro x hx; simp at hx; rcases hx with hx | rfl
        · exact h x hx
        · exact hl), build_snoc]
      simp [runLines, hc]

/-- All lines of a block come from the line list and are not empty. -/
theorem blocks_mem (acc ls : List Text) (blk : List Text) (h : blk ∈ (blocks acc ls).1) :
    ∀ l ∈ blk, l ∈ acc ∨ (l ∈ ls ∧ l ≠ []) := by
  induction ls generalizing acc with
  | nil => simp [blocks] at h
  | cons x xs ih =>
    by_cases hx : x = []
    · subst hx
      simp [blocks] at h
      rcases h with rfl | h
      · intro l hl; exact Or.inl hl
      · intro l hl
        rcases ih [] h l hl with h' | h'
        · simp at h'
        · exact Or.inr ⟨by simp [h'.1], h'.2⟩
    · have hb : blocks acc (x :: xs) = blocks (acc ++ [x]) xs := by
        cases x with
        | nil => contradiction
        | cons c cs => simp [blocks]
      rw [hb] at h
      intro l hl
      rcases ih _ h l hl with h' | h'
      · simp at h'
        rcases h' with h' | rfl
        · exact Or.inl h'
        · exact Or.inr ⟨by simp, hx⟩
      · exact Or.inr ⟨by simp [h'.1], h'.2⟩

theorem dropWhile_name_clean (l : Text) (h : ∀ c ∈ l, isAnyChar c = true) :
    l.dropWhile isNameChar = l.dropWhile (· ≠ ':') ∧
    l.takeWhile isNameChar = l.takeWhile (· ≠ ':') := by
  induction l with
  | nil => simp
  | cons c cs ih =>
    have hc := h c (by simp)
    have := ih (fun d hd => h d (by simp [hd]))
    have he : isNameChar c = decide (c ≠ ':') := by
      simp [isAnyChar] at hc
      simp only [isNameChar, hc.1, hc.2, bne, beq_eq_false_iff_ne.2, ne_eq, not_false_eq_true, Bool.not_false, Bool.true_and]
      by_cases hx : c = ':' <;> simp [hx]
    by_cases hcol : c = ':'
    · subst hcol; simp [isNameChar]
    · rw [List.dropWhile_cons_of_pos (by rw [he]; simpa using hcol),
        List.takeWhile_cons_of_pos (by rw [he]; simpa using hcol),
        List.dropWhile_cons_of_pos (by simpa using hcol),
        List.takeWhile_cons_of_pos (by simpa using hcol)]
      exact ⟨this.1, by rw [this.2]⟩

/-- The classification of a clean line agrees with the specification's field reading. -/
theorem classify_fieldOf (l : Text) (h0 : l ≠ []) (h : ∀ c ∈ l, isAnyChar c = true) :
    (fieldOf l = none ∧ ∃ c, classify l = .comment c) ∨
    ∃ n v, classify l = .field n v ∧ fieldOf l = some (n, v.getD []) := by
  obtain ⟨h1, h2⟩ := dropWhile_name_clean l h
  cases l with
  | nil => contradiction
  | cons c cs =>
    by_cases hc : c = ':'
    · subst hc; left; simp [fieldOf, classify]
    · right
      rw [classify.eq_3 _ (by simp) (by intro x hx; simp at hx; exact hc hx.1),
        fieldOf.eq_2 _ (by intro x hx; simp at hx; exact hc hx.1), h1, h2]
      cases hd : List.dropWhile (· ≠ ':') (c :: cs) with
      | nil => exact ⟨_, _, rfl, rfl⟩
      | cons d r =>
        cases r with
        | nil => exact ⟨_, _, rfl, rfl⟩
        | cons e r' =>
          by_cases he : e = ' '
          · subst he; exact ⟨_, _, rfl, rfl⟩
          · refine ⟨(c :: cs).takeWhile (· ≠ ':'), some (e :: r'), ?_, ?_⟩
            · split
              · simp at *
              · rename_i heq; simp at heq; exact absurd heq.2.1 he
              · rename_i heq; simp at heq; simp [heq.2]
            · split
              · rename_i heq; simp at heq; exact absurd heq.2.1 he
              · rename_i heq; simp at heq; simp [heq.2]
              · simp at *

/-! data joining -/

/-- The builder's way to accumulate data values. -/
def accData (d v : Text) : Text := (if d = [] then [] else d ++ [lf]) ++ v

theorem intercalate_snoc (vs : List Text) (v : Text) (h : vs ≠ []) :
    List.intercalate ['\n'] (vs ++ [v]) = List.intercalate ['\n'] vs ++ '\n' :: v := by
  induction vs with
  | nil => contradiction
  | cons x xs ih =>
    cases xs with
    | nil => simp [List.intercalate, List.intersperse]
    | cons y ys =>
      have := ih (by simp)
      simp [List.intercalate, List.intersperse] at this ⊢
      rw [this]

theorem intercalate_ne_nil (vs : List Text) (h : vs.dropWhile (· = []) ≠ []) :
    List.intercalate ['\n'] (vs.dropWhile (· = [])) ≠ [] := by
  cases hd : vs.dropWhile (· = []) with
  | nil => contradiction
  | cons x xs =>
    have hx : x ≠ [] := by
      have := List.head?_dropWhile_not (· = ([] : Text)) vs
      rw [hd] at this; simpa using this
    cases xs with
    | nil => simpa [List.intercalate, List.intersperse] using hx
    | cons y ys => simp [List.intercalate, List.intersperse, hx]

theorem foldl_accData (vs : List Text) :
    vs.foldl accData [] = List.intercalate ['\n'] (vs.dropWhile (· = [])) := by
  induction vs using snoc_ind with
  | nil => rfl
  | snoc xs x ih =>
    rw [List.foldl_append, List.foldl_cons, List.foldl_nil, ih]
    by_cases h : xs.dropWhile (· = []) = []
    · have hall : ∀ y ∈ xs, y = [] := by
        intro y hy
        have : ∀ (zs : List Text), zs.dropWhile (· = []) = [] → ∀ z ∈ zs, z = [] := by
          intro zs
          induction zs with
          | nil => simp
          | cons z zs ih =>
            by_cases hz : z = []
            · subst hz; simpa using ih
            · simp [hz]
        exact this xs h y hy
      have h2 : (xs ++ [x]).dropWhile (· = []) = [x].dropWhile (· = []) := by
        clear ih h
        induction xs with
        | nil => rfl
        | cons z zs ih =>
          have hz := hall z (by simp)
          subst hz
          simp only [List.cons_append]
          rw [List.dropWhile_cons_of_pos (by simp)]
          exact ih (fun y hy => hall y (by simp [hy]))
      rw [h, h2]
      by_cases hx : x = []
      · subst hx; simp [accData, List.intercalate, List.intersperse]
      · simp [accData, List.intercalate, List.intersperse, hx]
    · have h2 : (xs ++ [x]).dropWhile (· = []) = xs.dropWhile (· = []) ++ [x] := by
        clear ih
        induction xs with
        | nil => simp at h
        | cons z zs ih =>
          by_cases hz : z = []
          · subst hz
            simp only [List.cons_append]
            rw [List.dropWhile_cons_of_pos (by simp), List.dropWhile_cons_of_pos (by simp)]
            rw [List.dropWhile_cons_of_pos (by simp)] at h
            exact ih h
          · simp [hz]
      rw [h2, intercalate_snoc _ _ h]
      simp [accData, intercalate_ne_nil xs h, lf]

theorem number_eq (v : Text) : parseU64 v = Verif.Spec.Sse.number v := by
  have key : ∀ (ds : Text) (a : Nat), digitsVal a ds =
      if ds.all (fun c => '0' ≤ c && c ≤ '9') then
        some (ds.foldl (fun a c => a * 10 + (c.toNat - 48)) a) else none := by
    intro ds
    induction ds with
    | nil => simp [digitsVal]
    | cons c cs ih =>
      intro a
      by_cases hc : '0' ≤ c ∧ c ≤ '9'
      · simp [digitsVal, digit?, hc, ih]
      · simp only [digitsVal, digit?, hc, if_false, List.all_cons]
        have : (decide ('0' ≤ c) && decide (c ≤ '9')) = false := by
          simpa using hc
        simp [this]
  have aux : ∀ ds : Text, (match ds with
      | [] => none
      | _ => match digitsVal 0 ds with
        | some n => if n < 2 ^ 64 then some n else none
        | none => none) =
      if ds ≠ [] ∧ ds.all (fun c => '0' ≤ c && c ≤ '9') then
        (if ds.foldl (fun a c => a * 10 + (c.toNat - 48)) 0 < 2 ^ 64
          then some (ds.foldl (fun a c => a * 10 + (c.toNat - 48)) 0) else none)
      else none := by
    intro ds
    cases ds with
    | nil => simp
    | cons c cs =>
      simp only [key]
      by_cases h : (c :: cs).all (fun c => '0' ≤ c && c ≤ '9')
      · rw [if_pos h, if_pos ⟨by simp, h⟩]
      · rw [if_neg h, if_neg (fun hh => h hh.2)]
  unfold parseU64 Verif.Spec.Sse.number
  exact aux _

/-- The fields of the builder after the lines of a block. -/
theorem build_fields (acc : List Text) (h0 : ∀ l ∈ acc, l ≠ [])
    (h : ∀ l ∈ acc, ∀ c ∈ l, isAnyChar c = true) :
    (build acc).event = {
      event := ((values "event".toList acc).getLast?).getD []
      data := (values "data".toList acc).foldl accData []
      id := (((values "id".toList acc).filter (fun v => !v.contains '\x00')).getLast?).getD []
      retry := ((values "retry".toList acc).filterMap Verif.Spec.Sse.number).getLast? } := by
  induction acc using snoc_ind with
  | nil => rfl
  | snoc xs x ih =>
    have ih := ih (fun l hl => h0 l (by simp [hl])) (fun l hl => h l (by simp [hl]))
    rw [build_snoc]
    have hv : ∀ name, values name (xs ++ [x]) = values name xs ++ values name [x] := by
      intro name; simp [values]
    rcases classify_fieldOf x (h0 x (by simp)) (h x (by simp)) with ⟨h1, c, h2⟩ | ⟨n, v, h1, h2⟩
    · have hx : ∀ name, values name [x] = [] := by intro name; simp [values, h1]
      rw [h2]
      simp [Builder.add, ih, hv, hx]
    · have hx : ∀ name, values name [x] = if n = name then [v.getD []] else [] := by
        intro name; simp only [values, List.filterMap_cons, h2, List.filterMap_nil]
        by_cases hn : n = name <;> simp [hn]
      rw [h1]
      simp only [Builder.add, hv, hx]
      have d1 : "event".toList ≠ "data".toList := by decide
      have d2 : "event".toList ≠ "id".toList := by decide
      have d3 : "event".toList ≠ "retry".toList := by decide
      have d4 : "data".toList ≠ "id".toList := by decide
      have d5 : "data".toList ≠ "retry".toList := by decide
      have d6 : "id".toList ≠ "retry".toList := by decide
      generalize "event".toList = E at *
      generalize "data".toList = D at *
      generalize "id".toList = I at *
      generalize "retry".toList = R at *
      by_cases e1 : n = E
      · subst e1; simp [ih, d1, d2, d3]
      · by_cases e2 : n = D
        · subst e2; simp [ih, accData, e1, d4, d5]
        · by_cases e3 : n = I
          · subst e3
            by_cases hz : (v.getD []).contains '\x00'
            · simp at hz; simp [ih, hz, e1, e2, d6]
            · simp at hz; simp [ih, hz, e1, e2, d6]
          · by_cases e4 : n = R
            · subst e4
              simp only [number_eq, ih, e1, e2, e3, if_false, if_true]
              cases hnum : Verif.Spec.Sse.number (v.getD []) <;> simp [ih, hnum]
            · simp [e1, e2, e3, e4, ih]

end Verif.Sse
