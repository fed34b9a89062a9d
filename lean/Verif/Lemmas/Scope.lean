import Verif.Lemmas.Store
/-! Scopes of response variables. -/
set_option linter.unusedSimpArgs false
namespace Verif
open Spec

/-- Text without dots before a dot. -/
theorem dot_split {a b r s : Text} (ha : '.' ∉ a) (hb : '.' ∉ b) (h : a ++ '.' :: r = b ++ '.' :: s) : a = b ∧ r = s := by
  induction a generalizing b with
  | nil =>
    cases b with
    | nil => simpa using h
    | cons y b =>
      simp only [List.nil_append, List.cons_append, List.cons.injEq] at h
      exact absurd (by rw [h.1]; simp) hb
  | cons x a ih =>
    cases b with
    | nil =>
      simp only [List.nil_append, List.cons_append, List.cons.injEq] at h
      exact absurd (by rw [← h.1]; simp) ha
    | cons y b =>
      simp only [List.cons_append, List.cons.injEq] at h
      simp only [List.mem_cons, not_or] at ha hb
      obtain ⟨h1, h2⟩ := ih ha.2 hb.2 h.2
      exact ⟨by rw [h.1, h1], h2⟩

theorem joinWith_cons (sep t : Text) {ts : List Text} (h : ts ≠ []) :
    joinWith sep (t :: ts) = t ++ sep ++ joinWith sep ts := by
  cases ts with
  | nil => exact absurd rfl h
  | cons => rfl

/-- A joined list extends another one exactly if the lists do. -/
theorem join_prefix {A B : List Text} (hA : A ≠ []) (hB : B ≠ []) (dA : ∀ t ∈ A, '.' ∉ t) (dB : ∀ t ∈ B, '.' ∉ t) :
    (joinWith ['.'] B = joinWith ['.'] A ∨ joinWith ['.'] A ++ ['.'] <+: joinWith ['.'] B) ↔ A <+: B := by
  induction A generalizing B with
  | nil => exact absurd rfl hA
  | cons a A ih =>
    cases B with
    | nil => exact absurd rfl hB
    | cons b B =>
      have ha := dA a (by simp)
      have hb := dB b (by simp)
      by_cases h1 : A = []
      · subst h1
        by_cases h2 : B = []
        · subst h2
          simp only [joinWith]
          constructor
          · rintro (h | h)
            · rw [h]
              exact List.prefix_rfl
            · exact absurd (h.subset (by simp)) hb
          · rintro ⟨c, hc⟩
            simp at hc
            exact .inl hc.1.symm
        · rw [joinWith_cons _ _ h2]
          simp only [joinWith, List.append_assoc, List.cons_append, List.nil_append]
          constructor
          · rintro (h | ⟨c, hc⟩)
            · exact absurd (by rw [← h]; simp) ha
            · rw [List.append_assoc, List.cons_append, List.nil_append] at hc
              rw [(dot_split ha hb hc).1]
              exact ⟨B, rfl⟩
          · rintro ⟨c, hc⟩
            simp only [List.cons_append, List.nil_append, List.cons.injEq] at hc
            exact .inr ⟨joinWith ['.'] B, by simp [hc.1]⟩
      · rw [joinWith_cons _ _ h1]
        by_cases h2 : B = []
        · subst h2
          simp only [joinWith, List.append_assoc, List.cons_append, List.nil_append]
          constructor
          · rintro (h | h)
            · exact absurd (by rw [h]; simp) hb
            · exact absurd (h.subset (by simp)) hb
          · rintro ⟨c, hc⟩
            simp only [List.cons_append, List.cons.injEq, List.append_eq_nil_iff] at hc
            exact absurd hc.2.1 h1
        · rw [joinWith_cons _ _ h2]
          have ih' := ih h1 h2 (fun t ht => dA t (by simp [ht])) (fun t ht => dB t (by simp [ht]))
          simp only [List.append_assoc, List.cons_append, List.nil_append]
          rw [List.cons_prefix_cons, ← ih']
          constructor
          · rintro (h | ⟨c, hc⟩)
            · obtain ⟨h3, h4⟩ := dot_split hb ha h
              exact ⟨h3.symm, .inl h4⟩
            · simp only [List.append_assoc, List.cons_append, List.nil_append] at hc
              obtain ⟨h3, h4⟩ := dot_split ha hb hc
              exact ⟨h3, .inr ⟨c, by simpa using h4⟩⟩
          · rintro ⟨rfl, h | ⟨c, hc⟩⟩
            · exact .inl (by rw [h])
            · exact .inr ⟨c, by rw [← hc]; simp⟩

theorem natText_dot (n : Nat) : '.' ∉ natText n := fun h => by
  have := natText_digit h
  exact absurd this (by decide)

theorem map_natText_prefix {p q : List Nat} : p.map natText <+: q.map natText ↔ p <+: q := by
  constructor
  · intro h
    induction p generalizing q with
    | nil => exact List.nil_prefix
    | cons a p ih =>
      cases q with
      | nil => simp at h
      | cons b q =>
        simp only [List.map_cons, List.cons_prefix_cons] at h ⊢
        exact ⟨natText_inj h.1, ih h.2⟩
  · rintro ⟨c, rfl⟩
    exact ⟨c.map natText, by simp⟩

theorem isAncestor_iff {p q : List Nat} (hp : p ≠ []) (hq : q ≠ []) :
    isAncestor (actionId p) (actionId q) = true ↔ p <+: q := by
  unfold isAncestor actionId
  rw [Bool.or_eq_true, decide_eq_true_eq, startsWith_iff,
    join_prefix (by simpa using hp) (by simpa using hq) (by simp [natText_dot]) (by simp [natText_dot]),
    map_natText_prefix]

/-- An enclosing action's identifier is not above the nested one's. -/
theorem ancestor_le {s i : Text} (h : isAncestor s i = true) : textLe s i = true := by
  unfold isAncestor at h
  rw [Bool.or_eq_true, decide_eq_true_eq, startsWith_iff] at h
  rcases h with rfl | ⟨c, rfl⟩
  · exact textLe_refl _
  · rw [List.append_assoc]; exact textLe_append _ _

theorem actionId_inj {p q : List Nat} (hp : p ≠ []) (hq : q ≠ []) (h : actionId p = actionId q) : p = q := by
  have h1 := (isAncestor_iff hp hq).1 (by unfold isAncestor; simp [h])
  have h2 := (isAncestor_iff hq hp).1 (by unfold isAncestor; simp [h])
  exact h1.eq_of_length (Nat.le_antisymm h1.length_le h2.length_le)

section
variable {α : Type}

/-- Sorting keeps the order of entries with the same key. -/
theorem filter_sort (l : List (Text × α)) (k : Text) :
    (l.mergeSort fun a b => textLe a.1 b.1).filter (fun e => e.1 = k) = l.filter fun e => e.1 = k := by
  have hs : List.Sublist (l.filter fun e => decide (e.1 = k)) <| l.mergeSort fun a b => textLe a.1 b.1 := by
    refine List.sublist_mergeSort (fun a b c => textLe_trans a.1 b.1 c.1) (fun a b => textLe_total a.1 b.1) ?_
      List.filter_sublist
    refine List.pairwise_of_forall_mem_list fun a ha b hb => ?_
    have h1 : a.1 = k := by simpa using (List.mem_filter.1 ha).2
    have h2 : b.1 = k := by simpa using (List.mem_filter.1 hb).2
    rw [h1, h2]; exact textLe_refl _
  have h2 := hs.filter fun e => decide (e.1 = k)
  rw [List.filter_filter] at h2
  simp only [Bool.and_self] at h2
  refine (h2.eq_of_length ?_).symm
  exact ((List.mergeSort_perm l _).filter _).length_eq.symm

end

/-- The last entry of a list with a property. -/
theorem last_with {α : Type} {P : α → Bool} {l : List α} (h : ∃ x ∈ l, P x = true) :
    ∃ a x b, l = a ++ x :: b ∧ P x = true ∧ ∀ y ∈ b, P y = false := by
  induction l with
  | nil => simp at h
  | cons y l ih =>
    by_cases hl : ∃ x ∈ l, P x = true
    · obtain ⟨a, x, b, h1, h2, h3⟩ := ih hl
      exact ⟨y :: a, x, b, by rw [h1]; rfl, h2, h3⟩
    · obtain ⟨x, hx, hP⟩ := h
      rcases List.mem_cons.1 hx with rfl | hx
      · exact ⟨[], x, l, rfl, hP, fun y hy => by
          by_cases hy' : P y = true
          · exact absurd ⟨y, hy, hy'⟩ hl
          · simpa using hy'⟩
      · exact absurd ⟨x, hx, hP⟩ hl

theorem lookup_reverse {β : Type} (a b : List (Text × β)) (n : Text) (v : β) (h : ∀ y ∈ b, y.1 ≠ n) :
    (a ++ (n, v) :: b).reverse.lookup n = some v := by
  have happ : ∀ (l m : List (Text × β)), (∀ y ∈ l, y.1 ≠ n) → (l ++ m).lookup n = m.lookup n := by
    intro l m hl
    induction l with
    | nil => rfl
    | cons y l ih =>
      obtain ⟨k, w⟩ := y
      have : (n == k) = false := beq_false_of_ne fun e => hl (k, w) (by simp) e.symm
      rw [List.cons_append, List.lookup_cons, this]
      exact ih fun y hy => hl y (by simp [hy])
  rw [List.reverse_append, List.reverse_cons, List.append_assoc,
    happ _ _ (fun y hy => h y (List.mem_reverse.1 hy))]
  simp

theorem lookup_none {β : Type} {l : List (Text × β)} {n : Text} (h : ∀ y ∈ l, y.1 ≠ n) : l.lookup n = none := by
  induction l with
  | nil => rfl
  | cons y l ih =>
    obtain ⟨k, w⟩ := y
    have : (n == k) = false := beq_false_of_ne fun e => h (k, w) (by simp) e.symm
    rw [List.lookup_cons, this]
    exact ih fun y hy => h y (by simp [hy])

end Verif
