import Verif.Spec.Store
import Verif.Lemmas.Attributes
import Verif.Lemmas.Ids
/-! Lemmas on the order of texts, the value store and scopes. -/
set_option linter.unusedSimpArgs false
namespace Verif
open Spec

theorem char_lt_or_lt {x y : Char} (h : x ≠ y) : x < y ∨ y < x := by
  rcases Nat.lt_trichotomy x.val.toNat y.val.toNat with h' | h' | h'
  · exact .inl h'
  · exact absurd (Char.ext (UInt32.toNat_inj.1 h')) h
  · exact .inr h'

theorem textLe_refl (a : Text) : textLe a a = true := by
  induction a with
  | nil => rfl
  | cons x a ih => simp [textLe, ih]

theorem textLe_total (a b : Text) : (textLe a b || textLe b a) = true := by
  induction a generalizing b with
  | nil => simp [textLe]
  | cons x a ih =>
    cases b with
    | nil => simp [textLe]
    | cons y b =>
      simp only [textLe]
      by_cases h : x = y
      · subst h; simpa using ih b
      · have h' : y ≠ x := fun e => h e.symm
        simp only [h, h', if_false]
        rcases char_lt_or_lt h with h1 | h1 <;> simp [h1]

theorem textLe_trans (a b c : Text) (h1 : textLe a b = true) (h2 : textLe b c = true) : textLe a c = true := by
  induction a generalizing b c with
  | nil => simp [textLe]
  | cons x a ih =>
    cases b with
    | nil => simp [textLe] at h1
    | cons y b =>
      cases c with
      | nil => simp [textLe] at h2
      | cons z c =>
        simp only [textLe] at h1 h2 ⊢
        split at h1
        · rename_i hxy; subst hxy
          split at h2
          · rename_i hxz; subst hxz; simpa using ih b c h1 h2
          · rename_i hxz; simpa [hxz] using h2
        · rename_i hxy
          split at h2
          · rename_i hyz; subst hyz; simpa [hxy] using h1
          · have h1' : x < y := by simpa using h1
            have h2' : y < z := by simpa using h2
            have h3 : x < z := Char.lt_trans h1' h2'
            have : x ≠ z := by rintro rfl; exact Char.lt_irrefl _ h3
            simp [this, h3]

theorem textLe_antisymm (a b : Text) (h1 : textLe a b = true) (h2 : textLe b a = true) : a = b := by
  induction a generalizing b with
  | nil => cases b with
    | nil => rfl
    | cons => simp [textLe] at h2
  | cons x a ih =>
    cases b with
    | nil => simp [textLe] at h1
    | cons y b =>
      simp only [textLe] at h1 h2
      by_cases h : x = y
      · subst h; simp at h1 h2; rw [ih b h1 h2]
      · have h' : y ≠ x := fun e => h e.symm
        simp only [h, h', if_false, decide_eq_true_eq] at h1 h2
        exact absurd (Char.lt_trans h1 h2) (Char.lt_irrefl _)

theorem textLe_append (a b : Text) : textLe a (a ++ b) = true := by
  induction a with
  | nil => rfl
  | cons x a ih => simp [textLe, ih]

theorem startsWith_iff {t p : Text} : startsWith t p = true ↔ p <+: t := by
  unfold startsWith; exact List.isPrefixOf_iff_prefix

/-- Between a text and an extension of it there are only extensions. -/
theorem prefix_of_between {p a b : Text} (h1 : textLe p a = true) (h2 : textLe a (p ++ b) = true) : p <+: a := by
  induction p generalizing a with
  | nil => exact ⟨a, rfl⟩
  | cons x p ih =>
    cases a with
    | nil => simp [textLe] at h1
    | cons y a =>
      simp only [List.cons_append, textLe] at h1 h2
      by_cases h : x = y
      · subst h
        simp at h1 h2
        obtain ⟨c, hc⟩ := ih h1 h2
        exact ⟨c, by rw [List.cons_append, hc]⟩
      · have h' : y ≠ x := fun e => h e.symm
        simp only [h, h', if_false, decide_eq_true_eq] at h1 h2
        exact absurd (Char.lt_trans h1 h2) (Char.lt_irrefl _)

namespace ValueStore

/-- Ascending keys. -/
def Ascending (l : List (Text × Val)) : Prop := l.Pairwise fun a b => textLe a.1 b.1 = true ∧ a.1 ≠ b.1

theorem mem_treeInsert {k : Text} {v : Val} {l : List (Text × Val)} {e : Text × Val} (h : e ∈ treeInsert k v l) :
    e = (k, v) ∨ e ∈ l := by
  induction l with
  | nil => simpa [treeInsert] using h
  | cons a l ih =>
    unfold treeInsert at h
    split at h
    · rcases List.mem_cons.1 h with h | h <;> simp [h]
    · split at h
      · rcases List.mem_cons.1 h with h | h <;> simp_all
      · rcases List.mem_cons.1 h with h | h
        · simp [h]
        · rcases ih h with h | h <;> simp [h]

theorem treeInsert_ascending {k : Text} {v : Val} {l : List (Text × Val)} (h : Ascending l) :
    Ascending (treeInsert k v l) := by
  unfold Ascending at h ⊢
  induction l with
  | nil => simp [treeInsert]
  | cons a l ih =>
    obtain ⟨h1, h2⟩ := List.pairwise_cons.1 h
    unfold treeInsert
    split
    · rename_i hk
      subst hk
      exact List.pairwise_cons.2 ⟨h1, h2⟩
    · rename_i hk
      split
      · rename_i hle
        refine List.pairwise_cons.2 ⟨fun e he => ?_, h⟩
        rcases List.mem_cons.1 he with rfl | he
        · exact ⟨hle, fun e => hk e.symm⟩
        · have := h1 e he
          refine ⟨textLe_trans _ _ _ hle this.1, ?_⟩
          rintro heq
          dsimp only at heq
          subst heq
          exact hk (textLe_antisymm _ _ this.1 hle)
      · rename_i hle
        refine List.pairwise_cons.2 ⟨fun e he => ?_, ih h2⟩
        rcases mem_treeInsert he with rfl | he
        · have := textLe_total k a.1
          simp [hle] at this
          exact ⟨this, hk⟩
        · exact h1 e he

theorem find_treeInsert (k : Text) (v : Val) (l : List (Text × Val)) (h : Ascending l) (p : Text) :
    ((treeInsert k v l).find? fun e => e.1 = p).map (·.2) =
      if p = k then some v else (l.find? fun e => e.1 = p).map (·.2) := by
  unfold Ascending at h
  induction l with
  | nil =>
    by_cases hp : p = k
    · subst hp; simp [treeInsert]
    · have : ¬ k = p := fun e => hp e.symm
      simp [treeInsert, hp, this]
  | cons a l ih =>
    have h2 := (List.pairwise_cons.1 h).2
    unfold treeInsert
    split
    · rename_i hk
      by_cases hp : p = k
      · subst hp; simp
      · have h3 : ¬ k = p := fun e => hp e.symm
        have h4 : ¬ a.1 = p := by rw [hk]; exact h3
        simp [List.find?_cons, h3, h4, hp]
    · rename_i hk
      split
      · by_cases hp : p = k
        · subst hp; simp
        · have h3 : ¬ k = p := fun e => hp e.symm
          simp [List.find?_cons, h3, hp]
      · by_cases hp : a.1 = p
        · have : ¬ p = k := by rw [← hp]; exact hk
          simp [List.find?_cons, hp, this]
        · simp only [List.find?_cons, hp, decide_false]
          exact ih h2

theorem mem_reserved_iff {s : ValueStore} {p : Text} :
    (s.reserved.any fun e => e.1 = p) = true ↔ mapGet s.reserved p ≠ none := by
  unfold mapGet
  simp only [List.any_eq_true, ne_eq, Option.map_eq_none_iff, List.find?_eq_none]
  constructor
  · rintro ⟨e, he, hp⟩ h
    exact h e he hp
  · intro h
    apply Classical.byContradiction
    intro h'
    exact h fun e he hp => h' ⟨e, he, hp⟩

theorem mapGet_filter_ne {β : Type} (m : List (Text × β)) (k p : Text) :
    mapGet (m.filter fun e => e.1 ≠ k) p = if p = k then none else mapGet m p := by
  unfold mapGet
  induction m with
  | nil => simp
  | cons e m ih =>
    by_cases he : e.1 = k
    · have : decide (e.1 ≠ k) = false := by simp [he]
      rw [List.filter_cons, this]
      simp only [Bool.false_eq_true, if_false]
      rw [ih]
      by_cases hp : p = k
      · simp [hp]
      · have : ¬ e.1 = p := by rw [he]; exact fun h => hp h.symm
        simp [List.find?_cons, this, hp]
    · have : decide (e.1 ≠ k) = true := by simp [he]
      rw [List.filter_cons, this]
      simp only [if_true]
      by_cases hp : e.1 = p
      · have : ¬ p = k := by rw [← hp]; exact he
        simp [List.find?_cons, hp, this]
      · simp only [List.find?_cons, hp, decide_false]
        exact ih

/-- The registry counts the writers that are alive. -/
theorem history_inv {s : ValueStore} {alive : List Text} {stored : List (Text × Val)}
    (h : StoreHistory s alive stored) :
    Ascending s.values ∧ (∀ p, s.get p = (stored.find? fun e => e.1 = p).map (·.2)) ∧
    ∀ p, mapGet s.reserved p = if alive.count p = 0 then none else some (alive.count p) := by
  induction h with
  | start => exact ⟨List.Pairwise.nil, fun _ => rfl, fun _ => rfl⟩
  | begins path _ ih =>
    obtain ⟨h1, h2, h3⟩ := ih
    refine ⟨h1, h2, fun p => ?_⟩
    show mapGet (mapInsert _ _ _) p = _
    rw [mapGet_mapInsert, h3 path, List.count_cons]
    by_cases hp : p = path
    · subst hp
      simp only [if_true, beq_self_eq_true]
      split
      · rename_i h; simp [h]
      · simp
    · have : (path == p) = false := beq_false_of_ne fun e => hp e.symm
      simp [hp, h3 p, this]
  | ends path _ hp ih =>
    rename_i s alive stored _
    obtain ⟨h1, h2, h3⟩ := ih
    have hpos : 0 < alive.count path := List.count_pos_iff.2 hp
    have hr : mapGet s.reserved path = some (alive.count path) := by
      rw [h3, if_neg (by omega)]
    unfold release
    rw [hr]
    dsimp only
    refine ⟨by split <;> exact h1, fun p => by split <;> exact h2 p, fun p => ?_⟩
    rw [List.count_erase]
    split
    · rename_i h0
      show mapGet (s.reserved.filter _) p = _
      rw [mapGet_filter_ne, h3 p]
      by_cases hpp : p = path
      · subst hpp; simp [h0]
      · have : (path == p) = false := beq_false_of_ne fun e => hpp e.symm
        simp [hpp, this]
    · rename_i h0
      show mapGet (mapInsert _ _ _) p = _
      rw [mapGet_mapInsert, h3 p]
      by_cases hpp : p = path
      · subst hpp; simp [h0]
      · have : (path == p) = false := beq_false_of_ne fun e => hpp e.symm
        simp [hpp, this]
  | stores path v _ ih =>
    obtain ⟨h1, h2, h3⟩ := ih
    refine ⟨treeInsert_ascending h1, fun p => ?_, h3⟩
    have := find_treeInsert path v _ h1 p
    unfold get store
    dsimp only
    rw [this]
    by_cases hp : p = path
    · subst hp; simp
    · have h' : ¬ path = p := fun e => hp e.symm
      simp only [hp, if_false, List.find?_cons, h', decide_false]
      exact h2 p

theorem any_key_iff {s : ValueStore} {p : Text} : (s.values.any fun e => e.1 = p) = (s.get p).isSome := by
  unfold get
  rw [Option.isSome_map]
  exact Bool.eq_iff_iff.2 (by simp [List.find?_isSome])

end ValueStore

end Verif
