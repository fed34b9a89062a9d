import Verif.Lemmas.Legacy
/-! The predicates generated for rate limit actions. -/
set_option linter.unusedSimpArgs false
namespace Verif.Legacy
open Cel Parser

theorem allOf_truth {T : Ast → Prop} (h : Truth T) (as : List Ast) : T (allOf as) ↔ ∀ a ∈ as, T a := by
  have fold : ∀ (as : List Ast) (a : Ast), T (as.foldl (.binary .and) a) ↔ T a ∧ ∀ b ∈ as, T b := by
    intro as
    induction as with
    | nil => simp
    | cons b bs ih => intro a; rw [List.foldl_cons, ih, h.and]; simp [and_assoc]
  cases as with
  | nil => exact ⟨fun _ _ ha => (nomatch ha), fun _ => h.tt⟩
  | cons a as => simp [allOf, fold]

/-- Ways of being true. -/
abbrev Truths := { T : Ast → Prop // Truth T }

variable {P : Text → Ast}

/-- What a block's predicates mean together. -/
def blockTrue (P : Text → Ast) (T : Ast → Prop) (cd : ConditionalData) : Prop := ∀ p ∈ cd.predicates, T (P p)

theorem written_blockPredicate {cd : ConditionalData} (h : ∀ p ∈ cd.predicates, Proper P p)
    (h1 : ∀ p, cd.predicates = [p] → ProperOperand P p) :
    ∃ a, Written 2 (blockPredicate cd) a ∧ ∀ T : Truths, T.1 a ↔ blockTrue P T.1 cd := by
  unfold blockPredicate blockTrue
  split
  · rename_i p hp
    exact ⟨P p, operand_written (h1 p hp), fun T => by rw [hp]; simp⟩
  · refine ⟨_, (written_parens (written_all h)).lift (by decide) (by decide), fun T => ?_⟩
    rw [allOf_truth T.2]; simp

theorem written_onlyBlock {cd : ConditionalData} (h : ∀ p ∈ cd.predicates, Proper P p) :
    ∃ a, Written 1 (blockPredicate cd) a ∧ ∀ T : Truths, T.1 a ↔ blockTrue P T.1 cd := by
  unfold blockPredicate blockTrue
  split
  · rename_i p hp
    exact ⟨P p, sound_written (h p (by rw [hp]; exact .head _)), fun T => by rw [hp]; simp⟩
  · refine ⟨_, (written_parens (written_all h)).lift (by decide) (by decide), fun T => ?_⟩
    rw [allOf_truth T.2]; simp

theorem written_blockPredicates {blocks : List ConditionalData} (h : ∀ cd ∈ blocks, ∀ p ∈ cd.predicates, Proper P p)
    (h1 : ∀ cd ∈ blocks, ∀ p, cd.predicates = [p] → ProperOperand P p) :
    ∃ as, Each (Written 2) (blocks.map blockPredicate) as ∧
      ∀ T : Truths, (∃ a ∈ as, T.1 a) ↔ ∃ cd ∈ blocks, blockTrue P T.1 cd := by
  induction blocks with
  | nil => exact ⟨[], .nil, by simp⟩
  | cons cd blocks ih =>
    obtain ⟨as, h2, h3⟩ := ih (fun c hc => h c (by simp [hc])) (fun c hc => h1 c (by simp [hc]))
    obtain ⟨a, h4, h5⟩ := written_blockPredicate (h cd (by simp)) (h1 cd (by simp))
    refine ⟨a :: as, .cons h4 h2, fun T => ?_⟩
    have := h3 T
    simp only [List.mem_cons, exists_eq_or_imp, h5 T, this]

theorem written_true : Written 1 (lit "true") (.ident "true".toList) :=
  ⟨[.ident (lit "true")], ⟨by decide +kernel, by decide +kernel⟩, (reads_ident _).lift (by decide) (by decide)⟩

/-- Whether the conditional data of an action ask for a call. -/
def someBlock (P : Text → Ast) (T : Ast → Prop) (blocks : List ConditionalData) : Prop :=
  blocks = [] ∨ ∃ cd ∈ blocks, blockTrue P T cd

theorem written_descriptorPredicate {blocks : List ConditionalData}
    (h : ∀ cd ∈ blocks, ∀ p ∈ cd.predicates, Proper P p)
    (h1 : 2 ≤ blocks.length → ∀ cd ∈ blocks, ∀ p, cd.predicates = [p] → ProperOperand P p) :
    ∃ a, Written 1 (descriptorPredicate blocks) a ∧ ∀ T : Truths, T.1 a ↔ someBlock P T.1 blocks := by
  unfold descriptorPredicate someBlock
  split
  · rename_i hb
    have : blocks = [] := by simpa using hb
    exact ⟨_, written_true, fun T => ⟨fun _ => .inl this, fun _ => T.2.tt⟩⟩
  split
  · rename_i hb ha
    refine ⟨_, written_true, fun T => ?_⟩
    obtain ⟨cd, hcd, hp⟩ := List.any_eq_true.1 ha
    have hp' : cd.predicates = [] := by simpa using hp
    exact ⟨fun _ => .inr ⟨cd, hcd, by unfold blockTrue; rw [hp']; simp⟩, fun _ => T.2.tt⟩
  · rename_i hb ha
    match blocks, hb, h, h1 with
    | [], hb, _, _ => exact absurd rfl hb
    | [cd], _, h, _ =>
      obtain ⟨a, h2, h3⟩ := written_onlyBlock (h cd (by simp))
      exact ⟨a, by simpa [join] using h2, fun T => by rw [h3]; simp⟩
    | cd :: cd' :: rest, _, h, h1 =>
      obtain ⟨as, h2, h3⟩ := written_blockPredicates h (h1 (by simp))
      rw [List.map_cons] at h2 ⊢
      cases h2 with
      | cons h4 h5 =>
        obtain ⟨c, h6, h7⟩ := written_or (T := Truths) (fun T a => T.1 a) (fun T a b => T.2.or a b) h5 h4
        refine ⟨c, h6.lift (by decide) (by decide), fun T => ?_⟩
        rw [h7]
        have := h3 T
        simp only [List.mem_cons, exists_eq_or_imp] at this ⊢
        rw [this]; simp

theorem seg_and : Seg (')' :: lit " && (") [.sym .rpar, .sym .and, .sym .lpar] := seg_of (by decide +kernel)

theorem written_both {t u : Text} {a b : Ast} (ht : Written 1 t a) (hu : Written 1 u b) :
    Written 1 (lit "(" ++ t ++ lit ") && (" ++ u ++ lit ")") (.binary .and a b) := by
  obtain ⟨tt, ht1, ht2⟩ := ht
  obtain ⟨ut, hu1, hu2⟩ := hu
  have hr := Reads.binary (n := 3) (by decide) (by decide) ((reads_paren ht2).lift (by decide) (by decide))
    (t := .sym .and) rfl ((reads_paren hu2).lift (by decide) (by decide))
  refine ⟨_, ?_, hr.lift (by decide) (by decide)⟩
  have e1 : lit "(" = ['('] := by decide +kernel
  have e2 : lit ") && (" = ')' :: lit " && (" := by decide +kernel
  have e3 : lit ")" = [')'] := by decide +kernel
  have s1 : Seg ['('] [.sym .lpar] := seg_of rfl
  have s2 : Seg (')' :: []) [.sym .rpar] := seg_of rfl
  have := (s1.append (ht1.then ends_rpar seg_and)).append (hu1.then ends_rpar s2)
  rw [e1, e2, e3]
  simpa [List.append_assoc] using this.frag

/-- The predicate of a rate limit action. -/
theorem written_ratelimitPredicate {predicates : List Text} {blocks : List ConditionalData}
    (hp : ∀ p ∈ predicates, Proper P p) (h : ∀ cd ∈ blocks, ∀ p ∈ cd.predicates, Proper P p)
    (h1 : 2 ≤ blocks.length → ∀ cd ∈ blocks, ∀ p, cd.predicates = [p] → ProperOperand P p) :
    ∃ a, Written 1 (ratelimitPredicate predicates blocks) a ∧
      ∀ T : Truths, T.1 a ↔ (∀ p ∈ predicates, T.1 (P p)) ∧ someBlock P T.1 blocks := by
  have hA : Written 1 (actionPredicate predicates) (allOf (predicates.map P)) := written_all hp
  have hAT : ∀ T : Truths, T.1 (allOf (predicates.map P)) ↔ ∀ p ∈ predicates, T.1 (P p) := fun T => by
    rw [allOf_truth T.2]; simp
  obtain ⟨c, hC, hCT⟩ := written_descriptorPredicate h h1
  have isTrue : ∀ {t : Text} {a : Ast}, Written 1 t a → t = lit "true" → ∀ T : Truths, T.1 a := by
    rintro t a hw rfl T
    rw [parses_unique hw.parses written_true.parses]
    exact T.2.tt
  unfold ratelimitPredicate
  simp only
  split
  · rename_i he
    exact ⟨_, written_true, fun T => by
      rw [← hAT, ← hCT]
      exact ⟨fun _ => ⟨isTrue hA he.1 T, isTrue hC he.2 T⟩, fun _ => T.2.tt⟩⟩
  split
  · rename_i he
    exact ⟨c, hC, fun T => by rw [← hAT, ← hCT]; exact ⟨fun h => ⟨isTrue hA he T, h⟩, And.right⟩⟩
  split
  · rename_i he
    exact ⟨_, hA, fun T => by rw [← hAT, ← hCT]; exact ⟨fun h => ⟨h, isTrue hC he T⟩, And.left⟩⟩
  · exact ⟨_, written_both hA hC, fun T => by rw [T.2.and, hAT, hCT]⟩

end Verif.Legacy
