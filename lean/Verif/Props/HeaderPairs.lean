import Verif.Spec.HeaderList
import Verif.Model.Headers
/-!
C40: header values from CEL are extracted faithfully.
-/
namespace Verif.Props
open Verif Spec

theorem fieldValue_iff (fields : List (Text × Val)) (name : Text) (v : Val) :
    fieldValue fields name = some v ↔ HasField fields name v := by
  induction fields with
  | nil =>
    constructor
    · intro h; exact nomatch h
    · intro h; cases h
  | cons e rest ih =>
    obtain ⟨other, w⟩ := e
    unfold fieldValue at ih ⊢
    by_cases h : other = name
    · subst h
      rw [List.find?_cons_of_pos (by simp)]
      constructor
      · intro h; cases h; exact .here _ _ _
      · intro h
        cases h with
        | here => rfl
        | later hne _ => exact absurd rfl hne
    · rw [List.find?_cons_of_neg (by simpa using h), ih]
      constructor
      · exact .later h
      · intro h'
        cases h' with
        | here => exact absurd rfl h
        | later _ h' => exact h'

theorem asStr_iff (o : Option Val) (t : Text) : o.bind Val.asStr = some t ↔ o = some (.str t) := by
  cases o with
  | none => simp
  | some v => cases v <;> simp [Val.asStr]

theorem keyValue_iff (fields : List (Text × Val)) (k v : Text) :
    keyValue fields = some (k, v) ↔ KeyValue fields k v := by
  unfold keyValue KeyValue
  rw [← fieldValue_iff, ← fieldValue_iff, ← asStr_iff, ← asStr_iff]
  generalize (fieldValue fields "key".toList).bind Val.asStr = a
  generalize (fieldValue fields "value".toList).bind Val.asStr = b
  cases a <;> cases b <;> simp

theorem headerPair_iff (item : Val) (k v : Text) : headerPair item = some (k, v) ↔ Stands item k v := by
  constructor
  · intro h
    unfold headerPair at h
    split at h
    · obtain ⟨rfl, rfl⟩ := Prod.mk.inj (Option.some.inj h)
      exact .pair _ _
    · rename_i name fields
      split at h
      · rename_i p hp
        obtain rfl := Option.some.inj h
        exact .keyValue ((keyValue_iff _ _ _).1 hp)
      · rename_i hp
        split at h
        · rename_i iname inner hf
          refine .header (fun k v hkv => ?_) ((fieldValue_iff _ _ _).1 hf) ((keyValue_iff _ _ _).1 h)
          rw [(keyValue_iff _ _ _).2 hkv] at hp
          exact nomatch hp
        · exact nomatch h
    · exact nomatch h
  · intro h
    cases h with
    | pair => rfl
    | keyValue h =>
      show (match keyValue _ with | some p => some p | none => _) = _
      rw [(keyValue_iff _ _ _).2 h]
    | header hno hf h =>
      rename_i name fields inner iname
      have hn : keyValue fields = none := by
        cases hp : keyValue fields with
        | none => rfl
        | some p => exact absurd ((keyValue_iff _ _ _).1 hp) (hno _ _)
      show (match keyValue fields with
        | some p => some p
        | none => match fieldValue fields "header".toList with
          | some (.struct _ inner) => keyValue inner
          | _ => none) = _
      rw [hn, (fieldValue_iff _ _ _).2 hf]
      exact (keyValue_iff _ _ _).2 h

/-- C40: a CEL list is turned into exactly the pairs its entries stand for, in order; entries of another
shape are dropped and none is invented. -/
theorem C40_list (items : List Val) (ps : List (Text × Text)) :
    headerPairs (.list items) = ps ↔ Pairs items ps := by
  show items.filterMap headerPair = ps ↔ _
  induction items generalizing ps with
  | nil =>
    constructor
    · rintro rfl; exact .nil
    · intro h; cases h; rfl
  | cons item items ih =>
    cases hp : headerPair item with
    | none =>
      have hno : ∀ k v, ¬Stands item k v := fun k v h => by
        rw [(headerPair_iff _ _ _).2 h] at hp; exact nomatch hp
      rw [List.filterMap_cons_none hp, ih]
      constructor
      · exact .other hno
      · intro h
        cases h with
        | entry h _ => exact absurd h (hno _ _)
        | other _ h => exact h
    | some p =>
      obtain ⟨k, v⟩ := p
      have hs := (headerPair_iff _ _ _).1 hp
      rw [List.filterMap_cons_some hp]
      constructor
      · rintro rfl; exact .entry hs ((ih _).1 rfl)
      · intro h
        cases h with
        | entry h hr =>
          obtain ⟨rfl, rfl⟩ := Prod.mk.inj (Option.some.inj (hp.symm.trans ((headerPair_iff _ _ _).2 h)))
          rw [(ih _).2 hr]
        | other h _ => exact absurd hs (h _ _)

/-- C40: any other value gives no header. -/
theorem C40_other (v : Val) (h : ∀ items, v ≠ .list items) : headerPairs v = [] := by
  cases v <;> first | rfl | exact absurd rfl (h _)

/-- C40: writing pairs as two-element lists and reading them back gives the same pairs. -/
theorem C40_lists (ps : List (Text × Text)) :
    headerPairs (.list (ps.map fun p => .list [.str p.1, .str p.2])) = ps := by
  refine (C40_list _ _).2 ?_
  induction ps with
  | nil => exact .nil
  | cons p ps ih => exact .entry (.pair p.1 p.2) ih

/-- C40: the same for structures with the fields `key` and `value`, as in the replies of the services,
alone or under `header`. -/
theorem C40_structs (ps : List (Text × Text)) (inner outer : Text) :
    headerPairs (.list (ps.map fun p =>
      .struct inner [("key".toList, .str p.1), ("value".toList, .str p.2)])) = ps ∧
    headerPairs (.list (ps.map fun p => .struct outer [("header".toList,
      .struct inner [("key".toList, .str p.1), ("value".toList, .str p.2)])])) = ps := by
  have hkv : ∀ k v : Text, KeyValue [("key".toList, .str k), ("value".toList, .str v)] k v := fun k v =>
    ⟨.here _ _ _, .later (by decide) (.here _ _ _)⟩
  constructor
  · refine (C40_list _ _).2 ?_
    induction ps with
    | nil => exact .nil
    | cons p ps ih => exact .entry (.keyValue (hkv p.1 p.2)) ih
  · refine (C40_list _ _).2 ?_
    induction ps with
    | nil => exact .nil
    | cons p ps ih =>
      refine .entry (.header (fun k v h => ?_) (.here _ _ _) (hkv p.1 p.2)) ih
      obtain ⟨h, -⟩ := h
      cases h with
      | later _ h => cases h

example : headerPairs (.list [.list [.str ['a'], .str ['1']], .int 3, .list [.str ['b']],
    .list [.str ['a'], .str ['2']]]) = [(['a'], ['1']), (['a'], ['2'])] := by
  with_unfolding_all rfl

end Verif.Props
