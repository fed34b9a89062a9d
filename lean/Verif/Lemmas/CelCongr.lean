import Verif.Lemmas.CelMap
/-! The variables of an expression depend on the answers for its attributes only. -/
namespace Verif

/-- The tree has the attribute `p` at the place `loc`. -/
inductive LeafAt : List (Text × AttrTree) → Path → Path → Prop where
  | value {m k p} (h : (k, AttrTree.value p) ∈ m) : LeafAt m [k] p
  | node {m k n ks p} (h : (k, AttrTree.node n) ∈ m) (hl : LeafAt n ks p) : LeafAt m (k :: ks) p

theorem mem_of_mapInsert {α : Type} {m : List (Text × α)} {k k' : Text} {v v' : α}
    (h : (k, v) ∈ mapInsert m k' v') : (k, v) ∈ m ∨ (k = k' ∧ v = v') := by
  cases h with
  | head => exact .inr ⟨rfl, rfl⟩
  | tail _ h => exact .inl (List.mem_filter.mp h).1

theorem leafAt_nil {loc p : Path} : ¬ LeafAt [] loc p := by
  intro h
  cases h with
  | value h => cases h
  | node h _ => cases h

theorem leafAt_addPath {a tokens : Path} {m : List (Text × AttrTree)} {loc p : Path}
    (h : LeafAt (addPath a tokens m) loc p) : LeafAt m loc p ∨ (loc = tokens ∧ p = a) := by
  induction tokens generalizing m loc with
  | nil => exact .inl h
  | cons t ts ih =>
    cases ts with
    | nil =>
      rw [addPath] at h
      cases h with
      | value h =>
        cases mem_of_mapInsert h with
        | inl h => exact .inl (.value h)
        | inr h => obtain ⟨rfl, h'⟩ := h; cases h'; exact .inr ⟨rfl, rfl⟩
      | node h hl =>
        cases mem_of_mapInsert h with
        | inl h => exact .inl (.node h hl)
        | inr h => obtain ⟨rfl, h'⟩ := h; cases h'
    | cons t' ts =>
      rw [addPath] at h
      · split at h
        · cases h with
          | value h =>
            cases mem_of_mapInsert h with
            | inl h => exact .inl (.value h)
            | inr h => cases h.2
          | node h hl =>
            cases mem_of_mapInsert h with
            | inl h => exact .inl (.node h hl)
            | inr h =>
              obtain ⟨rfl, h'⟩ := h
              cases h'
              cases ih hl with
              | inl h => exact absurd h leafAt_nil
              | inr h => obtain ⟨rfl, rfl⟩ := h; exact .inr ⟨rfl, rfl⟩
        · rename_i n hn
          cases h with
          | value h =>
            cases mem_of_mapInsert h with
            | inl h => exact .inl (.value h)
            | inr h => cases h.2
          | node h hl =>
            cases mem_of_mapInsert h with
            | inl h => exact .inl (.node h hl)
            | inr h =>
              obtain ⟨rfl, h'⟩ := h
              cases h'
              cases ih hl with
              | inl h => exact .inl (.node (mapGet_mem_text hn) h)
              | inr h => obtain ⟨rfl, rfl⟩ := h; exact .inr ⟨rfl, rfl⟩
        · exact .inl h
      · intro h; cases h

theorem leafAt_attrTree {ps : List Path} {loc p : Path} (h : LeafAt (attrTree ps) loc p) : p ∈ ps ∧ loc = p := by
  have : ∀ (m : List (Text × AttrTree)), LeafAt (ps.foldl (fun m p => addPath p p m) m) loc p →
      LeafAt m loc p ∨ (p ∈ ps ∧ loc = p) := by
    clear h
    induction ps with
    | nil => exact fun m h => .inl h
    | cons q ps ih =>
      intro m h
      cases ih _ h with
      | inl h1 =>
        cases leafAt_addPath h1 with
        | inl h2 => exact .inl h2
        | inr h2 => obtain ⟨rfl, rfl⟩ := h2; exact .inr ⟨.head _, rfl⟩
      | inr h1 => exact .inr ⟨.tail _ h1.1, h1.2⟩
  cases this [] h with
  | inl h => exact absurd h leafAt_nil
  | inr h => exact h

section
variable (store : ValueStore) (get get' : Path → Ans Val)

mutual
theorem mapToValue_congr (pre : Text) (m : List (Text × AttrTree))
    (h : ∀ loc p, LeafAt m loc p → get p = get' p) : mapToValue store get pre m = mapToValue store get' pre m := by
  match m with
  | [] => rw [mapToValue, mapToValue]
  | (key, tree) :: rest =>
    have h1 := treeValue_congr (entryPath pre key) tree (fun p hp => h [key] p (by subst hp; exact .value (.head _)))
      (fun n loc p hn hl => h (key :: loc) p (by subst hn; exact .node (.head _) hl))
    have h2 := mapToValue_congr pre rest (fun loc p hl => h loc p (by
      cases hl with
      | value hl => exact .value (.tail _ hl)
      | node hl hr => exact .node (.tail _ hl) hr))
    rw [mapToValue, mapToValue, h1, h2]

theorem treeValue_congr (path : Text) (t : AttrTree) (h1 : ∀ p, t = .value p → get p = get' p)
    (h2 : ∀ n loc p, t = .node n → LeafAt n loc p → get p = get' p) :
    treeValue store get path t = treeValue store get' path t := by
  match t with
  | .value p => rw [treeValue, treeValue, h1 p rfl]
  | .node m => rw [treeValue, treeValue, mapToValue_congr path m fun loc p => h2 m loc p rfl]
end

theorem mapToValue_congr_top (m : List (Text × AttrTree))
    (h : ∀ key loc p, LeafAt m (key :: loc) p → (isHostRoot key = true ∨ store.hasPrefix (key ++ ['.']) = true) →
      get p = get' p) : mapToValue store get [] m = mapToValue store get' [] m := by
  induction m with
  | nil => rw [mapToValue, mapToValue]
  | cons x rest ih =>
    obtain ⟨key, tree⟩ := x
    have h2 := ih (fun k loc p hl => h k loc p (by
      cases hl with
      | value hl => exact .value (.tail _ hl)
      | node hl hr => exact .node (.tail _ hl) hr))
    rw [mapToValue, mapToValue, h2]
    split
    · rfl
    · split
      · rfl
      · split
        · rfl
        · rename_i hk
          have hk' : isHostRoot key = true ∨ store.hasPrefix (key ++ ['.']) = true := by
            simp only [decide_true, Bool.true_and, Bool.and_eq_true, Bool.not_eq_true', not_and] at hk
            cases hr : isHostRoot key with
            | true => exact .inl rfl
            | false => exact .inr (by simpa using hk hr)
          rw [treeValue_congr store get get' (entryPath [] key) tree
            (fun p hp => h key [] p (by subst hp; exact .value (.head _)) hk')
            (fun n loc p hn hl => h key loc p (by subst hn; exact .node (.head _) hl) hk')]

/-- The attributes that are not looked up are those under a root that is neither one of the host's nor one of a
stored value. -/
theorem celVars_congr (grpc : Option Val) (req resp scope : List (Text × Val)) (e : CompiledExpr)
    (h : ∀ p ∈ e.attributes, ∀ root, p.head? = some root →
      (isHostRoot root = true ∨ store.hasPrefix (root ++ ['.']) = true) → get p = get' p) :
    celVars store get grpc req resp scope e = celVars store get' grpc req resp scope e := by
  unfold celVars dataMap
  rw [mapToValue_congr_top store get get' (attrTree e.attributes) fun key loc p hl hk => by
    obtain ⟨h1, rfl⟩ := leafAt_attrTree hl
    exact h _ h1 key rfl hk]

end

end Verif
