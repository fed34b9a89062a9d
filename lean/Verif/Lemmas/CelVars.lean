import Verif.Lemmas.CelMap
/-! The variables an expression is evaluated with. -/
set_option linter.unusedSimpArgs false
namespace Verif
open Spec

open Classical in
theorem mapGet_addVars (f : Text → Option Val) (new vars : List (Text × Val)) (h : ∀ e ∈ new, f e.1 = some e.2)
    (t : Text) : mapGet (addVars vars new) t = if ∃ e ∈ new, e.1 = t then f t else mapGet vars t := by
  unfold addVars
  induction new generalizing vars with
  | nil => simp
  | cons e es ih =>
    rw [List.foldl_cons, ih _ (fun x hx => h x (List.mem_cons_of_mem _ hx)), mapGet_mapInsert]
    by_cases h1 : ∃ x ∈ es, x.1 = t
    · rw [if_pos h1, if_pos]
      obtain ⟨x, hx, he⟩ := h1
      exact ⟨x, List.mem_cons_of_mem _ hx, he⟩
    · rw [if_neg h1]
      by_cases h2 : e.1 = t
      · subst h2
        rw [if_pos rfl, if_pos ⟨e, List.mem_cons_self .., rfl⟩, h e (List.mem_cons_self ..)]
      · rw [if_neg (Ne.symm h2), if_neg]
        rintro ⟨x, hx, he⟩
        rcases List.mem_cons.mp hx with rfl | hx
        · exact h2 he
        · exact h1 ⟨x, hx, he⟩

theorem addVars_single (vars : List (Text × Val)) (n : Text) (v : Val) (t : Text) :
    mapGet (addVars vars [(n, v)]) t = if t = n then some v else mapGet vars t := by
  show mapGet (mapInsert vars n v) t = _
  rw [mapGet_mapInsert]

theorem addVars_cons (vars : List (Text × Val)) (e : Text × Val) (l : List (Text × Val)) :
    addVars vars (e :: l) = addVars (addVars vars [e]) l := rfl

theorem keyGet_isSome {m : List (Key × Val)} {t : Text} {v : Val} (h : keyGet m t = some v) :
    ∃ e ∈ m, e.1 = Key.str t := by
  unfold keyGet mapGet at h
  cases hf : m.find? (fun e => e.1 = Key.str t) with
  | none => rw [hf] at h; cases h
  | some e => exact ⟨e, List.mem_of_find?_eq_some hf, by simpa using List.find?_some hf⟩

theorem store_get_mem {store : ValueStore} {t : Text} {v : Val} (h : store.get t = some v) :
    ∃ e ∈ store.values, e.1 = t := by
  unfold ValueStore.get at h
  cases hf : store.values.find? (fun e => e.1 = t) with
  | none => rw [hf] at h; cases h
  | some e => exact ⟨e, List.mem_of_find?_eq_some hf, by simpa using List.find?_some hf⟩

/-- The names bound in every expression. -/
def fourRoots : List Text := ["metadata".toList, "source".toList, "destination".toList, "auth".toList]

/-- The value of a variable. -/
def varValue (store : ValueStore) (grpc : Option Val) (scope : List (Text × Val)) (e : CompiledExpr)
    (m : List (Key × Val)) (name : Text) : Option Val :=
  if '.' ∉ name ∧ keyGet m name = none ∧ store.get name ≠ none then store.get name
  else if isHostRoot name = false ∧ keyGet m name ≠ none then keyGet m name
  else if name ∈ fourRoots then some ((keyGet m name).getD .null)
  else if name = "request".toList then some (requestVal e grpc m)
  else mapGet scope name

theorem vars_get {store : ValueStore} {get : Path → Ans Val} {grpc : Option Val} {req resp scope : List (Text × Val)}
    {e : CompiledExpr} {vars : List (Text × Val)} (h : celVars store get grpc req resp scope e = .available vars) :
    ∃ m r q, dataMap store get e = .available m ∧ bodyMap resp e.responseFields = some r ∧
      bodyMap req e.requestFields = some q ∧
      mapGet vars "@requestBodyJSON".toList = some (.map q) ∧
      mapGet vars "@responseBodyJSON".toList = some (.map r) ∧
      ∀ name, name ≠ "@responseBodyJSON".toList → name ≠ "@requestBodyJSON".toList →
        mapGet vars name = varValue store grpc scope e m name := by
  unfold celVars at h
  cases hm : dataMap store get e with
  | pending => rw [hm] at h; cases h
  | err => rw [hm] at h; cases h
  | available m =>
    rw [hm] at h
    simp only at h
    cases hr : bodyMap resp e.responseFields with
    | none => rw [hr] at h; cases h
    | some r =>
      rw [hr] at h
      simp only at h
      cases hq : bodyMap req e.requestFields with
      | none => rw [hq] at h; cases h
      | some q =>
        rw [hq] at h
        simp only [Ans.available.injEq] at h
        refine ⟨m, r, q, rfl, rfl, rfl, ?_, ?_, ?_⟩
        · rw [← h, addVars_single, if_pos rfl]
        · rw [← h, addVars_single, if_neg (by decide), addVars_single, if_pos rfl]
        · intro name h1 h2
          rw [← h, addVars_single, if_neg h2, addVars_single, if_neg h1]
          have hs : ∀ x ∈ storedVars store m, store.get x.1 = some x.2 := by
            intro x hx
            obtain ⟨y, _, hy⟩ := List.mem_filterMap.mp hx
            split at hy
            · cases hg : store.get y.1 with
              | none => rw [hg] at hy; cases hy
              | some v => rw [hg] at hy; cases hy; exact hg
            · cases hy
          have ho : ∀ x ∈ otherVars m, keyGet m x.1 = some x.2 := by
            intro x hx
            obtain ⟨y, _, hy⟩ := List.mem_filterMap.mp hx
            split at hy
            · split at hy
              · rename_i name _ _
                cases hg : keyGet m name with
                | none => rw [hg] at hy; cases hy
                | some v => rw [hg] at hy; cases hy; exact hg
              · cases hy
            · cases hy
          have hf : ∀ x ∈ rootVars m, (fun n => some ((keyGet m n).getD .null)) x.1 = some x.2 := by
            intro x hx
            obtain ⟨y, _, rfl⟩ := List.mem_map.mp hx
            rfl
          rw [mapGet_addVars store.get _ _ hs, mapGet_addVars (keyGet m) _ _ ho, addVars_cons,
            mapGet_addVars (fun n => some ((keyGet m n).getD .null)) _ _ hf, addVars_single]
          unfold varValue
          have c1 : (∃ x ∈ storedVars store m, x.1 = name) ↔
              '.' ∉ name ∧ keyGet m name = none ∧ store.get name ≠ none := by
            constructor
            · rintro ⟨x, hx, rfl⟩
              have hsx := hs x hx
              obtain ⟨y, _, hy⟩ := List.mem_filterMap.mp hx
              split at hy
              · rename_i hc
                have : y.1 = x.1 := by
                  cases hg : store.get y.1 with
                  | none => rw [hg] at hy; cases hy
                  | some v => rw [hg] at hy; cases hy; rfl
                rw [this] at hc
                simp at hc
                exact ⟨hc.1, hc.2, by rw [hsx]; simp⟩
              · cases hy
            · rintro ⟨h3, h4, h5⟩
              cases hg : store.get name with
              | none => exact absurd hg h5
              | some v =>
                obtain ⟨y, hy, rfl⟩ := store_get_mem hg
                refine ⟨(y.1, v), List.mem_filterMap.mpr ⟨y, hy, ?_⟩, rfl⟩
                rw [if_pos (by simp [h3, h4]), hg]
                rfl
          have c2 : (∃ x ∈ otherVars m, x.1 = name) ↔ isHostRoot name = false ∧ keyGet m name ≠ none := by
            constructor
            · rintro ⟨x, hx, rfl⟩
              have hox := ho x hx
              refine ⟨?_, by rw [hox]; simp⟩
              obtain ⟨y, _, hy⟩ := List.mem_filterMap.mp hx
              split at hy
              · split at hy
                · rename_i n _ hc
                  have : n = x.1 := by
                    cases hg : keyGet m n with
                    | none => rw [hg] at hy; cases hy
                    | some v => rw [hg] at hy; cases hy; rfl
                  rw [this] at hc
                  simpa using hc.2
                · cases hy
              · cases hy
            · rintro ⟨h3, h4⟩
              cases hg : keyGet m name with
              | none => exact absurd hg h4
              | some v =>
                obtain ⟨y, hy, hk⟩ := keyGet_isSome hg
                refine ⟨(name, v), List.mem_filterMap.mpr ⟨y, hy, ?_⟩, rfl⟩
                have hreq : name ≠ "request".toList := by
                  rintro rfl
                  exact absurd h3 (by decide)
                simp only [hk]
                rw [if_pos ⟨hreq, by simp [h3]⟩, hg]
                rfl
          have c3 : (∃ x ∈ rootVars m, x.1 = name) ↔ name ∈ fourRoots := by
            constructor
            · rintro ⟨x, hx, rfl⟩
              obtain ⟨y, hy, rfl⟩ := List.mem_map.mp hx
              exact hy
            · exact fun hn => ⟨_, List.mem_map.mpr ⟨name, hn, rfl⟩, rfl⟩
          simp only [c1, c2, c3]

end Verif
