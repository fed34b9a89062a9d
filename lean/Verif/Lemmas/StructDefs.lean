import Verif.Lemmas.Converters
/-!
Which message types are known to CEL.
-/
namespace Verif
open Spec

variable {L : ProtoLib}

theorem innerTypes_mem {n m : Text} : m ∈ innerTypes L n ↔ ∃ f ∈ (L.desc n).fields, f.kind = .message m := by
  unfold innerTypes
  rw [List.mem_filterMap]
  constructor
  · rintro ⟨f, hf, h⟩
    refine ⟨f, hf, ?_⟩
    cases hk : f.kind <;> rw [hk] at h <;> first | (cases h; rfl) | cases h
  · rintro ⟨f, hf, h⟩
    exact ⟨f, hf, by rw [h]⟩

/-- What holds while the types are collected. -/
structure Collecting (L : ProtoLib) (root : Text) (todo visited : List Text) (defs : List StructDef) : Prop where
  htodo : ∀ n ∈ todo, Inside L root n
  hvisited : ∀ n ∈ visited, Inside L root n
  hroot : root ∈ visited ∨ root ∈ todo
  hclosed : ∀ n ∈ visited, ∀ m ∈ innerTypes L n, m ∈ visited ∨ m ∈ todo
  hnodup : visited.Nodup
  hdefs : defs = ((visited.filter fun n => !(L.desc n).mapEntry).map (structDef L)).reverse

theorem collecting {root : Text} (fuel : Nat) {todo visited : List Text} {defs out : List StructDef}
    (hI : Collecting L root todo visited defs) (h : collectDefs L fuel todo visited defs = some out) :
    ∃ visited, Collecting L root [] visited out := by
  induction fuel generalizing todo visited defs with
  | zero =>
    cases todo with
    | nil => rw [collectDefs] at h; cases h; exact ⟨visited, hI⟩
    | cons n todo => cases h
  | succ fuel ih =>
    cases todo with
    | nil => rw [collectDefs] at h; cases h; exact ⟨visited, hI⟩
    | cons n todo =>
      rw [collectDefs] at h
      split at h
      · rename_i hv
        refine ih ⟨fun m hm => hI.htodo m (by simp [hm]), hI.hvisited, ?_, ?_, hI.hnodup, hI.hdefs⟩ h
        · rcases hI.hroot with h | h
          · exact .inl h
          · rcases List.mem_cons.mp h with rfl | h
            · exact .inl hv
            · exact .inr h
        · intro a ha m hm
          rcases hI.hclosed a ha m hm with h | h
          · exact .inl h
          · rcases List.mem_cons.mp h with rfl | h
            · exact .inl hv
            · exact .inr h
      · rename_i hv
        have hn := hI.htodo n (by simp)
        have htodo : ∀ m ∈ (innerTypes L n).reverse ++ todo, Inside L root m := by
          intro m hm
          rw [List.mem_append, List.mem_reverse] at hm
          rcases hm with hm | hm
          · obtain ⟨f, hf, hk⟩ := innerTypes_mem.mp hm
            exact .field hn hf hk
          · exact hI.htodo m (by simp [hm])
        have hvis : ∀ m ∈ n :: visited, Inside L root m := by
          intro m hm
          rcases List.mem_cons.mp hm with rfl | hm
          · exact hn
          · exact hI.hvisited m hm
        have hroot : root ∈ n :: visited ∨ root ∈ (innerTypes L n).reverse ++ todo := by
          rcases hI.hroot with h | h
          · exact .inl (by simp [h])
          · rcases List.mem_cons.mp h with rfl | h
            · exact .inl (by simp)
            · exact .inr (by simp [h])
        have hclosed : ∀ a ∈ n :: visited, ∀ m ∈ innerTypes L a,
            m ∈ n :: visited ∨ m ∈ (innerTypes L n).reverse ++ todo := by
          intro a ha m hm
          rcases List.mem_cons.mp ha with rfl | ha
          · exact .inr (by simp [hm])
          · rcases hI.hclosed a ha m hm with h | h
            · exact .inl (by simp [h])
            · rcases List.mem_cons.mp h with rfl | h
              · exact .inl (by simp)
              · exact .inr (by simp [h])
        have hnd : (n :: visited).Nodup := List.nodup_cons.mpr ⟨hv, hI.hnodup⟩
        simp only at h
        split at h
        · rename_i hm
          refine ih ⟨htodo, hvis, hroot, hclosed, hnd, ?_⟩ h
          rw [List.filter_cons, hm]
          exact hI.hdefs
        · rename_i hm
          refine ih ⟨htodo, hvis, hroot, hclosed, hnd, ?_⟩ h
          rw [List.filter_cons, if_pos (by simp [hm]), List.map_cons, List.reverse_cons, hI.hdefs]

/-- Rounds that are enough: one for every entry of the stack and for every field of a type not yet visited. -/
def rounds (L : ProtoLib) (visited : List Text) : List Text → Nat
  | [] => 0
  | n :: pool => (if n ∈ visited then 0 else (innerTypes L n).length) + rounds L visited pool

theorem rounds_visit {n : Text} {visited : List Text} (hv : n ∉ visited) {pool : List Text} (hn : n ∈ pool) :
    rounds L (n :: visited) pool + (innerTypes L n).length ≤ rounds L visited pool := by
  have mono : ∀ pool : List Text, rounds L (n :: visited) pool ≤ rounds L visited pool := by
    intro pool
    induction pool with
    | nil => exact Nat.le_refl _
    | cons a pool ih =>
      rw [rounds, rounds]
      by_cases ha : a ∈ visited
      · rw [if_pos ha, if_pos (List.mem_cons_of_mem _ ha)]; omega
      · rw [if_neg ha]; split <;> omega
  induction pool with
  | nil => cases hn
  | cons a pool ih =>
    rw [rounds, rounds]
    by_cases h : a = n
    · subst h
      rw [if_pos List.mem_cons_self, if_neg hv]
      have := mono pool; omega
    · have hn' : n ∈ pool := by
        rcases List.mem_cons.mp hn with e | hn
        · exact absurd e.symm h
        · exact hn
      have := ih hn'
      by_cases ha : a ∈ visited
      · rw [if_pos ha, if_pos (List.mem_cons_of_mem _ ha)]; omega
      · rw [if_neg ha, if_neg (by simp [ha, h])]; omega

theorem collectDefs_ends {pool : List Text} (hp : ∀ n ∈ pool, ∀ m ∈ innerTypes L n, m ∈ pool) (fuel : Nat)
    {todo visited : List Text} {defs : List StructDef} (ht : ∀ n ∈ todo, n ∈ pool)
    (hf : todo.length + rounds L visited pool ≤ fuel) : (collectDefs L fuel todo visited defs).isSome := by
  induction fuel generalizing todo visited defs with
  | zero =>
    cases todo with
    | nil => rfl
    | cons n todo => simp at hf
  | succ fuel ih =>
    cases todo with
    | nil => rfl
    | cons n todo =>
      rw [collectDefs]
      rw [List.length_cons] at hf
      have hn := ht n (by simp)
      split
      · exact ih (fun m hm => ht m (by simp [hm])) (by omega)
      · rename_i hv
        have := rounds_visit (L := L) hv hn
        have hlen : ((innerTypes L n).reverse ++ todo).length + rounds L (n :: visited) pool ≤ fuel := by
          rw [List.length_append, List.length_reverse]; omega
        have htodo : ∀ m ∈ (innerTypes L n).reverse ++ todo, m ∈ pool := by
          intro m hm
          rw [List.mem_append, List.mem_reverse] at hm
          rcases hm with hm | hm
          · exact hp n hn m hm
          · exact ht m (by simp [hm])
        simp only
        split
        · exact ih htodo hlen
        · exact ih htodo hlen

end Verif
