import Verif.Lemmas.Converters
/-!
Values handed over to the host.
-/
namespace Verif
open Spec

variable {L : ProtoLib}

theorem celEntries_snoc {k : Key} {pk : ProtoKey} {p : ProtoVal} {v : Val} (hck : celKey pk = k)
    (h2 : toCel L p = some v) (out : List (ProtoKey × ProtoVal)) (acc cout : List (Key × Val))
    (h : celEntries L out acc = some cout) (hk : k ∉ out.map (celKey ·.1)) (hacc : k ∉ acc.map Prod.fst) :
    celEntries L (out ++ [(pk, p)]) acc = some (cout ++ [(k, v)]) := by
  induction out generalizing acc cout with
  | nil =>
    rw [celEntries] at h
    cases h
    rw [List.nil_append, celEntries, h2]
    simp only [hck, celEntries]
    rw [mapPut_new hacc]
  | cons e out ih =>
    obtain ⟨ek, ep⟩ := e
    rw [List.cons_append, celEntries]
    rw [celEntries] at h
    simp only [List.map_cons, List.mem_cons, not_or] at hk
    cases hc : toCel L ep with
    | none => rw [hc] at h; cases h
    | some w =>
      rw [hc] at h
      refine ih _ _ h hk.2 ?_
      intro hm
      rw [mapPut] at hm
      split at hm
      · rw [List.map_map] at hm
        obtain ⟨e, he, hek⟩ := List.mem_map.mp hm
        simp only [Function.comp] at hek
        split at hek
        · exact hk.1 hek.symm
        · exact hacc (List.mem_map.mpr ⟨e, he, hek⟩)
      · rw [List.map_append, List.mem_append] at hm
        rcases hm with hm | hm
        · exact hacc hm
        · exact hk.1 (by simpa using hm)

/-- Members of `google.protobuf.Value` before the one that is set are passed over. -/
theorem celOfValue_one (n : Text) (w : Option Val) (fs : List ProtoField) (hfs : ∀ f ∈ fs, f.oneof.isSome)
    (hn : n ∈ fs.map ProtoField.name) (hm : n ∈ valueMembers) (h0 : n ≠ "null_value".toList) :
    celOfValue L [(n, w)] fs = w := by
  induction fs with
  | nil => cases hn
  | cons f fs ih =>
    have hg : mapGet [(n, w)] f.name = if n = f.name then some w else none := by
      rw [mapGet_entry]; rfl
    rw [celOfValue, hg]
    by_cases h : n = f.name
    · subst h
      rw [if_pos rfl, if_neg (by simp), if_neg h0, if_pos hm]
      rfl
    · rw [if_neg h, if_pos ⟨hfs f (by simp), rfl⟩]
      refine ih (fun g hg => hfs g (List.mem_cons_of_mem _ hg)) ?_
      simpa [h] using hn

theorem celOfValue_null (w : Option Val) (fs : List ProtoField) (hfs : ∀ f ∈ fs, f.oneof.isSome) :
    celOfValue L [("null_value".toList, w)] fs = some .null := by
  induction fs with
  | nil => rfl
  | cons f fs ih =>
    rw [celOfValue]
    split
    · exact ih (fun g hg => hfs g (List.mem_cons_of_mem _ hg))
    · rename_i h
      rw [if_pos]
      rw [mapGet_entry] at h
      by_cases hf : "null_value".toList = f.name
      · exact hf.symm
      · rw [if_neg hf] at h
        exact absurd ⟨hfs f (by simp), rfl⟩ h

theorem toCel_member (hV : ValueDesc (L.desc valueName)) (n : Text) (p : ProtoVal)
    (hm : n ∈ valueMembers) (h0 : n ≠ "null_value".toList) :
    toCel L (.message valueName [(n, p)]) = toCel L p := by
  rw [toCel, if_neg (by decide), if_neg (by decide), if_pos rfl, celGot, celGot]
  exact celOfValue_one n _ _ hV.2 (by rw [hV.1]; exact hm) hm h0

theorem toCel_struct (m : List (ProtoKey × ProtoVal)) :
    toCel L (.message structName [("fields".toList, .map m)]) = (celEntries L m []).map .map := by
  rw [toCel, if_neg (by decide), if_pos rfl, celGot, celGot, mapGet_entry, if_pos rfl, toCel]
  cases celEntries L m [] <;> rfl

theorem toCel_listValue (l : List ProtoVal) :
    toCel L (.message listValueName [("values".toList, .list l)]) = (celItems L l).map .list := by
  rw [toCel, if_neg (by decide), if_neg (by decide), if_neg (by decide), if_pos rfl, celGot, celGot, mapGet_entry,
    if_pos rfl, toCel]
  cases celItems L l <;> rfl

/-- Both fail, or the message reads as the value. -/
def Reads (L : ProtoLib) (o : Option ProtoVal) (w : Option Val) : Prop :=
  (o = none ∧ w = none) ∨ ∃ p x, o = some p ∧ w = some x ∧ toCel L p = some x

theorem reads_member (hV : ValueDesc (L.desc valueName)) (n : Text) (p : ProtoVal) (v : Val)
    (hm : n ∈ valueMembers) (h0 : n ≠ "null_value".toList) (h : toCel L p = some v) :
    Reads L (some (.message valueName [(n, p)])) (some v) :=
  .inr ⟨_, _, rfl, rfl, by rw [toCel_member hV n p hm h0, h]⟩

mutual
theorem toJsonMsg_reads (hV : ValueDesc (L.desc valueName)) (v : Val) (hu : UniqueKeys v) :
    Reads L (toJsonMsg L v) (jsonLike L v) := by
  match v, hu with
  | .null, _ =>
    refine .inr ⟨_, _, rfl, rfl, ?_⟩
    rw [toCel, if_neg (by decide), if_neg (by decide), if_pos rfl, celGot, celGot]
    exact celOfValue_null _ _ hV.2
  | .bool b, _ => exact reads_member hV _ _ _ (by decide) (by decide) rfl
  | .float b, _ => exact reads_member hV _ _ _ (by decide) (by decide) rfl
  | .int b, _ => exact reads_member hV _ _ _ (by decide) (by decide) rfl
  | .uint b, _ => exact reads_member hV _ _ _ (by decide) (by decide) rfl
  | .str b, _ => exact reads_member hV _ _ _ (by decide) (by decide) rfl
  | .bytes b, _ => exact reads_member hV _ _ _ (by decide) (by decide) rfl
  | .list l, hu =>
    rw [UniqueKeys] at hu
    rw [toJsonMsg, jsonLike]
    rcases toJsonItems_reads hV l hu with ⟨h1, h2⟩ | ⟨ps, ws, h1, h2, h3⟩
    · rw [h1, h2]; exact .inl ⟨rfl, rfl⟩
    · rw [h1, h2]
      refine reads_member hV _ _ _ (by decide) (by decide) ?_
      rw [toCel_listValue, h3]; rfl
  | .map m, hu =>
    rw [UniqueKeys] at hu
    rw [toJsonMsg, jsonLike]
    rcases toJsonFields_reads hV m hu.2 hu.1 [] [] rfl (by simp) with ⟨h1, h2⟩ | ⟨ps, ws, h1, h2, h3⟩
    · rw [h1, h2]; exact .inl ⟨rfl, rfl⟩
    · rw [h1, h2]
      refine reads_member hV _ _ _ (by decide) (by decide) ?_
      rw [toCel_struct, h3]; rfl
  | .timestamp .., _ => exact .inl ⟨rfl, rfl⟩
  | .struct .., _ => exact .inl ⟨rfl, rfl⟩
  | .duration _, _ => exact .inl ⟨rfl, rfl⟩
  | .other, _ => exact .inl ⟨rfl, rfl⟩

theorem toJsonItems_reads (hV : ValueDesc (L.desc valueName)) (l : List Val) (hu : UniqueKeysItems l) :
    (toJsonItems L l = none ∧ jsonLikeItems L l = none) ∨
    ∃ ps ws, toJsonItems L l = some ps ∧ jsonLikeItems L l = some ws ∧ celItems L ps = some ws := by
  match l, hu with
  | [], _ => exact .inr ⟨[], [], rfl, rfl, rfl⟩
  | v :: l, hu =>
    rw [UniqueKeysItems] at hu
    rw [toJsonItems, jsonLikeItems]
    rcases toJsonMsg_reads hV v hu.1 with ⟨h1, h2⟩ | ⟨p, w, h1, h2, h3⟩
    · rw [h1, h2]; exact .inl ⟨rfl, rfl⟩
    · rw [h1, h2]
      rcases toJsonItems_reads hV l hu.2 with ⟨h4, h5⟩ | ⟨ps, ws, h4, h5, h6⟩
      · rw [h4, h5]; exact .inl ⟨rfl, rfl⟩
      · rw [h4, h5]
        refine .inr ⟨_, _, rfl, rfl, ?_⟩
        rw [celItems, h3, h6]

theorem toJsonFields_reads (hV : ValueDesc (L.desc valueName)) (m : List (Key × Val)) (hu : UniqueKeysEntries m)
    (hn : (m.map Prod.fst).Nodup) (out : List (ProtoKey × ProtoVal)) (cout : List (Key × Val))
    (hout : celEntries L out [] = some cout) (hd : ∀ k ∈ m.map Prod.fst, k ∉ out.map (celKey ·.1)) :
    (toJsonFields L m out = none ∧ jsonLikeEntries L m = none) ∨
    ∃ es ws, toJsonFields L m out = some es ∧ jsonLikeEntries L m = some ws ∧
      celEntries L es [] = some (cout ++ ws) := by
  match m, hu with
  | [], _ => exact .inr ⟨out, [], rfl, rfl, by rw [List.append_nil, hout]⟩
  | (k, v) :: m, hu =>
    rw [UniqueKeysEntries] at hu
    unfold toJsonFields jsonLikeEntries
    cases k with
    | str t =>
      rcases toJsonMsg_reads hV v hu.1 with ⟨h1, h2⟩ | ⟨p, w, h1, h2, h3⟩
      · rw [h1, h2]; exact .inl ⟨rfl, rfl⟩
      · rw [h1, h2]
        have hk0 : Key.str t ∉ out.map (celKey ·.1) := hd _ (by simp)
        have hnew : ProtoKey.string t ∉ out.map Prod.fst := by
          intro hm
          obtain ⟨e, he, hek⟩ := List.mem_map.mp hm
          exact hk0 (List.mem_map.mpr ⟨e, he, by rw [hek]; rfl⟩)
        rw [List.map_cons, List.nodup_cons] at hn
        simp only [mapPut_new hnew]
        rcases toJsonFields_reads hV m hu.2 hn.2 (out ++ [(.string t, p)]) (cout ++ [(.str t, w)])
          (celEntries_snoc (k := .str t) (pk := .string t) rfl h3 out [] cout hout hk0 (by simp)) (by
            intro k' hk' hm
            rw [List.map_append, List.mem_append] at hm
            rcases hm with hm | hm
            · exact hd k' (by simp [hk']) hm
            · have : k' = Key.str t := by simpa [celKey] using hm
              exact hn.1 (this ▸ hk')) with ⟨h4, h5⟩ | ⟨ps, ws, h4, h5, h6⟩
        · rw [h4, h5]; exact .inl ⟨rfl, rfl⟩
        · rw [h4, h5]
          refine .inr ⟨_, _, rfl, rfl, ?_⟩
          rw [h6, List.append_assoc]; rfl
    | _ => exact .inl ⟨rfl, rfl⟩
end

theorem exportMsg_reads (hV : ValueDesc (L.desc valueName)) (v : Val) (hu : UniqueKeys v) :
    Reads L (exportMsg L v) (jsonLike L v) := by
  cases v with
  | map m =>
    rw [UniqueKeys] at hu
    rw [exportMsg, jsonLike]
    rcases toJsonFields_reads hV m hu.2 hu.1 [] [] rfl (by simp) with ⟨h1, h2⟩ | ⟨ps, ws, h1, h2, h3⟩
    · rw [h1, h2]; exact .inl ⟨rfl, rfl⟩
    · rw [h1, h2]
      refine .inr ⟨_, _, rfl, rfl, ?_⟩
      rw [toCel_struct, h3]; rfl
  | _ => exact toJsonMsg_reads hV _ hu

end Verif
