import Verif.Spec.Converters
/-!
The journey of a value through protobuf.
-/
namespace Verif
open Spec

theorem mapGet_entry {α β : Type} [DecidableEq α] (k k' : α) (v : β) (m : List (α × β)) :
    mapGet ((k, v) :: m) k' = if k = k' then some v else mapGet m k' := by
  unfold mapGet
  rw [List.find?_cons]
  by_cases h : k = k' <;> simp [h]

theorem mapGet_isSome_names {β : Type} {m : List (Text × β)} {k : Text} :
    (mapGet m k).isSome ↔ k ∈ names m := by
  induction m with
  | nil => simp [mapGet, names]
  | cons e m ih =>
    obtain ⟨n, v⟩ := e
    rw [mapGet_entry]
    simp only [names, List.map_cons, List.mem_cons]
    by_cases h : n = k
    · simp [h]
    · rw [if_neg h, ih]
      simp [names, Ne.symm h]

theorem mapPut_new {α β : Type} [DecidableEq α] {m : List (α × β)} {k : α} {v : β} (h : k ∉ m.map Prod.fst) :
    mapPut m k v = m ++ [(k, v)] := by
  rw [mapPut, if_neg]
  simp only [List.any_eq_true, decide_eq_true_eq, not_exists, not_and]
  intro e he hk
  exact h (hk ▸ List.mem_map_of_mem he)

theorem wrapI32_of {i : Int} (h : InI32 i) : wrapI32 i = i := by
  have := h.1; have := h.2
  rw [wrapI32, Int.emod_eq_of_lt (by omega) (by omega)]; omega

theorem wrapU32_of {n : Nat} (h : n < 4294967296) : wrapU32 n = n := Nat.mod_eq_of_lt h

theorem key_trip {k : Key} {kind : ProtoKind} (h : TypedKey k kind) :
    ∃ pk, protoKey k kind = some pk ∧ celKey pk = k := by
  cases k with
  | bool b => exact ⟨_, rfl, rfl⟩
  | int i =>
    rcases h with ⟨rfl, h⟩ | rfl
    · exact ⟨_, rfl, by rw [celKey, wrapI32_of h]⟩
    · exact ⟨_, rfl, rfl⟩
  | uint n =>
    rcases h with ⟨rfl, h⟩ | rfl
    · exact ⟨_, rfl, by rw [celKey, wrapU32_of h]⟩
    · exact ⟨_, rfl, rfl⟩
  | str t => exact ⟨_, rfl, rfl⟩

variable {L : ProtoLib}

theorem fieldConvs_get (l : List (Text × Val)) (n : Text) :
    mapGet (fieldConvs L l) n = (mapGet l n).map fun v f => (fieldType L f).bind fun type => toProto L v type := by
  induction l with
  | nil => rfl
  | cons e l ih =>
    obtain ⟨m, v⟩ := e
    rw [fieldConvs, mapGet_entry, mapGet_entry]
    split
    · simp only [Option.map_some, Option.some.injEq]
      funext f
      cases fieldType L f <;> rfl
    · exact ih

theorem celGot_get (l : List (Text × ProtoVal)) (n : Text) :
    mapGet (celGot L l) n = (mapGet l n).map (toCel L) := by
  induction l with
  | nil => rfl
  | cons e l ih =>
    obtain ⟨m, v⟩ := e
    rw [celGot, mapGet_entry, mapGet_entry]
    split
    · rfl
    · exact ih

theorem filledFields_get (l : List (Text × Val)) (n : Text) :
    mapGet (filledFields L l) n = (mapGet l n).map (filled L) := by
  induction l with
  | nil => rfl
  | cons e l ih =>
    obtain ⟨m, v⟩ := e
    rw [filledFields, mapGet_entry, mapGet_entry]
    split
    · rfl
    · exact ih

theorem typedFields_get {l : List (Text × Val)} {fields : List ProtoField} (h : TypedFields L l fields)
    (hn : (fields.map ProtoField.name).Nodup) {f : ProtoField} (hf : f ∈ fields) {v : Val}
    (hg : mapGet l f.name = some v) : ∃ type, fieldType L f = some type ∧ Typed L v type := by
  induction l with
  | nil => cases hg
  | cons e l ih =>
    obtain ⟨m, w⟩ := e
    rw [TypedFields] at h
    rw [mapGet_entry] at hg
    split at hg
    · rename_i hm
      cases hg
      obtain ⟨g, hgm, hgn, type, ht, hv⟩ := h.1
      have : g = f := by
        clear ih h ht hv
        induction fields with
        | nil => cases hf
        | cons a fields ih =>
          rw [List.map_cons, List.nodup_cons] at hn
          rcases List.mem_cons.mp hf with rfl | hf' <;> rcases List.mem_cons.mp hgm with rfl | hgm'
          · rfl
          · exact absurd (List.mem_map.mpr ⟨g, hgm', hgn.trans hm⟩) hn.1
          · exact absurd (List.mem_map.mpr ⟨f, hf', (hgn.trans hm).symm⟩) hn.1
          · exact ih hn.2 hf' hgm'
      subst this
      exact ⟨type, ht, hv⟩
    · exact ih h.2 hg

/-- The fields that are set, in the order of the descriptor. -/
def setFields (P : ProtoField → Option ProtoVal) (fs : List ProtoField) : List (Text × ProtoVal) :=
  fs.filterMap fun f => (P f).map fun p => (f.name, p)

theorem setFields_append (P : ProtoField → Option ProtoVal) (fs gs : List ProtoField) :
    setFields P (fs ++ gs) = setFields P fs ++ setFields P gs := List.filterMap_append ..

theorem setFields_get (P : ProtoField → Option ProtoVal) {fs : List ProtoField}
    (hn : (fs.map ProtoField.name).Nodup) {f : ProtoField} (hf : f ∈ fs) : mapGet (setFields P fs) f.name = P f := by
  induction fs with
  | nil => cases hf
  | cons g fs ih =>
    rw [List.map_cons, List.nodup_cons] at hn
    have hnone : ∀ {n : Text}, n ∉ fs.map ProtoField.name → mapGet (setFields P fs) n = none := by
      intro n hn'
      cases hm : mapGet (setFields P fs) n with
      | none => rfl
      | some p =>
        have : n ∈ names (setFields P fs) := mapGet_isSome_names.mp (by rw [hm]; rfl)
        obtain ⟨e, he, rfl⟩ := List.mem_map.mp this
        obtain ⟨a, ha, hp⟩ := List.mem_filterMap.mp he
        cases hP : P a with
        | none => rw [hP] at hp; cases hp
        | some q => rw [hP] at hp; cases hp; exact absurd (List.mem_map_of_mem ha) hn'
    have hs : setFields P (g :: fs) = ((P g).map fun p => (g.name, p)).toList ++ setFields P fs := by
      unfold setFields
      rw [List.filterMap_cons]
      cases P g <;> rfl
    rw [hs]
    rcases List.mem_cons.mp hf with rfl | hf'
    · cases hP : P f with
      | none => exact hnone hn.1
      | some p =>
        change mapGet ((f.name, p) :: setFields P fs) f.name = _
        rw [mapGet_entry, if_pos rfl]
    · cases hP : P g with
      | none => exact ih hn.2 hf'
      | some p =>
        change mapGet ((g.name, p) :: setFields P fs) f.name = _
        rw [mapGet_entry, if_neg (fun h => hn.1 (List.mem_map.mpr ⟨f, hf', h.symm⟩))]
        exact ih hn.2 hf'

/-- The loop over the descriptor sets every given field, when no two of them exclude each other. -/
theorem buildFields_eq {all : List ProtoField} {look : List (Text × (ProtoField → Option ProtoVal))}
    {P : ProtoField → Option ProtoVal} (hn : (all.map ProtoField.name).Nodup)
    (hP : ∀ f ∈ all, match mapGet look f.name with
      | none => P f = none
      | some conv => conv f = P f ∧ (P f).isSome)
    (hone : ∀ f ∈ all, ∀ g ∈ all, (P f).isSome → (P g).isSome → f.oneof.isSome → g.oneof = f.oneof →
      f.name = g.name)
    (done fs : List ProtoField) (hall : all = done ++ fs) :
    buildFields all look fs (setFields P done) = some (setFields P all) := by
  induction fs generalizing done with
  | nil => rw [buildFields, hall, List.append_nil]
  | cons f fs ih =>
    have hf : f ∈ all := by rw [hall]; simp
    have hnext := ih (done ++ [f]) (by rw [hall]; simp)
    rw [setFields_append] at hnext
    rw [buildFields]
    have hPf := hP f hf
    cases hl : mapGet look f.name with
    | none =>
      rw [hl] at hPf
      have : setFields P [f] = [] := by
        simp only at hPf
        simp [setFields, hPf]
      rw [this, List.append_nil] at hnext
      exact hnext
    | some conv =>
      rw [hl] at hPf
      obtain ⟨hc, hs⟩ := hPf
      obtain ⟨p, hp⟩ := Option.isSome_iff_exists.mp hs
      have h1 : setFields P [f] = [(f.name, p)] := by simp [setFields, hp]
      rw [h1] at hnext
      simp only [hc, hp]
      rw [setField, List.filter_eq_self.mpr]
      · exact hnext
      · intro e he
        obtain ⟨g, hg, hge⟩ := List.mem_filterMap.mp he
        cases hPg : P g with
        | none => rw [hPg] at hge; cases hge
        | some q =>
          rw [hPg] at hge
          cases hge
          have hgall : g ∈ all := by rw [hall]; simp [hg]
          have hne : g.name ≠ f.name := by
            rw [hall, List.map_append, List.nodup_append] at hn
            exact hn.2.2 _ (List.mem_map_of_mem hg) _ (by simp)
          simp only [ne_eq, decide_eq_true_eq]
          refine ⟨hne, ?_⟩
          rintro ⟨ho, hany⟩
          simp only [List.any_eq_true, decide_eq_true_eq] at hany
          obtain ⟨g', hg', hn', ho'⟩ := hany
          have : g' = g := by
            clear ih hnext hP hone
            have hn2 := hn
            clear hall hf hl he hn
            induction all with
            | nil => cases hg'
            | cons a all ih =>
              rw [List.map_cons, List.nodup_cons] at hn2
              rcases List.mem_cons.mp hg' with rfl | hg'' <;> rcases List.mem_cons.mp hgall with rfl | hga
              · rfl
              · exact absurd (List.mem_map.mpr ⟨g, hga, hn'.symm⟩) hn2.1
              · exact absurd (List.mem_map.mpr ⟨g', hg'', hn'⟩) hn2.1
              · exact ih hga hg'' hn2.2
          subst this
          exact hne (hone f hf g' hgall (by rw [hp]; rfl) (by rw [hPg]; rfl) ho ho').symm

theorem zero_eq (hG : GoodDescs L) {n : Text} {f : ProtoField} (hf : f ∈ (L.desc n).fields) :
    defaultVal L f = zero L f := by
  have := hG.maps n f hf
  unfold defaultVal zero
  unfold fieldType at this ⊢
  by_cases h1 : isMapField L f
  · rw [if_pos h1] at this ⊢
    rw [if_pos h1]
    revert this
    cases f.kind <;> simp
    split <;> simp
  · rw [if_neg h1] at this ⊢
    rw [if_neg h1]
    by_cases h2 : f.repeated
    · rw [if_pos h2, if_pos h2]
    · rw [if_neg h2, if_neg h2]
      cases f.kind <;> rfl

theorem celFields_eq (hG : GoodDescs L) {name : Text} {got : List (Text × Option Val)} {given : List (Text × Val)}
    {fs : List ProtoField} (hsub : ∀ f ∈ fs, f ∈ (L.desc name).fields)
    (h : ∀ f ∈ fs, mapGet got f.name = (mapGet given f.name).map some) :
    celFields L got fs = some (fill L given fs) := by
  induction fs with
  | nil => rfl
  | cons f fs ih =>
    have ih := ih (fun g hg => hsub g (by simp [hg])) (fun g hg => h g (by simp [hg]))
    rw [celFields, fill, h f (by simp), ih]
    cases mapGet given f.name with
    | none =>
      simp only [Option.map_none]
      split
      · rfl
      · rw [zero_eq hG (hsub f (by simp))]; rfl
    | some v => rfl

theorem celOfTime_get (secs : Int) (nanos : Nat) (h : nanos < 2147483648) (hv : L.validTime secs nanos = true) :
    celOfTime L [("seconds".toList, .i64 secs), ("nanos".toList, .i32 (wrapI32 nanos))] =
      some (.timestamp secs nanos) := by
  have h1 : mapGet [("seconds".toList, ProtoVal.i64 secs), ("nanos".toList, .i32 (wrapI32 nanos))]
      "seconds".toList = some (.i64 secs) := by rw [mapGet_entry, if_pos rfl]
  have h2 : mapGet [("seconds".toList, ProtoVal.i64 secs), ("nanos".toList, .i32 (wrapI32 nanos))]
      "nanos".toList = some (.i32 (wrapI32 nanos)) := by
    rw [mapGet_entry, if_neg (by decide), mapGet_entry, if_pos rfl]
  have h3 : i32AsU32 (wrapI32 nanos) = nanos := by
    rw [wrapI32_of ⟨by omega, by omega⟩, i32AsU32]; omega
  simp only [celOfTime, h1, h2, Option.getD_some, h3, hv, if_true]

mutual
/-- A value of a type becomes a protobuf value and comes back as itself, filled in. -/
theorem trip (hG : GoodDescs L) (v : Val) (type : ProtoType) (h : Typed L v type) :
    ∃ p, toProto L v type = some p ∧ toCel L p = some (filled L v) := by
  match v, h with
  | .bool b, h => rw [Typed] at h; subst h; exact ⟨_, rfl, rfl⟩
  | .int i, h =>
    rw [Typed] at h
    rcases h with ⟨rfl, hr⟩ | rfl | ⟨numbers, rfl, hr, hm⟩
    · exact ⟨.i32 (wrapI32 i), rfl, by rw [wrapI32_of hr]; rfl⟩
    · exact ⟨_, rfl, rfl⟩
    · refine ⟨.enum i, ?_, rfl⟩
      have := hr.1
      have := hr.2
      simp only [toProto]
      rw [if_neg (by omega), if_pos (by simpa using hm)]
  | .uint n, h =>
    rw [Typed] at h
    rcases h with ⟨rfl, hr⟩ | rfl
    · exact ⟨.u32 (wrapU32 n), rfl, by rw [wrapU32_of hr]; rfl⟩
    · exact ⟨_, rfl, rfl⟩
  | .float bits, h =>
    rw [Typed] at h
    rcases h with rfl | ⟨rfl, h1, h2⟩
    · exact ⟨_, rfl, rfl⟩
    · refine ⟨.f32 (L.toF32 bits), by simp only [toProto, h1, if_true], ?_⟩
      simp only [toCel, h2, filled]
  | .str t, h => rw [Typed] at h; subst h; exact ⟨_, rfl, rfl⟩
  | .bytes b, h => rw [Typed] at h; subst h; exact ⟨_, rfl, rfl⟩
  | .timestamp secs nanos, h =>
    rw [Typed] at h
    obtain ⟨rfl, hn, hv⟩ := h
    refine ⟨_, by simp only [toProto]; exact if_pos rfl, ?_⟩
    simp only [toCel]
    exact (if_pos rfl).trans (celOfTime_get secs nanos hn hv)
  | .list l, h =>
    rw [Typed] at h
    obtain ⟨kind, rfl, hl⟩ := h
    obtain ⟨ps, h1, h2⟩ := trip_items hG l kind hl
    exact ⟨.list ps, by simp only [toProto, h1, Option.map_some], by simp only [toCel, h2, filled, Option.map_some]⟩
  | .map m, h =>
    rw [Typed] at h
    obtain ⟨key, value, rfl, hn, hm⟩ := h
    obtain ⟨es, h1, h2⟩ := trip_entries hG m key value hm hn [] [] rfl (by simp)
    exact ⟨.map es, by simp only [toProto, h1, Option.map_some],
      by simp only [toCel, h2, filled, Option.map_some, List.nil_append]⟩
  | .struct name fields, h =>
    rw [Typed] at h
    obtain ⟨rfl, ho, hn, ht, hone⟩ := h
    have hall := trip_fields hG fields
    let P : ProtoField → Option ProtoVal := fun f =>
      (mapGet fields f.name).bind fun v => (fieldType L f).bind fun type => toProto L v type
    have hP : ∀ f ∈ (L.desc name).fields, ∀ v, mapGet fields f.name = some v →
        ∃ p, P f = some p ∧ toCel L p = some (filled L v) := by
      intro f hf v hg
      obtain ⟨type, hft, hv⟩ := typedFields_get ht (hG.names name) hf hg
      have hmem : ∃ e ∈ fields, e.2 = v := by
        unfold mapGet at hg
        obtain ⟨e, he, rfl⟩ := Option.map_eq_some_iff.mp hg
        exact ⟨e, List.mem_of_find?_eq_some he, rfl⟩
      obtain ⟨e, he, rfl⟩ := hmem
      obtain ⟨p, h1, h2⟩ := hall e he type hv
      exact ⟨p, by simp only [P, hg, hft, Option.bind_some, h1], h2⟩
    have hPs : ∀ f ∈ (L.desc name).fields, (P f).isSome → f.name ∈ names fields := by
      intro f _ h
      rw [← mapGet_isSome_names]
      cases hm : mapGet fields f.name with
      | none => simp only [P, hm, Option.bind_none] at h; cases h
      | some v => rfl
    have hbuild : buildFields (L.desc name).fields (fieldConvs L fields) (L.desc name).fields [] =
        some (setFields P (L.desc name).fields) := by
      refine buildFields_eq (P := P) (hG.names name) ?_ ?_ [] _ rfl
      · intro f hf
        rw [fieldConvs_get]
        cases hm : mapGet fields f.name with
        | none => simp only [Option.map_none, P, hm, Option.bind_none]
        | some v =>
          obtain ⟨p, hp, _⟩ := hP f hf v hm
          simp only [Option.map_some]
          refine ⟨?_, by rw [hp]; rfl⟩
          simp only [P, hm, Option.bind_some]
      · intro f hf g hg h1 h2 h3 h4
        exact hone f hf g hg (hPs f hf h1) (hPs g hg h2) h3 h4
    refine ⟨_, by simp only [toProto, hbuild, Option.map_some]; rfl, ?_⟩
    simp only [toCel]
    refine (if_neg ho.1).trans ((if_neg ho.2.1).trans ((if_neg ho.2.2.1).trans ((if_neg ho.2.2.2).trans ?_)))
    rw [celFields_eq hG (given := filledFields L fields) (fun f hf => hf)]
    · simp only [filled, Option.map_some]
    · intro f hf
      rw [celGot_get, setFields_get P (hG.names name) hf, filledFields_get]
      cases hm : mapGet fields f.name with
      | none => simp only [P, hm, Option.bind_none, Option.map_none]
      | some v =>
        obtain ⟨p, hp, hc⟩ := hP f hf v hm
        rw [hp, Option.map_some, Option.map_some, Option.map_some, hc]

theorem trip_fields (hG : GoodDescs L) (fields : List (Text × Val)) :
    ∀ e ∈ fields, ∀ type, Typed L e.2 type →
      ∃ p, toProto L e.2 type = some p ∧ toCel L p = some (filled L e.2) := by
  match fields with
  | [] => intro e he; cases he
  | (n, v) :: rest =>
    intro e he type ht
    rcases List.mem_cons.mp he with rfl | he
    · exact trip hG v type ht
    · exact trip_fields hG rest e he type ht

theorem trip_items (hG : GoodDescs L) (l : List Val) (kind : ProtoKind) (h : TypedItems L l kind) :
    ∃ ps, toItems L l kind = some ps ∧ celItems L ps = some (filledItems L l) := by
  match l, h with
  | [], _ => exact ⟨[], rfl, rfl⟩
  | v :: l, h =>
    rw [TypedItems] at h
    obtain ⟨p, h1, h2⟩ := trip hG v (.one kind) h.1
    obtain ⟨ps, h3, h4⟩ := trip_items hG l kind h.2
    exact ⟨p :: ps, by simp only [toItems, h1, h3], by simp only [celItems, h2, h4, filledItems]⟩

theorem trip_entries (hG : GoodDescs L) (m : List (Key × Val)) (key value : ProtoKind)
    (h : TypedEntries L m key value) (hn : (m.map Prod.fst).Nodup) (out : List (ProtoKey × ProtoVal))
    (cout : List (Key × Val)) (hout : celEntries L out [] = some cout)
    (hd : ∀ k ∈ m.map Prod.fst, k ∉ out.map (celKey ·.1)) :
    ∃ es, toEntries L m key value out = some es ∧ celEntries L es [] = some (cout ++ filledEntries L m) := by
  match m, h with
  | [], _ => exact ⟨out, rfl, by rw [hout, filledEntries, List.append_nil]⟩
  | (k, v) :: m, h =>
    rw [TypedEntries] at h
    obtain ⟨hk, hv, hrest⟩ := h
    obtain ⟨pk, hpk, hck⟩ := key_trip hk
    obtain ⟨p, h1, h2⟩ := trip hG v (.one value) hv
    have hk0 : k ∉ out.map (celKey ·.1) := hd k (by simp)
    have hnew : pk ∉ out.map Prod.fst := by
      intro hm
      obtain ⟨e, he, rfl⟩ := List.mem_map.mp hm
      exact hk0 (List.mem_map.mpr ⟨e, he, hck⟩)
    have hsnoc : celEntries L (out ++ [(pk, p)]) [] = some (cout ++ [(k, filled L v)]) := by
      have key : ∀ (out : List (ProtoKey × ProtoVal)) (acc cout : List (Key × Val)),
          celEntries L out acc = some cout → k ∉ out.map (celKey ·.1) → k ∉ acc.map Prod.fst →
          celEntries L (out ++ [(pk, p)]) acc = some (cout ++ [(k, filled L v)]) := by
        intro out
        induction out with
        | nil =>
          intro acc cout h _ hacc
          rw [celEntries] at h
          cases h
          rw [List.nil_append, celEntries, h2]
          simp only [hck, celEntries]
          rw [mapPut_new hacc]
        | cons e out ih =>
          obtain ⟨ek, ep⟩ := e
          intro acc cout h hk hacc
          rw [List.cons_append, celEntries]
          rw [celEntries] at h
          simp only [List.map_cons, List.mem_cons, not_or] at hk
          cases hc : toCel L ep with
          | none => rw [hc] at h; cases h
          | some w =>
            rw [hc] at h
            refine ih _ _ h hk.2 ?_
            intro hm
            rw [mapPut] at hm
            split at hm
            · rw [List.map_map] at hm
              obtain ⟨e, he, hek⟩ := List.mem_map.mp hm
              simp only [Function.comp] at hek
              split at hek
              · exact hk.1 hek.symm
              · exact hacc (List.mem_map.mpr ⟨e, he, hek⟩)
            · rw [List.map_append, List.mem_append] at hm
              rcases hm with hm | hm
              · exact hacc hm
              · exact hk.1 (by simpa using hm)
      exact key out [] cout hout hk0 (by simp)
    rw [List.map_cons, List.nodup_cons] at hn
    obtain ⟨es, h3, h4⟩ := trip_entries hG m key value hrest hn.2 (out ++ [(pk, p)]) (cout ++ [(k, filled L v)])
      hsnoc (by
        intro k' hk' hm
        rw [List.map_append, List.mem_append] at hm
        rcases hm with hm | hm
        · exact hd k' (by simp [hk']) hm
        · have : k' = k := by simpa [hck] using hm
          exact hn.1 (this ▸ hk'))
    refine ⟨es, ?_, ?_⟩
    · rw [toEntries, hpk, h1]
      simp only
      rw [mapPut_new hnew]
      exact h3
    · rw [h4, filledEntries, List.append_assoc]; rfl
end

end Verif
