import Verif.Spec.Answers
import Verif.Lemmas.Converters
/-!
What is read from a protobuf message.
-/
namespace Verif
open Spec

variable {L : ProtoLib}

theorem celKey_same (k : ProtoKey) : SameKey k (celKey k) := by
  cases k <;> constructor

theorem celKey_inj {k k' : ProtoKey} {kind : ProtoKind} (h : OfKind k kind) (h' : OfKind k' kind)
    (he : celKey k = celKey k') : k = k' := by
  cases k <;> cases k' <;> simp_all [OfKind, celKey]

theorem celFields_none {got : List (Text × Option Val)} {fs : List ProtoField} {f : ProtoField} (hf : f ∈ fs)
    (h : mapGet got f.name = some none) : celFields L got fs = none := by
  induction fs with
  | nil => cases hf
  | cons g fs ih =>
    rw [celFields]
    rcases List.mem_cons.1 hf with rfl | hf
    · rw [h]
    · rw [ih hf]
      cases mapGet got g.name with
      | none => simp
      | some a => cases a <;> simp

theorem wellTypedFields_mem {l : List (Text × ProtoVal)} {fields : List ProtoField} (h : WellTypedFields L l fields)
    {n : Text} (hn : n ∈ names l) : ∃ f ∈ fields, f.name = n := by
  induction l with
  | nil => cases hn
  | cons e l ih =>
    obtain ⟨m, p⟩ := e
    rw [WellTypedFields] at h
    rcases List.mem_cons.1 hn with rfl | hn
    · obtain ⟨f, hf, h1, _⟩ := h.1
      exact ⟨f, hf, h1⟩
    · exact ih h.2 hn

theorem wellTypedEntries_kind {m : List (ProtoKey × ProtoVal)} {key value : ProtoKind} (h : WellTypedEntries L m key value)
    {e : ProtoKey × ProtoVal} (he : e ∈ m) : OfKind e.1 key := by
  induction m with
  | nil => cases he
  | cons a m ih =>
    rw [WellTypedEntries] at h
    rcases List.mem_cons.1 he with rfl | he
    · exact h.1
    · exact ih h.2.2 he

/-- A message with one field set: what `says_fields` says of it. -/
theorem only_field {n : Text} {p : ProtoVal}
    (h1 : TimelyFields L [(n, p)] → ∃ given, SaysFields L [(n, p)] given ∧
      ∀ m, mapGet (celGot L [(n, p)]) m = (mapGet given m).map some)
    (h2 : ¬ TimelyFields L [(n, p)] → ∃ m ∈ names [(n, p)], mapGet (celGot L [(n, p)]) m = some none) :
    (TimelyFields L [(n, p)] → ∃ v, toCel L p = some v ∧ Says L p v) ∧
    (¬ TimelyFields L [(n, p)] → toCel L p = none) := by
  have hg : mapGet (celGot L [(n, p)]) n = some (toCel L p) := by
    rw [celGot_get, mapGet_entry, if_pos rfl]
    rfl
  refine ⟨fun ht => ?_, fun ht => ?_⟩
  · obtain ⟨given, h3, h4⟩ := h1 ht
    cases h3 with
    | cons hs hn =>
      rename_i v vs
      have := h4 n
      rw [hg, mapGet_entry, if_pos rfl] at this
      exact ⟨v, Option.some.inj this, hs⟩
  · obtain ⟨m, hm, h3⟩ := h2 ht
    simp only [names, List.map_cons, List.map_nil, List.mem_singleton] at hm
    subst hm
    rw [hg] at h3
    exact Option.some.inj h3

theorem celEntries_new {m : List (ProtoKey × ProtoVal)} {k : ProtoKey} {p : ProtoVal} {out : List (Key × Val)} {v : Val}
    (h : toCel L p = some v) (hk : celKey k ∉ out.map Prod.fst) :
    celEntries L ((k, p) :: m) out = celEntries L m (out ++ [(celKey k, v)]) := by
  rw [celEntries, h]
  simp only
  rw [mapPut_new hk]

/-- A member of a oneof that is set is the value. -/
theorem celOfValue_member {n : Text} {a : Option Val} {fs : List ProtoField} (ho : ∀ f ∈ fs, f.oneof.isSome)
    (hm : ∀ f ∈ fs, f.name ∈ valueMembers) (hn : ∃ f ∈ fs, f.name = n) :
    celOfValue L [(n, a)] fs = if n = "null_value".toList then some .null else a := by
  induction fs with
  | nil => obtain ⟨_, h, _⟩ := hn; cases h
  | cons f fs ih =>
    rw [celOfValue]
    by_cases hf : f.name = n
    · have hg : mapGet [(n, a)] f.name = some a := by rw [mapGet_entry, if_pos hf.symm]
      rw [hg, if_neg (by simp), hf]
      split
      · rfl
      · rw [if_pos (hf ▸ hm f (by simp))]
        rfl
    · have hg : mapGet [(n, a)] f.name = none := by
        rw [mapGet_entry, if_neg (Ne.symm hf)]
        rfl
      rw [if_pos ⟨ho f (by simp), by rw [hg]; rfl⟩]
      refine ih (fun g hg => ho g (by simp [hg])) (fun g hg => hm g (by simp [hg])) ?_
      obtain ⟨g, hgm, hgn⟩ := hn
      rcases List.mem_cons.1 hgm with rfl | hgm
      · exact absurd hgn hf
      · exact ⟨g, hgm, hgn⟩

theorem celOfValue_empty {fs : List ProtoField} (ho : ∀ f ∈ fs, f.oneof.isSome) :
    celOfValue L [] fs = some .null := by
  induction fs with
  | nil => rfl
  | cons f fs ih =>
    rw [celOfValue, if_pos ⟨ho f (by simp), rfl⟩]
    exact ih fun g hg => ho g (by simp [hg])

/-- The fields of a time. -/
theorem time_fields (hK : KnownDescs L) {fields : List (Text × ProtoVal)}
    (h : WellTypedFields L fields (L.desc "google.protobuf.Timestamp".toList).fields) :
    ∃ s n, TimeField fields "seconds" .i64 s ∧ TimeField fields "nanos" .i32 n ∧ InI32 n := by
  have ht := hK.time
  obtain ⟨f1, f2, hfs, h1, h2⟩ : ∃ f1 f2, (L.desc "google.protobuf.Timestamp".toList).fields = [f1, f2] ∧
      (f1.name = "seconds".toList ∧ f1.kind = .int64 ∧ f1.repeated = false) ∧
      (f2.name = "nanos".toList ∧ f2.kind = .int32 ∧ f2.repeated = false) := by
    generalize (L.desc "google.protobuf.Timestamp".toList).fields = fs at ht
    match fs, ht with
    | [f1, f2], ht =>
      simp only [List.map_cons, List.map_nil, List.cons.injEq, Prod.mk.injEq, and_true] at ht
      exact ⟨f1, f2, rfl, ht.1, ht.2⟩
    | [], ht => cases ht
    | [_], ht => simp at ht
    | _ :: _ :: _ :: _, ht => simp at ht
  have t1 : fieldType L f1 = some (.one .int64) := by simp [fieldType, isMapField, h1.2]
  have t2 : fieldType L f2 = some (.one .int32) := by simp [fieldType, isMapField, h2.2]
  have hne : "seconds".toList ≠ "nanos".toList := by decide
  rw [hfs] at h
  clear hfs ht hK
  induction fields with
  | nil => exact ⟨0, 0, .inr ⟨rfl, rfl⟩, .inr ⟨rfl, rfl⟩, by decide, by decide⟩
  | cons e l ih =>
    obtain ⟨m, p⟩ := e
    rw [WellTypedFields] at h
    obtain ⟨s, n, hs, hn, hi⟩ := ih h.2
    obtain ⟨f, hf, rfl, type, hty, hw⟩ := h.1
    simp only [List.mem_cons, List.not_mem_nil, or_false] at hf
    rcases hf with rfl | rfl
    · rw [t1] at hty
      cases hty
      obtain ⟨i, rfl⟩ : ∃ i, p = .i64 i := by
        cases p <;> simp [WellTyped] at hw
        exact ⟨_, rfl⟩
      refine ⟨i, n, .inl (by rw [mapGet_entry, if_pos h1.1]), ?_, hi⟩
      unfold TimeField
      rw [mapGet_entry, if_neg (by rw [h1.1]; exact hne)]
      exact hn
    · rw [t2] at hty
      cases hty
      obtain ⟨i, rfl, hi'⟩ : ∃ i, p = .i32 i ∧ InI32 i := by
        cases p <;> simp [WellTyped] at hw
        exact ⟨_, rfl, hw⟩
      refine ⟨s, i, ?_, .inl (by rw [mapGet_entry, if_pos h2.1]), hi'⟩
      unfold TimeField
      rw [mapGet_entry, if_neg (by rw [h2.1]; exact hne.symm)]
      exact hs

theorem timeField_eq {fields : List (Text × ProtoVal)} {name : String} {make : Int → ProtoVal} {i : Int}
    (h : TimeField fields name make i) : (mapGet fields name.toList).getD (make 0) = make i := by
  rcases h with h | ⟨h, rfl⟩ <;> rw [h] <;> rfl

/-- Reading a time. -/
theorem time_says (hK : KnownDescs L) (hv : ∀ s n, L.validTime s n = true → n < 2000000000)
    {fields : List (Text × ProtoVal)}
    (h : WellTypedFields L fields (L.desc "google.protobuf.Timestamp".toList).fields) :
    (Timely L (.message "google.protobuf.Timestamp".toList fields) → ∃ v, celOfTime L fields = some v ∧
      Says L (.message "google.protobuf.Timestamp".toList fields) v) ∧
    (¬ Timely L (.message "google.protobuf.Timestamp".toList fields) → celOfTime L fields = none) := by
  obtain ⟨s, n, hs, hn, h1, h2⟩ := time_fields hK h
  have key : celOfTime L fields =
      if L.validTime s (i32AsU32 n) then some (.timestamp s (i32AsU32 n)) else none := by
    unfold celOfTime
    dsimp only
    rw [timeField_eq hs, timeField_eq hn]
  rw [Timely, if_pos rfl, key]
  constructor
  · rintro ⟨s', n', hs', hn', h3, h4⟩
    have e1 : s = s' := by
      have := (timeField_eq hs).symm.trans (timeField_eq hs')
      cases this
      rfl
    have e2 : n = n' := by
      have := (timeField_eq hn).symm.trans (timeField_eq hn')
      cases this
      rfl
    subst e1 e2
    have he : i32AsU32 n = n.toNat := by unfold i32AsU32; omega
    rw [he, if_pos h4]
    exact ⟨_, rfl, .time hs (by rwa [Int.toNat_of_nonneg h3])⟩
  · intro h3
    refine if_neg fun h4 => h3 ⟨s, n, hs, hn, ?_⟩
    have := hv _ _ h4
    have hp : 0 ≤ n := by
      apply Classical.byContradiction
      intro hp
      unfold i32AsU32 at this
      omega
    have he : i32AsU32 n = n.toNat := by unfold i32AsU32; omega
    exact ⟨hp, he ▸ h4⟩

/-- A message with one kind of field has at most one field set. -/
theorem single {fields : List (Text × ProtoVal)} (hn : (names fields).Nodup)
    (h : ∀ a ∈ names fields, ∀ b ∈ names fields, a = b) : fields = [] ∨ ∃ n p, fields = [(n, p)] := by
  match fields with
  | [] => exact .inl rfl
  | [(n, p)] => exact .inr ⟨n, p, rfl⟩
  | (n, p) :: (m, q) :: l =>
    have := h n (by simp [names]) m (by simp [names])
    subst this
    simp [names] at hn

mutual
/-- What is read says the same as the message; reading fails only for a time that is none. -/
theorem says (hG : GoodDescs L) (hK : KnownDescs L) (hv : ∀ s n, L.validTime s n = true → n < 2000000000)
    (p : ProtoVal) (type : ProtoType) (h : WellTyped L p type) :
    (Timely L p → ∃ v, toCel L p = some v ∧ Says L p v) ∧ (¬ Timely L p → toCel L p = none) := by
  match p, h with
  | .bool b, _ => exact ⟨fun _ => ⟨_, rfl, .bool _⟩, fun h => absurd trivial h⟩
  | .i32 b, _ => exact ⟨fun _ => ⟨_, rfl, .i32 _⟩, fun h => absurd trivial h⟩
  | .i64 b, _ => exact ⟨fun _ => ⟨_, rfl, .i64 _⟩, fun h => absurd trivial h⟩
  | .u32 b, _ => exact ⟨fun _ => ⟨_, rfl, .u32 _⟩, fun h => absurd trivial h⟩
  | .u64 b, _ => exact ⟨fun _ => ⟨_, rfl, .u64 _⟩, fun h => absurd trivial h⟩
  | .f32 b, _ => exact ⟨fun _ => ⟨_, rfl, .f32 _⟩, fun h => absurd trivial h⟩
  | .f64 b, _ => exact ⟨fun _ => ⟨_, rfl, .f64 _⟩, fun h => absurd trivial h⟩
  | .string b, _ => exact ⟨fun _ => ⟨_, rfl, .string _⟩, fun h => absurd trivial h⟩
  | .bytes b, _ => exact ⟨fun _ => ⟨_, rfl, .bytes _⟩, fun h => absurd trivial h⟩
  | .enum b, _ => exact ⟨fun _ => ⟨_, rfl, .enum _⟩, fun h => absurd trivial h⟩
  | .list l, h =>
    rw [WellTyped] at h
    obtain ⟨kind, _, h⟩ := h
    obtain ⟨h1, h2⟩ := says_items hG hK hv l kind h
    rw [Timely, toCel]
    refine ⟨fun ht => ?_, fun ht => by rw [h2 ht]; rfl⟩
    obtain ⟨vs, h3, h4⟩ := h1 ht
    exact ⟨.list vs, by rw [h3]; rfl, .list h4⟩
  | .map m, h =>
    rw [WellTyped] at h
    obtain ⟨key, value, _, hn, h⟩ := h
    obtain ⟨h1, h2⟩ := says_entries hG hK hv m key value h hn [] (by simp)
    rw [Timely, toCel]
    refine ⟨fun ht => ?_, fun ht => by rw [h2 ht]; rfl⟩
    obtain ⟨es, h3, h4⟩ := h1 ht
    exact ⟨.map es, by rw [h3]; rfl, .map h4⟩
  | .message name fields, h =>
    rw [WellTyped] at h
    obtain ⟨_, hn, hf, ho⟩ := h
    obtain ⟨h1, h2⟩ := says_fields hG hK hv fields _ hf hn
    rw [toCel]
    by_cases e1 : name = timestampName
    · subst e1
      rw [if_pos rfl]
      exact time_says hK hv hf
    rw [if_neg e1, Timely, if_neg (show ¬ name = "google.protobuf.Timestamp".toList from e1)]
    by_cases e2 : name = structName
    · subst e2
      rw [if_pos rfl]
      obtain ⟨f, hfs, hname, hty⟩ := hK.struct
      rcases single hn (fun a ha b hb => by
        obtain ⟨f1, hf1, rfl⟩ := wellTypedFields_mem hf ha
        obtain ⟨f2, hf2, rfl⟩ := wellTypedFields_mem hf hb
        have hfs' : (L.desc structName).fields = [f] := hfs
        rw [hfs', List.mem_singleton] at hf1 hf2
        rw [hf1, hf2]) with rfl | ⟨n, p, rfl⟩
      · exact ⟨fun _ => ⟨_, rfl, .noFields⟩, fun h => absurd trivial h⟩
      · obtain ⟨h3, h4⟩ := only_field h1 h2
        rw [WellTypedFields] at hf
        obtain ⟨⟨g, hg, rfl, type, hty', hw⟩, _⟩ := hf
        have hfs' : (L.desc structName).fields = [f] := hfs
        rw [hfs', List.mem_singleton] at hg
        subst hg
        rw [hty] at hty'
        cases hty'
        obtain ⟨m, rfl⟩ : ∃ m, p = .map m := by
          cases p <;> simp [WellTyped] at hw
          exact ⟨_, rfl⟩
        rw [celGot_get, mapGet_entry, if_pos hname, hname]
        refine ⟨fun ht => ?_, fun ht => ?_⟩
        · obtain ⟨v, h5, h6⟩ := h3 ht
          refine ⟨v, ?_, .fields h6⟩
          rw [Option.map_some, h5]
          rw [toCel] at h5
          obtain ⟨es, _, rfl⟩ := Option.map_eq_some_iff.1 h5
          rfl
        · rw [Option.map_some, h4 ht]
    rw [if_neg e2]
    by_cases e3 : name = valueName
    · subst e3
      rw [if_pos rfl]
      obtain ⟨kind, hk⟩ := hK.oneof
      have hs : ∀ f ∈ (L.desc valueName).fields, f.oneof.isSome := fun f hf => by
        rw [hk f hf]
        rfl
      have hmem : ∀ f ∈ (L.desc valueName).fields, f.name ∈ valueMembers := fun f hf => by
        have h := List.mem_map_of_mem (f := ProtoField.name) hf
        have hval : (L.desc valueName).fields.map ProtoField.name = valueMembers := hK.value
        rwa [hval] at h
      rcases single hn (fun a ha b hb => by
        obtain ⟨f1, hf1, rfl⟩ := wellTypedFields_mem hf ha
        obtain ⟨f2, hf2, rfl⟩ := wellTypedFields_mem hf hb
        exact ho f1 hf1 f2 hf2 ha hb (hs f1 hf1) ((hk f2 hf2).trans (hk f1 hf1).symm)) with rfl | ⟨n, p, rfl⟩
      · exact ⟨fun _ => ⟨_, celOfValue_empty hs, .nothing⟩, fun h => absurd trivial h⟩
      · obtain ⟨h3, h4⟩ := only_field h1 h2
        have hc : celGot L [(n, p)] = [(n, toCel L p)] := rfl
        rw [hc, celOfValue_member hs hmem (wellTypedFields_mem hf (by simp [names]))]
        by_cases hnull : n = "null_value".toList
        · rw [if_pos hnull]
          subst hnull
          refine ⟨fun _ => ⟨_, rfl, .null p⟩, fun ht => absurd ?_ ht⟩
          rw [WellTypedFields] at hf
          obtain ⟨⟨g, hg, hgn, type, hty', hw⟩, _⟩ := hf
          obtain ⟨numbers, hty⟩ := hK.null g hg hgn
          rw [hty] at hty'
          cases hty'
          obtain ⟨i, rfl⟩ : ∃ i, p = .enum i := by
            cases p <;> simp [WellTyped] at hw
            exact ⟨_, rfl⟩
          exact ⟨trivial, trivial⟩
        · rw [if_neg hnull]
          refine ⟨fun ht => ?_, h4⟩
          obtain ⟨v, h5, h6⟩ := h3 ht
          exact ⟨v, h5, .value hnull h6⟩
    rw [if_neg e3]
    by_cases e4 : name = listValueName
    · subst e4
      rw [if_pos rfl]
      obtain ⟨f, hfs, hname, hty⟩ := hK.list
      rcases single hn (fun a ha b hb => by
        obtain ⟨f1, hf1, rfl⟩ := wellTypedFields_mem hf ha
        obtain ⟨f2, hf2, rfl⟩ := wellTypedFields_mem hf hb
        have hfs' : (L.desc listValueName).fields = [f] := hfs
        rw [hfs', List.mem_singleton] at hf1 hf2
        rw [hf1, hf2]) with rfl | ⟨n, p, rfl⟩
      · exact ⟨fun _ => ⟨_, rfl, .noValues⟩, fun h => absurd trivial h⟩
      · obtain ⟨h3, h4⟩ := only_field h1 h2
        rw [WellTypedFields] at hf
        obtain ⟨⟨g, hg, rfl, type, hty', hw⟩, _⟩ := hf
        have hfs' : (L.desc listValueName).fields = [f] := hfs
        rw [hfs', List.mem_singleton] at hg
        subst hg
        rw [hty] at hty'
        cases hty'
        obtain ⟨l, rfl⟩ : ∃ l, p = .list l := by
          cases p <;> simp [WellTyped] at hw
          exact ⟨_, rfl⟩
        rw [celGot_get, mapGet_entry, if_pos hname, hname]
        refine ⟨fun ht => ?_, fun ht => ?_⟩
        · obtain ⟨v, h5, h6⟩ := h3 ht
          refine ⟨v, ?_, .values h6⟩
          rw [Option.map_some, h5]
          rw [toCel] at h5
          obtain ⟨es, _, rfl⟩ := Option.map_eq_some_iff.1 h5
          rfl
        · rw [Option.map_some, h4 ht]
    rw [if_neg e4]
    refine ⟨fun ht => ?_, fun ht => ?_⟩
    · obtain ⟨given, h3, h4⟩ := h1 ht
      refine ⟨_, ?_, .message ⟨e1, e2, e3, e4⟩ h3⟩
      rw [celFields_eq hG (given := given) (name := name) (fun f h => h) fun f _ => h4 f.name]
      rfl
    · obtain ⟨n, h3, h4⟩ := h2 ht
      obtain ⟨f, hf, rfl⟩ := wellTypedFields_mem hf h3
      rw [celFields_none hf h4]
      rfl

theorem says_fields (hG : GoodDescs L) (hK : KnownDescs L) (hv : ∀ s n, L.validTime s n = true → n < 2000000000)
    (l : List (Text × ProtoVal)) (fs : List ProtoField) (h : WellTypedFields L l fs) (hn : (names l).Nodup) :
    (TimelyFields L l → ∃ given, SaysFields L l given ∧
      ∀ n, mapGet (celGot L l) n = (mapGet given n).map some) ∧
    (¬ TimelyFields L l → ∃ n ∈ names l, mapGet (celGot L l) n = some none) := by
  match l, h with
  | [], _ => exact ⟨fun _ => ⟨[], .nil, fun _ => rfl⟩, fun h => absurd trivial h⟩
  | (n, p) :: l, h =>
    rw [WellTypedFields] at h
    obtain ⟨⟨_, _, _, type, _, hw⟩, h⟩ := h
    obtain ⟨h1, h2⟩ := says hG hK hv p type hw
    rw [names, List.map_cons, List.nodup_cons] at hn
    obtain ⟨h3, h4⟩ := says_fields hG hK hv l fs h hn.2
    rw [TimelyFields]
    refine ⟨fun ht => ?_, fun ht => ?_⟩
    · obtain ⟨v, h5, h6⟩ := h1 ht.1
      obtain ⟨given, h7, h8⟩ := h3 ht.2
      refine ⟨(n, v) :: given, .cons h6 h7, fun m => ?_⟩
      rw [celGot, mapGet_entry, mapGet_entry, h5]
      split
      · rfl
      · exact h8 m
    · by_cases hp : Timely L p
      · obtain ⟨m, h5, h6⟩ := h4 fun hl => ht ⟨hp, hl⟩
        refine ⟨m, List.mem_cons_of_mem _ h5, ?_⟩
        rw [celGot, mapGet_entry, if_neg (fun e => hn.1 (by subst e; exact h5))]
        exact h6
      · refine ⟨n, List.mem_cons_self, ?_⟩
        rw [celGot, mapGet_entry, if_pos rfl, h2 hp]

theorem says_items (hG : GoodDescs L) (hK : KnownDescs L) (hv : ∀ s n, L.validTime s n = true → n < 2000000000)
    (l : List ProtoVal) (kind : ProtoKind) (h : WellTypedItems L l kind) :
    (TimelyItems L l → ∃ vs, celItems L l = some vs ∧ SaysItems L l vs) ∧
    (¬ TimelyItems L l → celItems L l = none) := by
  match l, h with
  | [], _ => exact ⟨fun _ => ⟨[], rfl, .nil⟩, fun h => absurd trivial h⟩
  | p :: l, h =>
    rw [WellTypedItems] at h
    obtain ⟨h1, h2⟩ := says hG hK hv p _ h.1
    obtain ⟨h3, h4⟩ := says_items hG hK hv l kind h.2
    rw [TimelyItems, celItems]
    refine ⟨fun ht => ?_, fun ht => ?_⟩
    · obtain ⟨v, h5, h6⟩ := h1 ht.1
      obtain ⟨vs, h7, h8⟩ := h3 ht.2
      exact ⟨v :: vs, by rw [h5, h7], .cons h6 h8⟩
    · by_cases hp : Timely L p
      · rw [h4 fun hl => ht ⟨hp, hl⟩]
        split
        · rename_i h; cases h
        · rfl
      · rw [h2 hp]

theorem says_entries (hG : GoodDescs L) (hK : KnownDescs L) (hv : ∀ s n, L.validTime s n = true → n < 2000000000)
    (m : List (ProtoKey × ProtoVal)) (key value : ProtoKind) (h : WellTypedEntries L m key value)
    (hn : (m.map Prod.fst).Nodup) (out : List (Key × Val)) (hd : ∀ e ∈ m, celKey e.1 ∉ out.map Prod.fst) :
    (TimelyEntries L m → ∃ es, celEntries L m out = some (out ++ es) ∧ SaysEntries L m es) ∧
    (¬ TimelyEntries L m → celEntries L m out = none) := by
  match m, h with
  | [], _ => exact ⟨fun _ => ⟨[], by rw [celEntries, List.append_nil], .nil⟩, fun h => absurd trivial h⟩
  | (k, p) :: m, h =>
    rw [WellTypedEntries] at h
    obtain ⟨hk, hp, h⟩ := h
    obtain ⟨h1, h2⟩ := says hG hK hv p _ hp
    rw [List.map_cons, List.nodup_cons] at hn
    have hko := hd (k, p) (by simp)
    rw [TimelyEntries]
    by_cases hp : Timely L p
    · obtain ⟨v, h5, h6⟩ := h1 hp
      obtain ⟨h3, h4⟩ := says_entries hG hK hv m key value h hn.2 (out ++ [(celKey k, v)]) (by
        intro e he hm
        rw [List.map_append, List.mem_append] at hm
        rcases hm with hm | hm
        · exact hd e (by simp [he]) hm
        · rw [List.map_singleton, List.mem_singleton] at hm
          exact hn.1 (celKey_inj (wellTypedEntries_kind h he) hk hm ▸ List.mem_map.2 ⟨e, he, rfl⟩))
      rw [celEntries_new h5 hko]
      refine ⟨fun ht => ?_, fun ht => h4 fun hl => ht ⟨hp, hl⟩⟩
      obtain ⟨es, h7, h8⟩ := h3 ht.2
      exact ⟨(celKey k, v) :: es, by rw [h7]; simp, .cons (celKey_same k) h6 h8⟩
    · refine ⟨fun ht => absurd ht.1 hp, fun _ => ?_⟩
      rw [celEntries, h2 hp]
end

end Verif
