import Verif.Lemmas.Export
import Verif.Lemmas.StructDefs
/-!
C38: values survive conversion to protobuf and back. C56: values handed over to the host. C57: the message
types CEL knows.
-/
namespace Verif.Props
open Verif Verif.Spec

namespace ConvDemo

/-- A message type `T` with a number, a list, a map, two alternatives, an inner `T` and a time. -/
def demoT : ProtoDesc where
  mapEntry := false
  fields :=
    [{ name := "id".toList, kind := .int32, repeated := false, oneof := none, presence := false },
     { name := "tags".toList, kind := .string, repeated := true, oneof := none, presence := false },
     { name := "limits".toList, kind := .message "E".toList, repeated := true, oneof := none, presence := false },
     { name := "a".toList, kind := .uint32, repeated := false, oneof := some "pick".toList, presence := true },
     { name := "b".toList, kind := .bool, repeated := false, oneof := some "pick".toList, presence := true },
     { name := "sub".toList, kind := .message "T".toList, repeated := false, oneof := none, presence := true },
     { name := "at".toList, kind := .message timestampName, repeated := false, oneof := none, presence := true },
     { name := "any".toList, kind := .message structName, repeated := false, oneof := none, presence := true }]

/-- The entries of the map of `T`. -/
def demoE : ProtoDesc where
  mapEntry := true
  fields :=
    [{ name := "key".toList, kind := .string, repeated := false, oneof := none, presence := false },
     { name := "value".toList, kind := .int64, repeated := false, oneof := none, presence := false }]

def member (n : String) (kind : ProtoKind) : ProtoField :=
  { name := n.toList, kind, repeated := false, oneof := some "kind".toList, presence := true }

/-- `google.protobuf.Value`. -/
def demoValue : ProtoDesc where
  mapEntry := false
  fields := [member "null_value" (.enum [0]), member "number_value" .double, member "string_value" .string,
    member "bool_value" .bool, member "struct_value" (.message structName),
    member "list_value" (.message listValueName)]

/-- `google.protobuf.Struct`, `google.protobuf.ListValue` and the entries of the former. -/
def demoStruct : ProtoDesc where
  mapEntry := false
  fields := [{ name := "fields".toList, kind := .message "SE".toList, repeated := true, oneof := none,
               presence := false }]

def demoStructEntry : ProtoDesc where
  mapEntry := true
  fields :=
    [{ name := "key".toList, kind := .string, repeated := false, oneof := none, presence := false },
     { name := "value".toList, kind := .message valueName, repeated := false, oneof := none, presence := true }]

def demoList : ProtoDesc where
  mapEntry := false
  fields := [{ name := "values".toList, kind := .message valueName, repeated := true, oneof := none,
               presence := false }]

def demoDesc (n : Text) : ProtoDesc :=
  if n = "T".toList then demoT
  else if n = "E".toList then demoE
  else if n = valueName then demoValue
  else if n = structName then demoStruct
  else if n = "SE".toList then demoStructEntry
  else if n = listValueName then demoList
  else { fields := [], mapEntry := false }

def lib : ProtoLib where
  toF32 := fun n => n.toUInt32
  toF64 := fun n => n.toUInt64
  inF32 := fun n => n < 1000
  validTime := fun _ n => n < 2000000000
  desc := demoDesc
  ofInt := fun i => .ofNat i.toNat
  lossy := fun _ => "?".toList

theorem desc_cases (P : ProtoDesc → Prop) (h1 : P demoT) (h2 : P demoE) (h3 : P demoValue) (h4 : P demoStruct)
    (h5 : P demoStructEntry) (h6 : P demoList) (h7 : P { fields := [], mapEntry := false }) (n : Text) :
    P (lib.desc n) := by
  show P (demoDesc n)
  unfold demoDesc
  repeat' split
  all_goals assumption

theorem good : GoodDescs lib := by
  constructor
  · intro n
    apply desc_cases (fun d => (d.fields.map ProtoField.name).Nodup) <;> decide
  · intro n
    apply desc_cases (fun d => ∀ f ∈ d.fields, (fieldType lib f).isSome) <;> decide +kernel

theorem valueDesc : ValueDesc (lib.desc valueName) := by
  constructor <;> decide +kernel

/-- A `T` with another inside. -/
def value : Val :=
  .struct "T".toList
    [("id".toList, .int (-5)), ("limits".toList, .map [(.str "x".toList, .int 9000000000)]),
     ("b".toList, .bool true), ("sub".toList, .struct "T".toList [("tags".toList, .list [.str "t".toList])]),
     ("at".toList, .timestamp 12 500)]

theorem typed : Typed lib value (.one (.message "T".toList)) := by
  have hT : lib.desc "T".toList = demoT := rfl
  have hO : Ordinary "T".toList := by unfold Ordinary; decide
  rw [value, Typed]
  refine ⟨rfl, hO, by decide, ?_, by rw [hT]; decide +kernel⟩
  rw [hT]
  simp only [TypedFields]
  refine ⟨⟨_, List.mem_cons_self, rfl, _, rfl, ?_⟩, ⟨demoT.fields[2], by decide, rfl, .map .string .int64, rfl, ?_⟩,
    ⟨demoT.fields[4], by decide, rfl, _, rfl, ?_⟩, ⟨demoT.fields[5], by decide, rfl, _, rfl, ?_⟩,
    ⟨demoT.fields[6], by decide, rfl, _, rfl, ?_⟩, trivial⟩
  · rw [Typed]; exact .inl ⟨rfl, by constructor <;> decide⟩
  · rw [Typed]
    refine ⟨_, _, rfl, by decide, ?_⟩
    rw [TypedEntries]
    exact ⟨rfl, by rw [Typed]; exact .inr (.inl rfl), trivial⟩
  · rw [Typed]; rfl
  · rw [Typed]
    refine ⟨rfl, hO, by decide, ?_, by rw [hT]; decide +kernel⟩
    rw [hT]
    simp only [TypedFields]
    refine ⟨⟨demoT.fields[1], by decide, rfl, .list .string, rfl, ?_⟩, trivial⟩
    rw [Typed]
    exact ⟨_, rfl, by rw [TypedItems]; exact ⟨by rw [Typed], trivial⟩⟩
  · rw [Typed]; exact ⟨rfl, by decide, rfl⟩

end ConvDemo

/-- C38. A value of a field's type, at whatever depth, with numbers in range, becomes a protobuf value, and
that is read as the same value again, with the fields it left out filled in. -/
theorem C38_round_trip {L : ProtoLib} (hG : GoodDescs L) {v : Val} {type : ProtoType} (h : Typed L v type) :
    ∃ p, toProto L v type = some p ∧ toCel L p = some (filled L v) := trip hG v type h

/-- C38. The same for a whole message, as it is sent to a service and as the service would read it. The name that the
expression gave the struct plays no part in it. -/
theorem C38_message {L : ProtoLib} (hG : GoodDescs L) {name : Text} {fields : List (Text × Val)}
    (h : Typed L (.struct name fields) (.one (.message name))) (called : Text) :
    ∃ sent, toMessage L (.struct called fields) name = some (.message name sent) ∧
      messageToCel L name sent = some (filled L (.struct name fields)) := by
  obtain ⟨p, h1, h2⟩ := trip hG _ _ h
  rw [Typed] at h
  obtain ⟨_, hO, _⟩ := h
  have h1' := h1
  rw [toProto] at h1'
  cases hb : buildFields (L.desc name).fields (fieldConvs L fields) (L.desc name).fields [] with
  | none => simp only [hb] at h1'; cases h1'
  | some sent =>
    simp only [hb, Option.map_some, Option.some.injEq] at h1'
    subst h1'
    refine ⟨sent, h1, ?_⟩
    refine Eq.trans ?_ h2
    rw [toCel]
    exact ((if_neg hO.1).trans ((if_neg hO.2.1).trans ((if_neg hO.2.2.1).trans (if_neg hO.2.2.2)))).symm

example : ∃ sent, toMessage ConvDemo.lib ConvDemo.value "T".toList = some (.message "T".toList sent) ∧
    messageToCel ConvDemo.lib "T".toList sent = some (filled ConvDemo.lib ConvDemo.value) :=
  C38_message ConvDemo.good ConvDemo.typed _

/-- C38. Only structs are sent, and what is sent is a message of the type that the method takes. -/
theorem C38_type {L : ProtoLib} {v : Val} {name : Text} {p : ProtoVal} (h : toMessage L v name = some p) :
    (∃ called fields, v = .struct called fields) ∧ ∃ sent, p = .message name sent := by
  cases v with
  | struct called fields =>
    refine ⟨⟨_, _, rfl⟩, ?_⟩
    rw [toMessage, toProto] at h
    obtain ⟨sent, _, rfl⟩ := Option.map_eq_some_iff.1 h
    exact ⟨sent, rfl⟩
  | _ => cases h

/-- C38. A time that a service sends is read as that time, and as nothing when it is none: `chrono` knows no times
with two thousand million nanoseconds. -/
theorem C38_time {L : ProtoLib} (hv : ∀ s n, L.validTime s n = true → n < 2000000000) (s n : Int) (hn : InI32 n) :
    toCel L (.message "google.protobuf.Timestamp".toList [("seconds".toList, .i64 s), ("nanos".toList, .i32 n)]) =
      if 0 ≤ n ∧ L.validTime s n.toNat = true then some (.timestamp s n.toNat) else none := by
  obtain ⟨h1, h2⟩ := hn
  rw [toCel, if_pos (show "google.protobuf.Timestamp".toList = timestampName from rfl)]
  show (if L.validTime s (i32AsU32 n) = true then some (Val.timestamp s (i32AsU32 n)) else none) = _
  by_cases hp : 0 ≤ n
  · have he : i32AsU32 n = n.toNat := by unfold i32AsU32; omega
    simp [he, hp]
  · have he : 2000000000 ≤ i32AsU32 n := by unfold i32AsU32; omega
    rw [if_neg (fun h => absurd (hv _ _ h) (by omega)), if_neg (fun h => hp h.1)]

example : toCel ConvDemo.lib (.message "google.protobuf.Timestamp".toList
    [("seconds".toList, .i64 5), ("nanos".toList, .i32 (-1))]) = none :=
  C38_time (fun _ _ h => by simpa [ConvDemo.lib] using h) 5 (-1) (by constructor <;> decide)

/-- C38. What filling in does to a struct: a field that was given keeps its (filled in) value. -/
theorem C38_given {L : ProtoLib} (hG : GoodDescs L) {name : Text} {fields : List (Text × Val)} {f : ProtoField}
    (hf : f ∈ (L.desc name).fields) {v : Val} (hv : mapGet fields f.name = some v) :
    ∃ out, filled L (.struct name fields) = .struct name out ∧ mapGet out f.name = some (filled L v) := by
  refine ⟨_, by rw [filled], ?_⟩
  have hn := hG.names name
  have hg : mapGet (filledFields L fields) f.name = some (filled L v) := by rw [filledFields_get, hv]; rfl
  generalize (L.desc name).fields = fs at hf hn
  induction fs with
  | nil => cases hf
  | cons g fs ih =>
    rw [List.map_cons, List.nodup_cons] at hn
    rw [fill]
    rcases List.mem_cons.mp hf with rfl | hf
    · rw [hg]; simp only; rw [mapGet_entry, if_pos rfl]
    · have hne : g.name ≠ f.name := fun e => hn.1 (e ▸ List.mem_map.mpr ⟨f, hf, rfl⟩)
      split
      · rw [mapGet_entry, if_neg hne]; exact ih hf hn.2
      · split
        · exact ih hf hn.2
        · rw [mapGet_entry, if_neg hne]; exact ih hf hn.2

/-- C38. A field that was not given has its zero value, or is missing when it keeps track of being set. -/
theorem C38_not_given {L : ProtoLib} (hG : GoodDescs L) {name : Text} {fields : List (Text × Val)} {f : ProtoField}
    (hf : f ∈ (L.desc name).fields) (hv : mapGet fields f.name = none) :
    ∃ out, filled L (.struct name fields) = .struct name out ∧
      mapGet out f.name = if f.presence then none else some (zero L f) := by
  refine ⟨_, by rw [filled], ?_⟩
  have hn := hG.names name
  have hg : mapGet (filledFields L fields) f.name = none := by rw [filledFields_get, hv]; rfl
  generalize (L.desc name).fields = fs at hf hn
  have none_of : ∀ fs : List ProtoField, f.name ∉ fs.map ProtoField.name →
      mapGet (fill L (filledFields L fields) fs) f.name = none := by
    intro fs
    induction fs with
    | nil => intro _; rfl
    | cons g fs ih =>
      intro h
      simp only [List.map_cons, List.mem_cons, not_or] at h
      rw [fill]
      split
      · rw [mapGet_entry, if_neg (Ne.symm h.1)]; exact ih h.2
      · split
        · exact ih h.2
        · rw [mapGet_entry, if_neg (Ne.symm h.1)]; exact ih h.2
  induction fs with
  | nil => cases hf
  | cons g fs ih =>
    rw [List.map_cons, List.nodup_cons] at hn
    rw [fill]
    rcases List.mem_cons.mp hf with rfl | hf
    · rw [hg]; simp only
      split
      · exact none_of fs hn.1
      · rw [mapGet_entry, if_pos rfl]
    · have hne : g.name ≠ f.name := fun e => hn.1 (e ▸ List.mem_map.mpr ⟨f, hf, rfl⟩)
      split
      · rw [mapGet_entry, if_neg hne]; exact ih hf hn.2
      · split
        · exact ih hf hn.2
        · rw [mapGet_entry, if_neg hne]; exact ih hf hn.2

example : (∃ out, filled ConvDemo.lib ConvDemo.value = .struct "T".toList out ∧
      mapGet out "id".toList = some (.int (-5))) ∧
    (∃ out, filled ConvDemo.lib ConvDemo.value = .struct "T".toList out ∧
      mapGet out "tags".toList = some (.list [])) ∧
    ∃ out, filled ConvDemo.lib ConvDemo.value = .struct "T".toList out ∧ mapGet out "a".toList = none :=
  ⟨C38_given (name := "T".toList) (f := ConvDemo.demoT.fields[0]) (v := .int (-5)) ConvDemo.good
     (by decide +kernel) rfl,
   C38_not_given (f := ConvDemo.demoT.fields[1]) ConvDemo.good (by decide +kernel) rfl,
   C38_not_given (f := ConvDemo.demoT.fields[3]) ConvDemo.good (by decide +kernel) rfl⟩

/-- C38. A conversion that succeeds was one of a value of the right sort; a list, map or struct is converted
only if all its parts are. -/
theorem C38_mismatch {L : ProtoLib} {v : Val} {type : ProtoType} {p : ProtoVal} (h : toProto L v type = some p) :
    Suits L v type := by
  cases v with
  | bool b =>
    unfold toProto at h
    split at h
    · rfl
    · cases h
  | int i =>
    unfold toProto at h
    split at h
    · exact .inl rfl
    · exact .inr (.inl rfl)
    · rename_i numbers
      refine .inr (.inr ⟨numbers, rfl, ?_⟩)
      split at h
      · cases h
      · split at h
        · rename_i hc; exact List.contains_iff_mem.mp hc
        · cases h
    · cases h
  | uint n =>
    unfold toProto at h
    split at h
    · exact .inl rfl
    · exact .inr rfl
    · cases h
  | float bits =>
    unfold toProto at h
    split at h
    · split at h
      · rename_i hc; exact .inr ⟨rfl, hc⟩
      · cases h
    · exact .inl rfl
    · cases h
  | str t =>
    unfold toProto at h
    split at h
    · rfl
    · cases h
  | bytes b =>
    unfold toProto at h
    split at h
    · rfl
    · cases h
  | timestamp secs nanos =>
    unfold toProto at h
    split at h
    · split at h
      · rename_i hn; rw [hn]; rfl
      · cases h
    · cases h
  | list l =>
    unfold toProto at h
    split at h
    · rename_i kind
      refine ⟨kind, rfl, ?_⟩
      cases hi : toItems L l kind with
      | none => rw [hi] at h; cases h
      | some ps =>
        clear h
        induction l generalizing ps with
        | nil => intro x hx; cases hx
        | cons y l ih =>
          rw [toItems] at hi
          cases hy : toProto L y (.one kind) with
          | none => simp only [hy] at hi; cases hi
          | some q =>
            cases hl : toItems L l kind with
            | none => simp only [hy, hl] at hi; cases hi
            | some qs =>
              intro x hx
              rcases List.mem_cons.mp hx with rfl | hx
              · rw [hy]; rfl
              · exact ih qs hl x hx
    · cases h
  | map m =>
    unfold toProto at h
    split at h
    · rename_i key value
      refine ⟨key, value, rfl, ?_⟩
      cases hi : toEntries L m key value [] with
      | none => rw [hi] at h; cases h
      | some ps =>
        clear h
        generalize ([] : List (ProtoKey × ProtoVal)) = out at hi
        induction m generalizing out with
        | nil => intro x hx; cases hx
        | cons e m ih =>
          obtain ⟨k, w⟩ := e
          rw [toEntries] at hi
          cases hk : protoKey k key with
          | none => simp only [hk] at hi; cases hi
          | some pk =>
            cases hw : toProto L w (.one value) with
            | none => simp only [hk, hw] at hi; cases hi
            | some q =>
              simp only [hk, hw] at hi
              intro x hx
              rcases List.mem_cons.mp hx with rfl | hx
              · simp only [hw]; rfl
              · exact ih _ hi x hx
    · cases h
  | struct name fields =>
    unfold toProto at h
    split at h
    · rename_i n
      refine ⟨n, rfl, ?_⟩
      generalize (L.desc n).fields = all at h
      cases hb : buildFields all (fieldConvs L fields) all [] with
      | none => rw [hb] at h; cases h
      | some ps =>
        clear h
        have key : ∀ (fs : List ProtoField) (msg : List (Text × ProtoVal)),
            buildFields all (fieldConvs L fields) fs msg = some ps → ∀ f ∈ fs, ∀ x,
            mapGet fields f.name = some x → ∃ t, fieldType L f = some t ∧ (toProto L x t).isSome := by
          intro fs
          induction fs with
          | nil => intro _ _ f hf; cases hf
          | cons g fs ih =>
            intro msg hb f hf x hx
            rw [buildFields] at hb
            rcases List.mem_cons.mp hf with rfl | hf
            · rw [fieldConvs_get, hx] at hb
              simp only [Option.map_some] at hb
              cases ht : fieldType L f with
              | none => simp only [ht, Option.bind_none] at hb; cases hb
              | some t =>
                refine ⟨t, rfl, ?_⟩
                simp only [ht, Option.bind_some] at hb
                cases hp : toProto L x t with
                | none => rw [hp] at hb; cases hb
                | some _ => rfl
            · split at hb
              · exact ih _ hb f hf x hx
              · split at hb
                · cases hb
                · exact ih _ hb f hf x hx
        exact key all [] hb
    · cases h
  | null => unfold toProto at h; cases h
  | duration d => unfold toProto at h; cases h
  | other => unfold toProto at h; cases h

example : (toProto ConvDemo.lib ConvDemo.value (.one (.message "T".toList))).isSome ∧
    toProto ConvDemo.lib (.list [.str "a".toList, .int 1]) (.list .string) = none ∧
    toProto ConvDemo.lib (.int 1) (.one .uint64) = none := by
  obtain ⟨p, h, _⟩ := C38_round_trip ConvDemo.good ConvDemo.typed
  refine ⟨by rw [h]; rfl, rfl, rfl⟩

/-- C38 fails for numbers out of range: an integer too large for a 32-bit field is not refused but sent as
another number, the one that agrees with it modulo 2^32. -/
theorem C38_wraps (L : ProtoLib) (i : Int) :
    ∃ p j, toProto L (.int i) (.one .int32) = some p ∧ toCel L p = some (.int j) ∧ InI32 j ∧
      ∃ k : Int, j = i + k * 4294967296 := by
  refine ⟨_, wrapI32 i, rfl, rfl, ?_, ?_⟩
  · constructor <;> unfold wrapI32 <;> omega
  · refine ⟨- ((i + 2147483648) / 4294967296), ?_⟩
    unfold wrapI32; omega

/-- C38 fails likewise for unsigned integers. -/
theorem C38_wraps_unsigned (L : ProtoLib) (n : Nat) :
    ∃ p, toProto L (.uint n) (.one .uint32) = some p ∧ toCel L p = some (.uint (n % 4294967296)) :=
  ⟨_, rfl, rfl⟩

/-- C38 fails: a limit of 2^32 becomes 0. -/
theorem C38_wraps_to_zero (L : ProtoLib) :
    ∃ p, toProto L (.int 4294967296) (.one .int32) = some p ∧ toCel L p = some (.int 0) :=
  ⟨_, rfl, rfl⟩

/-- C38 fails for the keys of maps: two keys out of range become one, and an entry is lost. -/
theorem C38_keys_merge (L : ProtoLib) (a b : Text) :
    ∃ p, toProto L (.map [(.int 1, .str a), (.int 4294967297, .str b)]) (.map .int32 .string) = some p ∧
      toCel L p = some (.map [(.int 1, .str b)]) :=
  ⟨_, rfl, rfl⟩

/-- C38 fails for the types of keys: text keys are accepted for a map whose keys are numbers or booleans, and
the message then has keys of a type its definition does not have. -/
theorem C38_key_type (L : ProtoLib) (t : Text) (kind : ProtoKind) (v : Bool) :
    toProto L (.map [(.str t, .bool v)]) (.map kind .bool) = some (.map [(.string t, .bool v)]) ∧
    toProto L (.map [(.bool v, .bool v)]) (.map kind .bool) = some (.map [(.bool v, .bool v)]) := by
  constructor <;> cases kind <;> rfl

/-- C38 fails for the free-form types: a map, list or plain value, which is how `google.protobuf.Struct`,
`ListValue` and `Value` are read, cannot be written to a field of that type. -/
theorem C38_free_form (L : ProtoLib) (n : Text) :
    (∀ m, toProto L (.map m) (.one (.message n)) = none) ∧
    (∀ l, toProto L (.list l) (.one (.message n)) = none) ∧
    (∀ t, toProto L (.str t) (.one (.message n)) = none) :=
  ⟨fun _ => rfl, fun _ => rfl, fun _ => rfl⟩

/-- C38 fails for names of structs: a struct of any type is accepted for a message of any type, only the
fields with matching names counting. -/
theorem C38_any_struct (L : ProtoLib) (a b : Text) (fields : List (Text × Val)) (type : ProtoType) :
    toProto L (.struct a fields) type = toProto L (.struct b fields) type := rfl

/-- C38 fails for two alternatives given at once: only the later one is sent. -/
theorem C38_alternatives :
    (toProto ConvDemo.lib (.struct "T".toList [("a".toList, .uint 1), ("b".toList, .bool false)])
      (.one (.message "T".toList))) = some (.message "T".toList [("b".toList, .bool false)]) := by
  with_unfolding_all rfl

/-- C56. The message made from an exported value reads as the value again, with numbers as floats and bytes
as text; there is none exactly when the value has a part that JSON has not. -/
theorem C56_export {L : ProtoLib} (hV : ValueDesc (L.desc "google.protobuf.Value".toList)) {v : Val}
    (hu : UniqueKeys v) :
    match jsonLike L v with
    | some w => ∃ p, exportMsg L v = some p ∧ toCel L p = some w
    | none => exportMsg L v = none := by
  rcases exportMsg_reads hV v hu with ⟨h1, h2⟩ | ⟨p, w, h1, h2, h3⟩
  · rw [h2]; exact h1
  · rw [h2]; exact ⟨p, h1, h3⟩

/-- C56. A map is handed over as a `google.protobuf.Struct`, anything else as a `google.protobuf.Value`. -/
theorem C56_shape {L : ProtoLib} {v : Val} {p : ProtoVal} (h : exportMsg L v = some p) :
    ∃ fields, p = .message (match v with
      | .map _ => "google.protobuf.Struct".toList
      | _ => "google.protobuf.Value".toList) fields := by
  cases v with
  | map m =>
    rw [exportMsg] at h
    cases hf : toJsonFields L m [] with
    | none => rw [hf] at h; cases h
    | some fs => rw [hf] at h; cases h; exact ⟨_, rfl⟩
  | list l =>
    rw [exportMsg, toJsonMsg] at h
    · cases hf : toJsonItems L l with
      | none => rw [hf] at h; cases h
      | some fs => rw [hf] at h; cases h; exact ⟨_, rfl⟩
    · nofun
  | null => cases h; exact ⟨_, rfl⟩
  | bool b => cases h; exact ⟨_, rfl⟩
  | int b => cases h; exact ⟨_, rfl⟩
  | uint b => cases h; exact ⟨_, rfl⟩
  | float b => cases h; exact ⟨_, rfl⟩
  | str b => cases h; exact ⟨_, rfl⟩
  | bytes b => cases h; exact ⟨_, rfl⟩
  | struct n fs => cases h
  | timestamp s n => cases h
  | duration d => cases h
  | other => cases h

/-- C56. Text, truth values, floats, null, and lists and maps of them are unchanged by this. -/
theorem C56_unchanged (L : ProtoLib) (a : Text) (b : Bool) (x : UInt64) :
    jsonLike L (.map [(.str a, .list [.str a, .bool b, .float x, .null])]) =
      some (.map [(.str a, .list [.str a, .bool b, .float x, .null])]) := by
  simp [jsonLike, jsonLikeItems, jsonLikeEntries]

example : ∃ p, exportMsg ConvDemo.lib (.map [(.str "a".toList, .list [.int 3, .null]), (.str "b".toList, .map [])]) =
      some p ∧
    toCel ConvDemo.lib p = some (.map [(.str "a".toList, .list [.float 3, .null]), (.str "b".toList, .map [])]) :=
  C56_export (L := ConvDemo.lib) ConvDemo.valueDesc
    (v := .map [(.str "a".toList, .list [.int 3, .null]), (.str "b".toList, .map [])])
    (by simp [UniqueKeys, UniqueKeysEntries, UniqueKeysItems])

/-- C57. When the types of a message have been collected, they are exactly the message types that can occur
in it, other than the entries of maps, each once, with the fields of its descriptor in their order. -/
theorem C57_types {L : ProtoLib} {root : Text} {fuel : Nat} {defs : List StructDef}
    (h : collectDefs L fuel [root] [] [] = some defs) :
    (∀ n, n ∈ defs.map StructDef.name ↔ Inside L root n ∧ (L.desc n).mapEntry = false) ∧
    (defs.map StructDef.name).Nodup ∧
    ∀ d ∈ defs, d.fields = (L.desc d.name).fields.map fun f => (f.name, celTypeOf L f) := by
  obtain ⟨visited, hI⟩ := collecting fuel (root := root)
    ⟨fun n hn => by rw [List.mem_singleton.mp hn]; exact .self, (by intro _ h; cases h), .inr (by simp),
      (by intro _ h; cases h), List.nodup_nil, rfl⟩ h
  have hnames : defs.map StructDef.name = (visited.filter fun n => !(L.desc n).mapEntry).reverse := by
    rw [hI.hdefs, List.map_reverse, List.map_map]
    congr 1
    have : (StructDef.name ∘ structDef L) = fun n => n := rfl
    rw [this, List.map_id']
  have hall : ∀ n, Inside L root n → n ∈ visited := by
    intro n hn
    induction hn with
    | self => rcases hI.hroot with h | h
              · exact h
              · cases h
    | field _ hf hk ih =>
      rcases hI.hclosed _ ih _ (innerTypes_mem.mpr ⟨_, hf, hk⟩) with h | h
      · exact h
      · cases h
  refine ⟨?_, ?_, ?_⟩
  · intro n
    rw [hnames, List.mem_reverse, List.mem_filter]
    constructor
    · rintro ⟨h1, h2⟩; exact ⟨hI.hvisited n h1, by simpa using h2⟩
    · rintro ⟨h1, h2⟩; exact ⟨hall n h1, by simp [h2]⟩
  · rw [hnames]
    exact List.pairwise_reverse.mpr ((hI.hnodup.filter _).imp Ne.symm)
  · intro d hd
    rw [hI.hdefs, List.mem_reverse, List.mem_map] at hd
    obtain ⟨n, _, rfl⟩ := hd
    rfl

/-- C57. The collection ends, however the message types refer to each other, when there are finitely many. -/
theorem C57_ends {L : ProtoLib} {root : Text} {pool : List Text} (hroot : root ∈ pool)
    (hpool : ∀ n ∈ pool, ∀ f ∈ (L.desc n).fields, ∀ m, f.kind = .message m → m ∈ pool) :
    ∃ fuel defs, collectDefs L fuel [root] [] [] = some defs := by
  have := collectDefs_ends (L := L) (pool := pool) (fun n hn m hm => by
    obtain ⟨f, hf, hk⟩ := innerTypes_mem.mp hm
    exact hpool n hn f hf m hk) _ (todo := [root]) (visited := []) (defs := [])
    (fun n hn => by rw [List.mem_singleton.mp hn]; exact hroot) (Nat.le_refl _)
  obtain ⟨defs, h⟩ := Option.isSome_iff_exists.mp this
  exact ⟨_, defs, h⟩

example : (collectDefs ConvDemo.lib 40 ["T".toList] [] []).map (List.map StructDef.name) =
    some ["T".toList, structName, valueName, listValueName, timestampName] := by
  with_unfolding_all rfl

/-- C57. The type declared for a field is that of every value of the field's type. -/
theorem C57_declared {L : ProtoLib} {f : ProtoField} {type : ProtoType} (ht : fieldType L f = some type) {v : Val}
    (h : Typed L v type) : OfType (filled L v) (celTypeOf L f) := by
  have hone : ∀ kind, type = .one kind → isMapField L f = false ∧ f.repeated = false ∧ f.kind = kind := by
    intro kind hk
    subst hk
    unfold fieldType at ht
    split at ht
    · split at ht
      · split at ht <;> cases ht
      · cases ht
    · split at ht
      · cases ht
      · rename_i h1 h2
        cases ht
        exact ⟨by simpa using h1, by simpa using h2, rfl⟩
  have one : ∀ kind, type = .one kind → celTypeOf L f = kindType kind := by
    intro kind hk
    obtain ⟨h1, h2, h3⟩ := hone kind hk
    rw [celTypeOf, h1, h2, h3]
    rfl
  cases v with
  | bool b => rw [Typed] at h; rw [one _ h]; rfl
  | int i =>
    rw [Typed] at h
    rcases h with ⟨h, _⟩ | h | ⟨numbers, h, _⟩ <;> (rw [one _ h]; rfl)
  | uint i => rw [Typed] at h; rcases h with ⟨h, _⟩ | h <;> (rw [one _ h]; rfl)
  | float i => rw [Typed] at h; rcases h with h | ⟨h, _⟩ <;> (rw [one _ h]; rfl)
  | str b => rw [Typed] at h; rw [one _ h]; rfl
  | bytes b => rw [Typed] at h; rw [one _ h]; rfl
  | timestamp s n =>
    rw [Typed] at h
    rw [one _ h.1]
    show kindType (.message timestampName) = .timestamp
    decide
  | struct n fs =>
    rw [Typed] at h
    rw [one _ h.1, filled]
    exact if_neg h.2.1.1
  | list l =>
    rw [Typed] at h
    obtain ⟨kind, rfl, _⟩ := h
    unfold fieldType at ht
    rw [celTypeOf, filled]
    split at ht
    · split at ht
      · split at ht <;> cases ht
      · cases ht
    · rename_i hm
      rw [if_neg hm]
      split at ht
      · rename_i hr; rw [if_pos hr]; rfl
      · cases ht
  | map m =>
    rw [Typed] at h
    obtain ⟨key, value, rfl, _⟩ := h
    unfold fieldType at ht
    rw [celTypeOf, filled]
    split at ht
    · rename_i hm; rw [if_pos hm]; rfl
    · split at ht <;> cases ht
  | null => rw [Typed] at h <;> first | cases h | nofun
  | duration d => rw [Typed] at h <;> first | cases h | nofun
  | other => rw [Typed] at h <;> first | cases h | nofun

example : OfType (filled ConvDemo.lib ConvDemo.value) (.struct "T".toList) :=
  C57_declared (f := ConvDemo.demoT.fields[5]) rfl ConvDemo.typed

/-- C57 fails for the free-form types: a field of type `google.protobuf.Struct` is declared to be a struct of
that name, but its values are maps. -/
theorem C57_free_form (L : ProtoLib) {f : ProtoField} (hr : f.repeated = false)
    (hk : f.kind = .message "google.protobuf.Struct".toList) (m : List (ProtoKey × ProtoVal)) (v : Val)
    (h : toCel L (.message "google.protobuf.Struct".toList [("fields".toList, .map m)]) = some v) :
    ¬ OfType v (celTypeOf L f) := by
  have h' := (toCel_struct (L := L) m).symm.trans h
  cases hc : celEntries L m [] with
  | none => rw [hc] at h'; cases h'
  | some es =>
    rw [hc] at h'
    cases h'
    unfold celTypeOf isMapField
    rw [hr, hk]
    intro hO
    have : CelType.struct "google.protobuf.Struct".toList = .map := hO
    cases this

example : ¬ OfType (.map []) (celTypeOf ConvDemo.lib ConvDemo.demoT.fields[7]) :=
  C57_free_form ConvDemo.lib rfl rfl [] _ rfl

end Verif.Props
