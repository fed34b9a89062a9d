import Verif.Lemmas.Answers
import Verif.Props.Converters
/-!
C78: what a service answers is what expressions see.
-/
namespace Verif.Props
open Verif Verif.Spec

variable {L : ProtoLib}

/-- C78. Every value of a protobuf type, at whatever depth, is read as the CEL value that says the same. It is not read
only if there is a time in it that is none: `chrono` knows no times with two thousand million nanoseconds. -/
theorem C78_value (hG : GoodDescs L) (hK : KnownDescs L) (hv : ∀ s n, L.validTime s n = true → n < 2000000000)
    (p : ProtoVal) (type : ProtoType) (h : WellTyped L p type) :
    (Timely L p → ∃ v, toCel L p = some v ∧ Says L p v) ∧ (¬ Timely L p → toCel L p = none) :=
  says hG hK hv p type h

/-- The fields of a struct that was filled in. -/
theorem fill_get {given : List (Text × Val)} {f : ProtoField} {fs : List ProtoField} (hf : f ∈ fs)
    (hn : (fs.map ProtoField.name).Nodup) :
    mapGet (fill L given fs) f.name =
      (mapGet given f.name).or (if f.presence then none else some (zero L f)) := by
  have none_of : ∀ {n : Text} (fs : List ProtoField), n ∉ fs.map ProtoField.name → mapGet (fill L given fs) n = none := by
    intro n fs
    induction fs with
    | nil => intro _; rfl
    | cons g fs ih =>
      intro h
      simp only [List.map_cons, List.mem_cons, not_or] at h
      rw [fill]
      split
      · rw [mapGet_entry, if_neg (Ne.symm h.1)]; exact ih h.2
      · split
        · exact ih h.2
        · rw [mapGet_entry, if_neg (Ne.symm h.1)]; exact ih h.2
  induction fs with
  | nil => cases hf
  | cons g fs ih =>
    rw [List.map_cons, List.nodup_cons] at hn
    rw [fill]
    rcases List.mem_cons.mp hf with rfl | hf
    · split
      · rename_i v hg
        rw [mapGet_entry, if_pos rfl, hg]
        rfl
      · rename_i hg
        rw [hg]
        split
        · rw [none_of fs hn.1]; rfl
        · rw [mapGet_entry, if_pos rfl]; rfl
    · have hne : g.name ≠ f.name := fun e => hn.1 (e ▸ List.mem_map.mpr ⟨f, hf, rfl⟩)
      split
      · rw [mapGet_entry, if_neg hne]; exact ih hf hn.2
      · split
        · exact ih hf hn.2
        · rw [mapGet_entry, if_neg hne]; exact ih hf hn.2

theorem saysFields_get {fields : List (Text × ProtoVal)} {given : List (Text × Val)} (h : SaysFields L fields given)
    (n : Text) : (mapGet fields n = none ∧ mapGet given n = none) ∨
      ∃ p v, mapGet fields n = some p ∧ mapGet given n = some v ∧ Says L p v := by
  induction fields generalizing given with
  | nil => cases h; exact .inl ⟨rfl, rfl⟩
  | cons e l ih =>
    cases h with
    | cons hs ht =>
      rw [mapGet_entry, mapGet_entry]
      split
      · exact .inr ⟨_, _, rfl, rfl, hs⟩
      · exact ih ht

/-- C78. The answer of a service, a message of the type that the method returns. It is read as a struct with the name of
that type, unless there is a time in it that is none. A field that the service has set has the value that says the
same. One that it has not set is missing when the field keeps track of being set, and otherwise has its zero value.
There are no other fields. -/
theorem C78_reply (hG : GoodDescs L) (hK : KnownDescs L) (hv : ∀ s n, L.validTime s n = true → n < 2000000000)
    (name : Text) (fields : List (Text × ProtoVal))
    (h : WellTyped L (.message name fields) (.one (.message name))) :
    (TimelyFields L fields → ∃ out, messageToCel L name fields = some (.struct name out) ∧
      (∀ f ∈ (L.desc name).fields, (∀ p, mapGet fields f.name = some p → ∃ v, mapGet out f.name = some v ∧ Says L p v) ∧
        (mapGet fields f.name = none → mapGet out f.name = if f.presence then none else some (zero L f))) ∧
      ∀ n, (mapGet out n).isSome → ∃ f ∈ (L.desc name).fields, f.name = n) ∧
    (¬ TimelyFields L fields → messageToCel L name fields = none) := by
  rw [WellTyped] at h
  obtain ⟨_, hn, hf, _⟩ := h
  obtain ⟨h1, h2⟩ := says_fields hG hK hv fields _ hf hn
  refine ⟨fun ht => ?_, fun ht => ?_⟩
  · obtain ⟨given, h3, h4⟩ := h1 ht
    refine ⟨fill L given (L.desc name).fields, ?_, ?_, ?_⟩
    · rw [messageToCel, celFields_eq hG (given := given) (name := name) (fun f h => h) fun f _ => h4 f.name]
      rfl
    · intro f hf'
      rw [fill_get hf' (hG.names name)]
      rcases saysFields_get h3 f.name with ⟨h5, h6⟩ | ⟨p, v, h5, h6, h7⟩
      · rw [h5, h6]
        exact ⟨fun p h => (by cases h), fun _ => rfl⟩
      · rw [h5, h6]
        refine ⟨fun q h => ?_, fun h => by cases h⟩
        cases h
        exact ⟨v, rfl, h7⟩
    · intro n hs
      apply Classical.byContradiction
      intro hno
      have key : ∀ fs : List ProtoField, (∀ f ∈ fs, f.name ≠ n) → mapGet (fill L given fs) n = none := by
        intro fs
        induction fs with
        | nil => intro _; rfl
        | cons g fs ih =>
          intro h
          have ih := ih fun f hf => h f (by simp [hf])
          rw [fill]
          split
          · rw [mapGet_entry, if_neg (h g (by simp))]; exact ih
          · split
            · exact ih
            · rw [mapGet_entry, if_neg (h g (by simp))]; exact ih
      rw [key _ fun f hf e => hno ⟨f, hf, e⟩] at hs
      cases hs
  · obtain ⟨n, h3, h4⟩ := h2 ht
    obtain ⟨f, hf, rfl⟩ := wellTypedFields_mem hf h3
    rw [messageToCel, celFields_none hf h4]
    rfl

theorem timeField_unique {fields : List (Text × ProtoVal)} {name : String} {make : Int → ProtoVal}
    (hm : ∀ i j, make i = make j → i = j) {i j : Int} (h : TimeField fields name make i)
    (h' : TimeField fields name make j) : i = j :=
  hm _ _ ((timeField_eq h).symm.trans (timeField_eq h'))

theorem sameKey_unique {k : ProtoKey} {a b : Key} (h : SameKey k a) (h' : SameKey k b) : a = b := by
  cases h <;> cases h' <;> rfl

theorem says_message {name : Text} {fields : List (Text × ProtoVal)} {v : Val} (h : Says L (.message name fields) v) :
    (Ordinary name ∧ ∃ given, SaysFields L fields given ∧ v = .struct name (fill L given (L.desc name).fields)) ∨
    (name = "google.protobuf.Timestamp".toList ∧ ∃ s, ∃ n : Nat, TimeField fields "seconds" .i64 s ∧
      TimeField fields "nanos" .i32 n ∧ v = .timestamp s n) ∨
    (name = "google.protobuf.Struct".toList ∧ (fields = [] ∧ v = .map [] ∨
      ∃ p, fields = [("fields".toList, p)] ∧ Says L p v)) ∨
    (name = "google.protobuf.ListValue".toList ∧ (fields = [] ∧ v = .list [] ∨
      ∃ p, fields = [("values".toList, p)] ∧ Says L p v)) ∨
    (name = "google.protobuf.Value".toList ∧ (fields = [] ∧ v = .null ∨
      (∃ p, fields = [("null_value".toList, p)] ∧ v = .null) ∨
      ∃ n p, n ≠ "null_value".toList ∧ fields = [(n, p)] ∧ Says L p v)) := by
  generalize e1 : "google.protobuf.Timestamp".toList = n1
  generalize e2 : "google.protobuf.Struct".toList = n2
  generalize e3 : "google.protobuf.ListValue".toList = n3
  generalize e4 : "google.protobuf.Value".toList = n4
  cases h with
  | message h1 h2 => exact .inl ⟨h1, _, h2, rfl⟩
  | time h1 h2 => exact .inr (.inl ⟨e1, _, _, h1, h2, rfl⟩)
  | noFields => exact .inr (.inr (.inl ⟨e2, .inl ⟨rfl, rfl⟩⟩))
  | fields h => exact .inr (.inr (.inl ⟨e2, .inr ⟨_, rfl, h⟩⟩))
  | noValues => exact .inr (.inr (.inr (.inl ⟨e3, .inl ⟨rfl, rfl⟩⟩)))
  | values h => exact .inr (.inr (.inr (.inl ⟨e3, .inr ⟨_, rfl, h⟩⟩)))
  | nothing => exact .inr (.inr (.inr (.inr ⟨e4, .inl ⟨rfl, rfl⟩⟩)))
  | null p => exact .inr (.inr (.inr (.inr ⟨e4, .inr (.inl ⟨_, rfl, rfl⟩)⟩)))
  | value h1 h => exact .inr (.inr (.inr (.inr ⟨e4, .inr (.inr ⟨_, _, h1, rfl, h⟩)⟩)))

mutual
/-- C78. What a message says is one value. -/
theorem C78_unique (p : ProtoVal) {v w : Val} (h : Says L p v) (h' : Says L p w) : v = w := by
  match p, h with
  | .bool b, .bool _ => cases h'; rfl
  | .i32 b, .i32 _ => cases h'; rfl
  | .i64 b, .i64 _ => cases h'; rfl
  | .u32 b, .u32 _ => cases h'; rfl
  | .u64 b, .u64 _ => cases h'; rfl
  | .f32 b, .f32 _ => cases h'; rfl
  | .f64 b, .f64 _ => cases h'; rfl
  | .string b, .string _ => cases h'; rfl
  | .bytes b, .bytes _ => cases h'; rfl
  | .enum b, .enum _ => cases h'; rfl
  | .list l, .list h =>
    cases h' with
    | list h' => rw [unique_items l h h']
  | .map m, .map h =>
    cases h' with
    | map h' => rw [unique_entries m h h']
  | .message name fields, h =>
    rcases says_message h with ⟨hO, given, h1, rfl⟩ | ⟨rfl, s, n, h1, h2, rfl⟩ | ⟨rfl, ⟨rfl, rfl⟩ | ⟨q, rfl, h1⟩⟩ |
      ⟨rfl, ⟨rfl, rfl⟩ | ⟨q, rfl, h1⟩⟩ | ⟨rfl, ⟨rfl, rfl⟩ | ⟨q, rfl, rfl⟩ | ⟨m, q, hm, rfl, h1⟩⟩
    · rcases says_message h' with ⟨_, given', h3, rfl⟩ | ⟨rfl, _⟩ | ⟨rfl, _⟩ | ⟨rfl, _⟩ | ⟨rfl, _⟩
      · rw [unique_fields fields h1 h3]
      · exact absurd rfl hO.1
      · exact absurd rfl hO.2.1
      · exact absurd rfl hO.2.2.2
      · exact absurd rfl hO.2.2.1
    · rcases says_message h' with ⟨hO, _⟩ | ⟨_, s', n', h3, h4, rfl⟩ | ⟨e, _⟩ | ⟨e, _⟩ | ⟨e, _⟩
      · exact absurd rfl hO.1
      · have e1 := timeField_unique (fun i j h => by cases h; rfl) h1 h3
        have e2 := timeField_unique (fun i j h => by cases h; rfl) h2 h4
        rw [e1, Int.ofNat.inj e2]
      all_goals exact absurd e (by decide)
    · rcases says_message h' with ⟨hO, _⟩ | ⟨e, _⟩ | ⟨_, ⟨_, rfl⟩ | ⟨_, e, _⟩⟩ | ⟨e, _⟩ | ⟨e, _⟩
      · exact absurd rfl hO.2.1
      · exact absurd e (by decide)
      · rfl
      · cases e
      all_goals exact absurd e (by decide)
    · rcases says_message h' with ⟨hO, _⟩ | ⟨e, _⟩ | ⟨_, ⟨e, _⟩ | ⟨q', e, h2⟩⟩ | ⟨e, _⟩ | ⟨e, _⟩
      · exact absurd rfl hO.2.1
      · exact absurd e (by decide)
      · cases e
      · simp only [List.cons.injEq, Prod.mk.injEq, true_and, and_true] at e
        subst e
        exact C78_unique q h1 h2
      all_goals exact absurd e (by decide)
    · rcases says_message h' with ⟨hO, _⟩ | ⟨e, _⟩ | ⟨e, _⟩ | ⟨_, ⟨_, rfl⟩ | ⟨_, e, _⟩⟩ | ⟨e, _⟩
      · exact absurd rfl hO.2.2.2
      · exact absurd e (by decide)
      · exact absurd e (by decide)
      · rfl
      · cases e
      · exact absurd e (by decide)
    · rcases says_message h' with ⟨hO, _⟩ | ⟨e, _⟩ | ⟨e, _⟩ | ⟨_, ⟨e, _⟩ | ⟨q', e, h2⟩⟩ | ⟨e, _⟩
      · exact absurd rfl hO.2.2.2
      · exact absurd e (by decide)
      · exact absurd e (by decide)
      · cases e
      · simp only [List.cons.injEq, Prod.mk.injEq, true_and, and_true] at e
        subst e
        exact C78_unique q h1 h2
      · exact absurd e (by decide)
    · rcases says_message h' with ⟨hO, _⟩ | ⟨e, _⟩ | ⟨e, _⟩ | ⟨e, _⟩ | ⟨_, ⟨_, rfl⟩ | ⟨_, e, _⟩ | ⟨_, _, _, e, _⟩⟩
      · exact absurd rfl hO.2.2.1
      · exact absurd e (by decide)
      · exact absurd e (by decide)
      · exact absurd e (by decide)
      · rfl
      · cases e
      · cases e
    · rcases says_message h' with ⟨hO, _⟩ | ⟨e, _⟩ | ⟨e, _⟩ | ⟨e, _⟩ | ⟨_, ⟨e, _⟩ | ⟨_, e, rfl⟩ | ⟨_, _, hm, e, _⟩⟩
      · exact absurd rfl hO.2.2.1
      · exact absurd e (by decide)
      · exact absurd e (by decide)
      · exact absurd e (by decide)
      · cases e
      · rfl
      · simp only [List.cons.injEq, Prod.mk.injEq, and_true] at e
        exact absurd e.1.symm hm
    · rcases says_message h' with ⟨hO, _⟩ | ⟨e, _⟩ | ⟨e, _⟩ | ⟨e, _⟩ | ⟨_, ⟨e, _⟩ | ⟨_, e, rfl⟩ | ⟨_, q', _, e, h2⟩⟩
      · exact absurd rfl hO.2.2.1
      · exact absurd e (by decide)
      · exact absurd e (by decide)
      · exact absurd e (by decide)
      · cases e
      · simp only [List.cons.injEq, Prod.mk.injEq, and_true] at e
        exact absurd e.1 hm
      · simp only [List.cons.injEq, Prod.mk.injEq, and_true] at e
        obtain ⟨rfl, rfl⟩ := e
        exact C78_unique q h1 h2

theorem unique_fields (l : List (Text × ProtoVal)) {v w : List (Text × Val)} (h : SaysFields L l v)
    (h' : SaysFields L l w) : v = w := by
  match l, h with
  | [], .nil => cases h'; rfl
  | (n, p) :: l, .cons h1 h2 =>
    cases h' with
    | cons h3 h4 => rw [C78_unique p h1 h3, unique_fields l h2 h4]

theorem unique_items (l : List ProtoVal) {v w : List Val} (h : SaysItems L l v) (h' : SaysItems L l w) : v = w := by
  match l, h with
  | [], .nil => cases h'; rfl
  | p :: l, .cons h1 h2 =>
    cases h' with
    | cons h3 h4 => rw [C78_unique p h1 h3, unique_items l h2 h4]

theorem unique_entries (m : List (ProtoKey × ProtoVal)) {v w : List (Key × Val)} (h : SaysEntries L m v)
    (h' : SaysEntries L m w) : v = w := by
  match m, h with
  | [], .nil => cases h'; rfl
  | (k, p) :: m, .cons h1 h2 h3 =>
    cases h' with
    | cons h4 h5 h6 => rw [sameKey_unique h1 h4, C78_unique p h2 h5, unique_entries m h3 h6]
end

namespace AnswerDemo

/-- `google.protobuf.Timestamp`. -/
def time : ProtoDesc where
  mapEntry := false
  fields :=
    [{ name := "seconds".toList, kind := .int64, repeated := false, oneof := none, presence := false },
     { name := "nanos".toList, kind := .int32, repeated := false, oneof := none, presence := false }]

def lib : ProtoLib :=
  { ConvDemo.lib with desc := fun n => if n = timestampName then time else ConvDemo.demoDesc n }

theorem good : GoodDescs lib := by
  have key : ∀ P : ProtoDesc → Prop, P time → (∀ n, P (ConvDemo.demoDesc n)) → ∀ n, P (lib.desc n) := by
    intro P h1 h2 n
    show P (if n = timestampName then time else ConvDemo.demoDesc n)
    split
    · exact h1
    · exact h2 n
  constructor
  · refine key (fun d => (d.fields.map ProtoField.name).Nodup) (by decide) fun n => ?_
    apply ConvDemo.desc_cases (fun d => (d.fields.map ProtoField.name).Nodup) <;> decide
  · refine key (fun d => ∀ f ∈ d.fields, (fieldType lib f).isSome) (by decide +kernel) fun n => ?_
    apply ConvDemo.desc_cases (fun d => ∀ f ∈ d.fields, (fieldType lib f).isSome) <;> decide +kernel

theorem known : KnownDescs lib where
  time := by decide +kernel
  struct := ⟨_, rfl, rfl, by with_unfolding_all rfl⟩
  list := ⟨_, rfl, rfl, by with_unfolding_all rfl⟩
  value := by decide +kernel
  null := by
    intro f hf hn
    have h : (lib.desc "google.protobuf.Value".toList).fields = ConvDemo.demoValue.fields := by with_unfolding_all rfl
    rw [h] at hf
    simp only [ConvDemo.demoValue, ConvDemo.member, List.mem_cons, List.not_mem_nil, or_false] at hf
    rcases hf with rfl | rfl | rfl | rfl | rfl | rfl
    · exact ⟨_, rfl⟩
    all_goals exact absurd hn (by decide)
  oneof := ⟨"kind".toList, by
    have h : (lib.desc "google.protobuf.Value".toList).fields = ConvDemo.demoValue.fields := by with_unfolding_all rfl
    rw [h]
    decide⟩

theorem times (s : Int) (n : Nat) (h : lib.validTime s n = true) : n < 2000000000 := by
  simpa [lib, ConvDemo.lib] using h

/-- A message with a number, a time, free-form data and another message. -/
def answer (nanos : Int) : List (Text × ProtoVal) :=
  [("id".toList, .i32 (-5)), ("at".toList, .message timestampName [("nanos".toList, .i32 nanos)]),
   ("any".toList, .message structName [("fields".toList,
     .map [(.string "k".toList, .message valueName [("bool_value".toList, .bool true)])])]),
   ("sub".toList, .message "T".toList [("tags".toList, .list [.string "t".toList])])]

theorem answer_typed (nanos : Int) (hn : InI32 nanos) :
    WellTyped lib (.message "T".toList (answer nanos)) (.one (.message "T".toList)) := by
  have hT : lib.desc "T".toList = ConvDemo.demoT := by with_unfolding_all rfl
  have hS : lib.desc timestampName = time := by with_unfolding_all rfl
  have hJ : lib.desc structName = ConvDemo.demoStruct := by with_unfolding_all rfl
  have hV : lib.desc valueName = ConvDemo.demoValue := by with_unfolding_all rfl
  rw [answer, WellTyped, hT]
  refine ⟨rfl, by simp only [names, List.map]; decide, ?_, by simp only [names, List.map]; decide +kernel⟩
  simp only [WellTypedFields]
  refine ⟨⟨ConvDemo.demoT.fields[0], by decide, rfl, _, rfl, ?_⟩, ⟨ConvDemo.demoT.fields[6], by decide, rfl, _, rfl, ?_⟩,
    ⟨ConvDemo.demoT.fields[7], by decide, rfl, _, rfl, ?_⟩, ⟨ConvDemo.demoT.fields[5], by decide, rfl, _, rfl, ?_⟩, trivial⟩
  · rw [WellTyped]; exact ⟨rfl, by constructor <;> decide⟩
  · rw [WellTyped, hS]
    refine ⟨rfl, by simp only [names, List.map]; decide, ?_, by simp only [names, List.map]; decide⟩
    rw [WellTypedFields]
    exact ⟨⟨time.fields[1], by decide, rfl, _, rfl, by rw [WellTyped]; exact ⟨rfl, hn⟩⟩, trivial⟩
  · rw [WellTyped, hJ]
    refine ⟨rfl, by decide, ?_, by decide⟩
    rw [WellTypedFields]
    refine ⟨⟨ConvDemo.demoStruct.fields[0], by decide, rfl, .map .string (.message valueName), by with_unfolding_all rfl, ?_⟩,
      trivial⟩
    rw [WellTyped]
    refine ⟨_, _, rfl, by decide, ?_⟩
    rw [WellTypedEntries]
    refine ⟨rfl, ?_, trivial⟩
    rw [WellTyped, hV]
    refine ⟨rfl, by decide, ?_, by decide⟩
    rw [WellTypedFields]
    exact ⟨⟨ConvDemo.demoValue.fields[3], by decide, rfl, _, rfl, by rw [WellTyped]; rfl⟩, trivial⟩
  · rw [WellTyped, hT]
    refine ⟨rfl, by decide, ?_, by decide +kernel⟩
    rw [WellTypedFields]
    refine ⟨⟨ConvDemo.demoT.fields[1], by decide, rfl, .list .string, by with_unfolding_all rfl, ?_⟩, trivial⟩
    rw [WellTyped]
    exact ⟨_, rfl, by rw [WellTypedItems]; exact ⟨by rw [WellTyped], trivial⟩⟩

end AnswerDemo

open AnswerDemo in
/-- The hypotheses of `C78_reply` and `C78_value` hold, of a message with a time and of one whose time is none. -/
example : messageToCel lib "T".toList (answer 7) = some (.struct "T".toList
      [("id".toList, .int (-5)), ("tags".toList, .list []), ("limits".toList, .map []),
       ("sub".toList, .struct "T".toList [("id".toList, .int 0), ("tags".toList, .list [.str "t".toList]),
         ("limits".toList, .map [])]),
       ("at".toList, .timestamp 0 7), ("any".toList, .map [(.str "k".toList, .bool true)])]) ∧
    messageToCel lib "T".toList (answer (-7)) = none := by
  refine ⟨by with_unfolding_all rfl, ?_⟩
  refine (C78_reply good known times _ _ (answer_typed (-7) (by constructor <;> decide))).2 fun h => ?_
  simp only [answer, TimelyFields, Timely] at h
  rw [if_pos (show timestampName = "google.protobuf.Timestamp".toList from rfl)] at h
  obtain ⟨_, ⟨s, n, _, h1, h2, _⟩, _⟩ := h
  rcases h1 with h1 | ⟨h1, _⟩
  · cases h1
    exact absurd h2 (by decide)
  · cases h1

open AnswerDemo in
example : ∃ v, toCel lib (.message "T".toList (answer 7)) = some v ∧ Says lib (.message "T".toList (answer 7)) v := by
  refine (C78_value good known times _ _ (answer_typed 7 (by constructor <;> decide))).1 ?_
  rw [Timely, if_neg (by decide)]
  simp only [answer, TimelyFields]
  refine ⟨trivial, ?_, ?_, ?_, trivial⟩
  · rw [Timely, if_pos (show timestampName = "google.protobuf.Timestamp".toList from rfl)]
    exact ⟨0, 7, .inr ⟨rfl, rfl⟩, .inl rfl, by decide, rfl⟩
  · rw [Timely, if_neg (by decide)]
    refine ⟨⟨?_, trivial⟩, trivial⟩
    rw [Timely, if_neg (by decide)]
    exact ⟨trivial, trivial⟩
  · rw [Timely, if_neg (by decide)]
    exact ⟨⟨trivial, trivial⟩, trivial⟩

end Verif.Props
