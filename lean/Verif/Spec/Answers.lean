import Verif.Spec.Converters
/-!
What a protobuf message says, and the CEL value that says the same.
-/
namespace Verif.Spec

/-- A key is one of a map with keys of this kind. -/
def OfKind : ProtoKey → ProtoKind → Prop
  | .bool _, kind => kind = .bool
  | .i32 _, kind => kind = .int32
  | .i64 _, kind => kind = .int64
  | .u32 _, kind => kind = .uint32
  | .u64 _, kind => kind = .uint64
  | .string _, kind => kind = .string

mutual
/-- A value of the type, as protobuf has it. Enums are open: they can have numbers that their type does not list.
At most one member of a oneof is set. -/
def WellTyped (L : ProtoLib) (p : ProtoVal) (type : ProtoType) : Prop :=
  match p with
  | .bool _ => type = .one .bool
  | .i32 i => type = .one .int32 ∧ InI32 i
  | .i64 _ => type = .one .int64
  | .u32 _ => type = .one .uint32
  | .u64 _ => type = .one .uint64
  | .f32 _ => type = .one .float
  | .f64 _ => type = .one .double
  | .string _ => type = .one .string
  | .bytes _ => type = .one .bytes
  | .enum _ => ∃ numbers, type = .one (.enum numbers)
  | .message name fields => type = .one (.message name) ∧ (names fields).Nodup ∧
      WellTypedFields L fields (L.desc name).fields ∧
      ∀ f ∈ (L.desc name).fields, ∀ g ∈ (L.desc name).fields, f.name ∈ names fields → g.name ∈ names fields →
        f.oneof.isSome → g.oneof = f.oneof → f.name = g.name
  | .list l => ∃ kind, type = .list kind ∧ WellTypedItems L l kind
  | .map m => ∃ key value, type = .map key value ∧ (m.map Prod.fst).Nodup ∧ WellTypedEntries L m key value

/-- Every field that is set is one of the message type and has a value of that field's type. -/
def WellTypedFields (L : ProtoLib) (l : List (Text × ProtoVal)) (fields : List ProtoField) : Prop :=
  match l with
  | [] => True
  | (n, p) :: l => (∃ f ∈ fields, f.name = n ∧ ∃ type, fieldType L f = some type ∧ WellTyped L p type) ∧
      WellTypedFields L l fields

def WellTypedItems (L : ProtoLib) (l : List ProtoVal) (kind : ProtoKind) : Prop :=
  match l with
  | [] => True
  | p :: l => WellTyped L p (.one kind) ∧ WellTypedItems L l kind

def WellTypedEntries (L : ProtoLib) (m : List (ProtoKey × ProtoVal)) (key value : ProtoKind) : Prop :=
  match m with
  | [] => True
  | (k, p) :: m => OfKind k key ∧ WellTyped L p (.one value) ∧ WellTypedEntries L m key value
end

/-- The descriptors of the types of `google.protobuf` that are read in a special way. -/
structure KnownDescs (L : ProtoLib) : Prop where
  time : (L.desc "google.protobuf.Timestamp".toList).fields.map (fun f => (f.name, f.kind, f.repeated)) =
    [("seconds".toList, .int64, false), ("nanos".toList, .int32, false)]
  struct : ∃ f, (L.desc "google.protobuf.Struct".toList).fields = [f] ∧ f.name = "fields".toList ∧
    fieldType L f = some (.map .string (.message "google.protobuf.Value".toList))
  list : ∃ f, (L.desc "google.protobuf.ListValue".toList).fields = [f] ∧ f.name = "values".toList ∧
    fieldType L f = some (.list (.message "google.protobuf.Value".toList))
  value : (L.desc "google.protobuf.Value".toList).fields.map ProtoField.name =
    ["null_value".toList, "number_value".toList, "string_value".toList, "bool_value".toList,
     "struct_value".toList, "list_value".toList]
  null : ∀ f ∈ (L.desc "google.protobuf.Value".toList).fields, f.name = "null_value".toList →
    ∃ numbers, fieldType L f = some (.one (.enum numbers))
  oneof : ∃ kind, ∀ f ∈ (L.desc "google.protobuf.Value".toList).fields, f.oneof = some kind

/-- A field of a time; it is zero when it is not set. -/
def TimeField (fields : List (Text × ProtoVal)) (name : String) (make : Int → ProtoVal) (i : Int) : Prop :=
  mapGet fields name.toList = some (make i) ∨ mapGet fields name.toList = none ∧ i = 0

mutual
/-- Every time in the message is one that `chrono` knows. -/
def Timely (L : ProtoLib) (p : ProtoVal) : Prop :=
  match p with
  | .message name fields =>
    if name = "google.protobuf.Timestamp".toList then
      ∃ s n, TimeField fields "seconds" .i64 s ∧ TimeField fields "nanos" .i32 n ∧ 0 ≤ n ∧ L.validTime s n.toNat = true
    else TimelyFields L fields
  | .list l => TimelyItems L l
  | .map m => TimelyEntries L m
  | _ => True

def TimelyFields (L : ProtoLib) (l : List (Text × ProtoVal)) : Prop :=
  match l with
  | [] => True
  | (_, p) :: l => Timely L p ∧ TimelyFields L l

def TimelyItems (L : ProtoLib) (l : List ProtoVal) : Prop :=
  match l with
  | [] => True
  | p :: l => Timely L p ∧ TimelyItems L l

def TimelyEntries (L : ProtoLib) (m : List (ProtoKey × ProtoVal)) : Prop :=
  match m with
  | [] => True
  | (_, p) :: m => Timely L p ∧ TimelyEntries L m
end

/-- The same key in CEL. -/
inductive SameKey : ProtoKey → Key → Prop where
  | bool (b : Bool) : SameKey (.bool b) (.bool b)
  | i32 (i : Int) : SameKey (.i32 i) (.int i)
  | i64 (i : Int) : SameKey (.i64 i) (.int i)
  | u32 (n : Nat) : SameKey (.u32 n) (.uint n)
  | u64 (n : Nat) : SameKey (.u64 n) (.uint n)
  | string (t : Text) : SameKey (.string t) (.str t)

mutual
/-- The protobuf value says the same as the CEL value: numbers, texts and bytes are the same, a message is a struct
whose fields are those that were set and the zero values of the others that do not keep track of being set (`fill`),
a time is a time, and the types for JSON are the JSON they stand for. -/
inductive Says (L : ProtoLib) : ProtoVal → Val → Prop where
  | bool (b : Bool) : Says L (.bool b) (.bool b)
  | i32 (i : Int) : Says L (.i32 i) (.int i)
  | i64 (i : Int) : Says L (.i64 i) (.int i)
  | u32 (n : Nat) : Says L (.u32 n) (.uint n)
  | u64 (n : Nat) : Says L (.u64 n) (.uint n)
  | f32 (bits : UInt32) : Says L (.f32 bits) (.float (L.toF64 bits))
  | f64 (bits : UInt64) : Says L (.f64 bits) (.float bits)
  | string (t : Text) : Says L (.string t) (.str t)
  | bytes (b : Bytes) : Says L (.bytes b) (.bytes b)
  | enum (i : Int) : Says L (.enum i) (.int i)
  | list {l : List ProtoVal} {vs : List Val} : SaysItems L l vs → Says L (.list l) (.list vs)
  | map {m : List (ProtoKey × ProtoVal)} {es : List (Key × Val)} : SaysEntries L m es → Says L (.map m) (.map es)
  | message {name : Text} {fields : List (Text × ProtoVal)} {given : List (Text × Val)} : Ordinary name →
      SaysFields L fields given →
      Says L (.message name fields) (.struct name (fill L given (L.desc name).fields))
  | time {fields : List (Text × ProtoVal)} {s : Int} {n : Nat} : TimeField fields "seconds" .i64 s →
      TimeField fields "nanos" .i32 n → Says L (.message "google.protobuf.Timestamp".toList fields) (.timestamp s n)
  | noFields : Says L (.message "google.protobuf.Struct".toList []) (.map [])
  | fields {p : ProtoVal} {v : Val} : Says L p v →
      Says L (.message "google.protobuf.Struct".toList [("fields".toList, p)]) v
  | noValues : Says L (.message "google.protobuf.ListValue".toList []) (.list [])
  | values {p : ProtoVal} {v : Val} : Says L p v →
      Says L (.message "google.protobuf.ListValue".toList [("values".toList, p)]) v
  | nothing : Says L (.message "google.protobuf.Value".toList []) .null
  | null (p : ProtoVal) : Says L (.message "google.protobuf.Value".toList [("null_value".toList, p)]) .null
  | value {n : Text} {p : ProtoVal} {v : Val} : n ≠ "null_value".toList → Says L p v →
      Says L (.message "google.protobuf.Value".toList [(n, p)]) v

inductive SaysFields (L : ProtoLib) : List (Text × ProtoVal) → List (Text × Val) → Prop where
  | nil : SaysFields L [] []
  | cons {n : Text} {p : ProtoVal} {v : Val} {ps : List (Text × ProtoVal)} {vs : List (Text × Val)} : Says L p v →
      SaysFields L ps vs → SaysFields L ((n, p) :: ps) ((n, v) :: vs)

inductive SaysItems (L : ProtoLib) : List ProtoVal → List Val → Prop where
  | nil : SaysItems L [] []
  | cons {p : ProtoVal} {v : Val} {ps : List ProtoVal} {vs : List Val} : Says L p v → SaysItems L ps vs →
      SaysItems L (p :: ps) (v :: vs)

inductive SaysEntries (L : ProtoLib) : List (ProtoKey × ProtoVal) → List (Key × Val) → Prop where
  | nil : SaysEntries L [] []
  | cons {k : ProtoKey} {k' : Key} {p : ProtoVal} {v : Val} {ps : List (ProtoKey × ProtoVal)} {vs : List (Key × Val)} :
      SameKey k k' → Says L p v → SaysEntries L ps vs → SaysEntries L ((k, p) :: ps) ((k', v) :: vs)
end

end Verif.Spec
