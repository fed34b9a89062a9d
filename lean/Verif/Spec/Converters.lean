import Verif.Model.Converters
/-!
When a CEL value is a value of a protobuf type, and what it looks like after a journey through protobuf.
-/
namespace Verif.Spec

/-- The range of 32-bit signed integers. -/
def InI32 (i : Int) : Prop := -2147483648 ≤ i ∧ i ≤ 2147483647

/-- Message types that are not read in a special way. -/
def Ordinary (name : Text) : Prop :=
  name ≠ "google.protobuf.Timestamp".toList ∧ name ≠ "google.protobuf.Struct".toList ∧
  name ≠ "google.protobuf.Value".toList ∧ name ≠ "google.protobuf.ListValue".toList

/-- A key is a value of the type of a map's keys, within its range. -/
def TypedKey : Key → ProtoKind → Prop
  | .bool _, kind => kind = .bool
  | .int i, kind => (kind = .int32 ∧ InI32 i) ∨ kind = .int64
  | .uint n, kind => (kind = .uint32 ∧ n < 4294967296) ∨ kind = .uint64
  | .str _, kind => kind = .string

/-- Names of a list of named things. -/
def names {α : Type} (l : List (Text × α)) : List Text := l.map Prod.fst

mutual
/-- The value is one of the type, and its numbers are within the range of the type. -/
def Typed (L : ProtoLib) (v : Val) (type : ProtoType) : Prop :=
  match v with
  | .bool _ => type = .one .bool
  | .int i => (type = .one .int32 ∧ InI32 i) ∨ type = .one .int64 ∨
      ∃ numbers, type = .one (.enum numbers) ∧ InI32 i ∧ i ∈ numbers
  | .uint n => (type = .one .uint32 ∧ n < 4294967296) ∨ type = .one .uint64
  | .float bits => type = .one .double ∨
      (type = .one .float ∧ L.inF32 bits = true ∧ L.toF64 (L.toF32 bits) = bits)
  | .str _ => type = .one .string
  | .bytes _ => type = .one .bytes
  | .timestamp secs nanos => type = .one (.message "google.protobuf.Timestamp".toList) ∧ nanos < 2147483648 ∧
      L.validTime secs nanos = true
  | .struct name fields => type = .one (.message name) ∧ Ordinary name ∧ (names fields).Nodup ∧
      TypedFields L fields (L.desc name).fields ∧
      ∀ f ∈ (L.desc name).fields, ∀ g ∈ (L.desc name).fields, f.name ∈ names fields → g.name ∈ names fields →
        f.oneof.isSome → g.oneof = f.oneof → f.name = g.name
  | .list l => ∃ kind, type = .list kind ∧ TypedItems L l kind
  | .map m => ∃ key value, type = .map key value ∧ (m.map Prod.fst).Nodup ∧ TypedEntries L m key value
  | _ => False

/-- Every given field is one of the message type and has a value of that field's type. -/
def TypedFields (L : ProtoLib) (l : List (Text × Val)) (fields : List ProtoField) : Prop :=
  match l with
  | [] => True
  | (n, v) :: l => (∃ f ∈ fields, f.name = n ∧ ∃ type, fieldType L f = some type ∧ Typed L v type) ∧
      TypedFields L l fields

def TypedItems (L : ProtoLib) (l : List Val) (kind : ProtoKind) : Prop :=
  match l with
  | [] => True
  | v :: l => Typed L v (.one kind) ∧ TypedItems L l kind

def TypedEntries (L : ProtoLib) (m : List (Key × Val)) (key value : ProtoKind) : Prop :=
  match m with
  | [] => True
  | (k, v) :: m => TypedKey k key ∧ Typed L v (.one value) ∧ TypedEntries L m key value
end

/-- The value is of the right sort for the type, and all its parts are converted. -/
def Suits (L : ProtoLib) (v : Val) (type : ProtoType) : Prop :=
  match v with
  | .bool _ => type = .one .bool
  | .int i => type = .one .int32 ∨ type = .one .int64 ∨ ∃ numbers, type = .one (.enum numbers) ∧ i ∈ numbers
  | .uint _ => type = .one .uint32 ∨ type = .one .uint64
  | .float bits => type = .one .double ∨ (type = .one .float ∧ L.inF32 bits = true)
  | .str _ => type = .one .string
  | .bytes _ => type = .one .bytes
  | .timestamp _ _ => type = .one (.message "google.protobuf.Timestamp".toList)
  | .list l => ∃ kind, type = .list kind ∧ ∀ x ∈ l, (toProto L x (.one kind)).isSome
  | .map m => ∃ key value, type = .map key value ∧ ∀ e ∈ m, (toProto L e.2 (.one value)).isSome
  | .struct _ fields => ∃ n, type = .one (.message n) ∧ ∀ f ∈ (L.desc n).fields, ∀ x,
        mapGet fields f.name = some x → ∃ t, fieldType L f = some t ∧ (toProto L x t).isSome
  | _ => False

/-- The value that stands for a field that was not given. -/
def zero (L : ProtoLib) (f : ProtoField) : Val :=
  match fieldType L f with
  | some (.map _ _) => .map []
  | some (.list _) => .list []
  | _ => match f.kind with
    | .bool => .bool false
    | .int32 | .int64 => .int 0
    | .uint32 | .uint64 => .uint 0
    | .float | .double => .float 0
    | .string => .str []
    | .bytes => .bytes []
    | .enum numbers => .int (numbers.headD 0)
    | .message n => .struct n []

/-- The fields of a message type in their order: a given one with its value, one that was not given and
does not keep track of it with its zero value. -/
def fill (L : ProtoLib) (given : List (Text × Val)) : List ProtoField → List (Text × Val)
  | [] => []
  | f :: fs => match mapGet given f.name with
    | some v => (f.name, v) :: fill L given fs
    | none => if f.presence then fill L given fs else (f.name, zero L f) :: fill L given fs

mutual
/-- A value with the fields it leaves out filled in. -/
def filled (L : ProtoLib) (v : Val) : Val :=
  match v with
  | .struct name fields => .struct name (fill L (filledFields L fields) (L.desc name).fields)
  | .list l => .list (filledItems L l)
  | .map m => .map (filledEntries L m)
  | v => v

def filledFields (L : ProtoLib) (l : List (Text × Val)) : List (Text × Val) :=
  match l with
  | [] => []
  | (n, v) :: l => (n, filled L v) :: filledFields L l

def filledItems (L : ProtoLib) (l : List Val) : List Val :=
  match l with
  | [] => []
  | v :: l => filled L v :: filledItems L l

def filledEntries (L : ProtoLib) (m : List (Key × Val)) : List (Key × Val) :=
  match m with
  | [] => []
  | (k, v) :: m => (k, filled L v) :: filledEntries L m
end

/-- Descriptors as protobuf has them: the fields of a message have different names, map fields have keys
and values. -/
structure GoodDescs (L : ProtoLib) : Prop where
  names : ∀ n, ((L.desc n).fields.map ProtoField.name).Nodup
  maps : ∀ n, ∀ f ∈ (L.desc n).fields, (fieldType L f).isSome

end Verif.Spec

namespace Verif.Spec

/-- The descriptor of `google.protobuf.Value` as it is in every descriptor pool: a oneof of six members. -/
def ValueDesc (d : ProtoDesc) : Prop :=
  d.fields.map ProtoField.name =
    ["null_value".toList, "number_value".toList, "string_value".toList, "bool_value".toList,
     "struct_value".toList, "list_value".toList] ∧ ∀ f ∈ d.fields, f.oneof.isSome

mutual
/-- A value as JSON has it: numbers are floats, bytes are text; the rest of the value is unchanged. `none`
when there is no such value. -/
def jsonLike (L : ProtoLib) (v : Val) : Option Val :=
  match v with
  | .null => some .null
  | .bool b => some (.bool b)
  | .float bits => some (.float bits)
  | .int i => some (.float (L.ofInt i))
  | .uint n => some (.float (L.ofInt n))
  | .str t => some (.str t)
  | .bytes b => some (.str (L.lossy b))
  | .list l => (jsonLikeItems L l).map .list
  | .map m => (jsonLikeEntries L m).map .map
  | _ => none

def jsonLikeItems (L : ProtoLib) (l : List Val) : Option (List Val) :=
  match l with
  | [] => some []
  | v :: l => match jsonLike L v, jsonLikeItems L l with
    | some w, some ws => some (w :: ws)
    | _, _ => none

def jsonLikeEntries (L : ProtoLib) (m : List (Key × Val)) : Option (List (Key × Val)) :=
  match m with
  | [] => some []
  | (k, v) :: m => match k, jsonLike L v, jsonLikeEntries L m with
    | .str t, some w, some ws => some ((.str t, w) :: ws)
    | _, _, _ => none
end

mutual
/-- The maps in a value have no key twice. -/
def UniqueKeys (v : Val) : Prop :=
  match v with
  | .list l => UniqueKeysItems l
  | .map m => (m.map Prod.fst).Nodup ∧ UniqueKeysEntries m
  | _ => True

def UniqueKeysItems (l : List Val) : Prop :=
  match l with
  | [] => True
  | v :: l => UniqueKeys v ∧ UniqueKeysItems l

def UniqueKeysEntries (m : List (Key × Val)) : Prop :=
  match m with
  | [] => True
  | (_, v) :: m => UniqueKeys v ∧ UniqueKeysEntries m
end

/-- The message types that can occur inside a message of type `root`, and `root` itself. -/
inductive Inside (L : ProtoLib) (root : Text) : Text → Prop where
  | self : Inside L root root
  | field {n m : Text} {f : ProtoField} : Inside L root n → f ∈ (L.desc n).fields → f.kind = .message m →
      Inside L root m

/-- The value is of the type. -/
def OfType : Val → CelType → Prop
  | .bool _, t => t = .bool
  | .int _, t => t = .int
  | .uint _, t => t = .uint
  | .float _, t => t = .double
  | .str _, t => t = .string
  | .bytes _, t => t = .bytes
  | .list _, t => t = .list
  | .map _, t => t = .map
  | .timestamp _ _, t => t = .timestamp
  | .struct n _, t => t = .struct n
  | _, _ => False

end Verif.Spec
