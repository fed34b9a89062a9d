import Verif.Model.Val
import Verif.Model.Body
/-!
Conversion between CEL values and protobuf messages (`services/dynamic/converters.rs`).

`prost_reflect` is represented by what the code uses of it: descriptors with their fields, and dynamic
messages, which hold the fields that have been set. Errors carry no information here.
-/
namespace Verif

/-- `prost_reflect::Kind`. The signed kinds of 32 bits (`int32`, `sint32`, `sfixed32`) are one kind here,
likewise those of 64 bits and the unsigned ones (L120-128, L534-573). An enum is given by its numbers, a
message by its full name. -/
inductive ProtoKind where
  | bool
  | int32
  | int64
  | uint32
  | uint64
  | float
  | double
  | string
  | bytes
  | enum (numbers : List Int)
  | message (name : Text)
deriving DecidableEq

/-- `prost_reflect::FieldDescriptor`: name, kind, cardinality, containing oneof and whether the field
keeps track of being set. -/
structure ProtoField where
  name : Text
  kind : ProtoKind
  repeated : Bool
  oneof : Option Text
  presence : Bool
deriving DecidableEq

/-- `prost_reflect::MessageDescriptor`, apart from its name. -/
structure ProtoDesc where
  fields : List ProtoField
  mapEntry : Bool

/-- `prost_reflect::MapKey`. -/
inductive ProtoKey where
  | bool (b : Bool)
  | i32 (i : Int)
  | i64 (i : Int)
  | u32 (n : Nat)
  | u64 (n : Nat)
  | string (t : Text)
deriving DecidableEq

/-- `prost_reflect::Value`. Floats are bit patterns. A message has a name and the fields that were set. -/
inductive ProtoVal where
  | bool (b : Bool)
  | i32 (i : Int)
  | i64 (i : Int)
  | u32 (n : Nat)
  | u64 (n : Nat)
  | f32 (bits : UInt32)
  | f64 (bits : UInt64)
  | string (t : Text)
  | bytes (b : Bytes)
  | enum (i : Int)
  | message (name : Text) (fields : List (Text × ProtoVal))
  | list (l : List ProtoVal)
  | map (m : List (ProtoKey × ProtoVal))

/-- What is taken from libraries: conversions between floats, the timestamps `chrono` accepts and the
descriptors of messages. -/
structure ProtoLib where
  /-- `f64 as f32` -/
  toF32 : UInt64 → UInt32
  /-- `f32 as f64` -/
  toF64 : UInt32 → UInt64
  /-- finite and between `f32::MIN` and `f32::MAX` (L583-585) -/
  inF32 : UInt64 → Bool
  /-- `DateTime::from_timestamp(secs, nanos)` is a time -/
  validTime : Int → Nat → Bool
  /-- the descriptor of a message type -/
  desc : Text → ProtoDesc
  /-- `as f64` for an integer -/
  ofInt : Int → UInt64
  /-- `String::from_utf8_lossy` -/
  lossy : Bytes → Text

/-- `as i32`. -/
def wrapI32 (i : Int) : Int := (i + 2147483648) % 4294967296 - 2147483648

/-- `as u32`. -/
def wrapU32 (n : Nat) : Nat := n % 4294967296

/-- `n as u32` for an `i32`. -/
def i32AsU32 (i : Int) : Nat := (i % 4294967296).toNat

/-- Insertion into a `HashMap` whose order carries no meaning; the position of an old entry is kept. -/
def mapPut {α β : Type} [DecidableEq α] (m : List (α × β)) (k : α) (v : β) : List (α × β) :=
  if m.any (fun e => e.1 = k) then m.map fun e => if e.1 = k then (k, v) else e else m ++ [(k, v)]

def timestampName : Text := "google.protobuf.Timestamp".toList
def structName : Text := "google.protobuf.Struct".toList
def valueName : Text := "google.protobuf.Value".toList
def listValueName : Text := "google.protobuf.ListValue".toList

section
variable (L : ProtoLib)

/-- `converters.rs` L51-60 `is_map_field`. -/
def isMapField (f : ProtoField) : Bool :=
  f.repeated && match f.kind with
    | .message n => (L.desc n).mapEntry
    | _ => false

/-- `MessageDescriptor::get_field_by_name`. -/
def ProtoDesc.field (d : ProtoDesc) (name : Text) : Option ProtoField := d.fields.find? fun f => f.name = name

/-- `converters.rs` L477-515 `cel_map_key_to_proto`. -/
def protoKey : Key → ProtoKind → Option ProtoKey
  | .bool b, _ => some (.bool b)
  | .int i, .int32 => some (.i32 (wrapI32 i))
  | .int i, .int64 => some (.i64 i)
  | .uint n, .uint32 => some (.u32 (wrapU32 n))
  | .uint n, .uint64 => some (.u64 n)
  | .str t, _ => some (.string t)
  | _, _ => none

/-- `DynamicMessage::set_field`: replaces the field's value and clears the other members of its oneof. -/
def setField (fields : List ProtoField) (msg : List (Text × ProtoVal)) (f : ProtoField) (v : ProtoVal) :
    List (Text × ProtoVal) :=
  (msg.filter fun e => e.1 ≠ f.name ∧
    ¬ (f.oneof.isSome ∧ fields.any fun g => g.name = e.1 ∧ g.oneof = f.oneof)) ++ [(f.name, v)]

/-- The loops of `converters.rs` L381-386 and L867-872: the fields of the descriptor in order, set when
the struct has a value for them. `look` finds the conversion of a value by its name. -/
def buildFields (all : List ProtoField) (look : List (Text × (ProtoField → Option ProtoVal))) :
    List ProtoField → List (Text × ProtoVal) → Option (List (Text × ProtoVal))
  | [], msg => some msg
  | f :: fs, msg =>
    match mapGet look f.name with
    | none => buildFields all look fs msg
    | some conv =>
      match conv f with
      | none => none
      | some v => buildFields all look fs (setField all msg f v)

/-- How `converters.rs` L391-402 `cel_val_to_proto_value` treats a field: as one value, as a list, or as a
map with these kinds of keys and values (L443-464). -/
inductive ProtoType where
  | one (kind : ProtoKind)
  | list (kind : ProtoKind)
  | map (key value : ProtoKind)

/-- `converters.rs` L391-402 and L443-464; `none` is the error for a map without key or value field. -/
def fieldType (f : ProtoField) : Option ProtoType :=
  if isMapField L f then
    match f.kind with
    | .message n =>
      match (L.desc n).field "key".toList, (L.desc n).field "value".toList with
      | some kf, some vf => some (.map kf.kind vf.kind)
      | _, _ => none
    | _ => none
  else if f.repeated then some (.list f.kind)
  else some (.one f.kind)

mutual
/-- `converters.rs` L391-402 `cel_val_to_proto_value` for a field of the given type. One value: L517-669
`cel_val_to_single_proto_value`, with L671-702 `cel_timestamp_to_proto_message` (the descriptor of
`google.protobuf.Timestamp` is assumed to have its two fields) and L851-875 `struct_from_val_to_message`.
A list: L404-427 `cel_list_to_proto_list`. A map: L429-475 `cel_map_to_proto_map`. -/
def toProto (v : Val) (type : ProtoType) : Option ProtoVal :=
  match v with
  | .bool b => match type with
    | .one .bool => some (.bool b)
    | _ => none
  | .int i => match type with
    | .one .int32 => some (.i32 (wrapI32 i))
    | .one .int64 => some (.i64 i)
    | .one (.enum numbers) =>
      if i < -2147483648 ∨ 2147483647 < i then none
      else if numbers.contains i then some (.enum i) else none
    | _ => none
  | .uint n => match type with
    | .one .uint32 => some (.u32 (wrapU32 n))
    | .one .uint64 => some (.u64 n)
    | _ => none
  | .float bits => match type with
    | .one .float => if L.inF32 bits then some (.f32 (L.toF32 bits)) else none
    | .one .double => some (.f64 bits)
    | _ => none
  | .str t => match type with
    | .one .string => some (.string t)
    | _ => none
  | .bytes b => match type with
    | .one .bytes => some (.bytes b)
    | _ => none
  | .timestamp secs nanos => match type with
    | .one (.message n) =>
      if n = timestampName then
        some (.message n [("seconds".toList, .i64 secs), ("nanos".toList, .i32 (wrapI32 nanos))])
      else none
    | _ => none
  | .struct _ fields => match type with
    | .one (.message n) =>
      (buildFields (L.desc n).fields (fieldConvs fields) (L.desc n).fields []).map (.message n)
    | _ => none
  | .list l => match type with
    | .list kind => (toItems l kind).map .list
    | _ => none
  | .map m => match type with
    | .map key value => (toEntries m key value []).map .map
    | _ => none
  | _ => none

/-- The conversions of the fields of a struct (`CelStruct::field_value`, L382 and L868). -/
def fieldConvs (l : List (Text × Val)) : List (Text × (ProtoField → Option ProtoVal)) :=
  match l with
  | [] => []
  | (n, v) :: l =>
    (n, fun f => match fieldType L f with
      | none => none
      | some type => toProto v type) :: fieldConvs l

/-- `converters.rs` L419-424. -/
def toItems (l : List Val) (kind : ProtoKind) : Option (List ProtoVal) :=
  match l with
  | [] => some []
  | v :: l => match toProto v (.one kind), toItems l kind with
    | some p, some ps => some (p :: ps)
    | _, _ => none

/-- `converters.rs` L466-472. -/
def toEntries (m : List (Key × Val)) (keyKind valueKind : ProtoKind) (out : List (ProtoKey × ProtoVal)) :
    Option (List (ProtoKey × ProtoVal)) :=
  match m with
  | [] => some out
  | (k, v) :: m => match protoKey k keyKind, toProto v (.one valueKind) with
    | some pk, some pv => toEntries m keyKind valueKind (mapPut out pk pv)
    | _, _ => none
end

/-- `converters.rs` L206-214 `cel_to_dynamic_message`, with L375-389 `struct_to_dynamic_message`. -/
def toMessage (v : Val) (name : Text) : Option ProtoVal :=
  match v with
  | .struct n fields => toProto L (.struct n fields) (.one (.message name))
  | _ => none

/-- `converters.rs` L364-373 `map_key_to_cel`. -/
def celKey : ProtoKey → Key
  | .bool b => .bool b
  | .i32 i => .int i
  | .i64 i => .int i
  | .u32 n => .uint n
  | .u64 n => .uint n
  | .string t => .str t

/-- The value of a field that is not set and does not keep track of it (`DynamicMessage::get_field`): the
default of its type, converted. Messages keep track of being set. -/
def defaultVal (f : ProtoField) : Val :=
  if isMapField L f then .map []
  else if f.repeated then .list []
  else match f.kind with
    | .bool => .bool false
    | .int32 | .int64 => .int 0
    | .uint32 | .uint64 => .uint 0
    | .float | .double => .float 0
    | .string => .str []
    | .bytes => .bytes []
    | .enum numbers => .int (numbers.headD 0)
    | .message n => .struct n []

/-- The loops of `converters.rs` L286-293 and L334-341: the fields of the descriptor in order, without
those that keep track of being set and are not set. `got` are the fields of the message that are set,
converted; a failed conversion makes the loop fail. -/
def celFields (got : List (Text × Option Val)) : List ProtoField → Option (List (Text × Val))
  | [] => some []
  | f :: fs =>
    match mapGet got f.name with
    | none =>
      if f.presence then celFields got fs
      else (celFields got fs).map ((f.name, defaultVal L f) :: ·)
    | some none => none
    | some (some v) => (celFields got fs).map ((f.name, v) :: ·)

/-- The members of the oneof of `google.protobuf.Value`. -/
def valueMembers : List Text :=
  ["null_value".toList, "number_value".toList, "string_value".toList, "bool_value".toList,
   "struct_value".toList, "list_value".toList]

/-- `converters.rs` L794-820 `unwrap_proto_value`: the first member in the order of the descriptor that is
set. -/
def celOfValue (got : List (Text × Option Val)) : List ProtoField → Option Val
  | [] => some .null
  | f :: fs =>
    if f.oneof.isSome ∧ (mapGet got f.name).isNone then celOfValue got fs
    else if f.name = "null_value".toList then some .null
    else if f.name ∈ valueMembers then (mapGet got f.name).getD (some (defaultVal L f))
    else none

/-- `converters.rs` L704-761 `proto_timestamp_to_cel_timestamp`. A field that is not set is zero. -/
def celOfTime (fields : List (Text × ProtoVal)) : Option Val :=
  let secs := (mapGet fields "seconds".toList).getD (.i64 0)
  let nanos := (mapGet fields "nanos".toList).getD (.i32 0)
  match secs, nanos with
  | .i64 s, .i32 n =>
    if L.validTime s (i32AsU32 n) then some (.timestamp s (i32AsU32 n)) else none
  | _, _ => none

mutual
/-- `converters.rs` L298-362 `proto_value_to_cel_val`, with L763-792 `unwrap_proto_struct` and L822-849
`unwrap_proto_list_value`. The descriptors of the types of `google.protobuf` are assumed to have their
fields. -/
def toCel (p : ProtoVal) : Option Val :=
  match p with
  | .bool b => some (.bool b)
  | .i32 i => some (.int i)
  | .i64 i => some (.int i)
  | .u32 n => some (.uint n)
  | .u64 n => some (.uint n)
  | .f32 bits => some (.float (L.toF64 bits))
  | .f64 bits => some (.float bits)
  | .string t => some (.str t)
  | .bytes b => some (.bytes b)
  | .enum i => some (.int i)
  | .message name fields =>
    if name = timestampName then celOfTime L fields
    else if name = structName then
      match mapGet (celGot fields) "fields".toList with
      | none => some (.map [])
      | some (some (.map m)) => some (.map m)
      | some _ => none
    else if name = valueName then celOfValue L (celGot fields) (L.desc name).fields
    else if name = listValueName then
      match mapGet (celGot fields) "values".toList with
      | none => some (.list [])
      | some (some (.list l)) => some (.list l)
      | some _ => none
    else (celFields L (celGot fields) (L.desc name).fields).map (.struct name)
  | .list l => (celItems l).map .list
  | .map m => (celEntries m []).map .map

/-- The fields of a message, converted. -/
def celGot (l : List (Text × ProtoVal)) : List (Text × Option Val) :=
  match l with
  | [] => []
  | (n, p) :: l => (n, toCel p) :: celGot l

/-- `converters.rs` L346-349 and L837-840. -/
def celItems (l : List ProtoVal) : Option (List Val) :=
  match l with
  | [] => some []
  | p :: l => match toCel p, celItems l with
    | some v, some vs => some (v :: vs)
    | _, _ => none

/-- `converters.rs` L353-358 and L778-783. -/
def celEntries (m : List (ProtoKey × ProtoVal)) (out : List (Key × Val)) : Option (List (Key × Val)) :=
  match m with
  | [] => some out
  | (k, p) :: m => match toCel p with
    | some v => celEntries m (mapPut out (celKey k) v)
    | none => none
end

mutual
/-- `converters.rs` L224-252 `cel_to_prost_value`. The result is a `prost_types::Value`, written here as
the message it is. -/
def toJsonMsg (v : Val) : Option ProtoVal :=
  match v with
  | .null => some (.message valueName [("null_value".toList, .enum 0)])
  | .float bits => some (.message valueName [("number_value".toList, .f64 bits)])
  | .int i => some (.message valueName [("number_value".toList, .f64 (L.ofInt i))])
  | .uint n => some (.message valueName [("number_value".toList, .f64 (L.ofInt n))])
  | .str t => some (.message valueName [("string_value".toList, .string t)])
  | .bool b => some (.message valueName [("bool_value".toList, .bool b)])
  | .bytes b => some (.message valueName [("string_value".toList, .string (L.lossy b))])
  | .map m => (toJsonFields m []).map fun fields =>
      .message valueName [("struct_value".toList, .message structName [("fields".toList, .map fields)])]
  | .list l => (toJsonItems l).map fun items =>
      .message valueName [("list_value".toList, .message listValueName [("values".toList, .list items)])]
  | _ => none

/-- `converters.rs` L239-241. -/
def toJsonItems (l : List Val) : Option (List ProtoVal) :=
  match l with
  | [] => some []
  | v :: l => match toJsonMsg v, toJsonItems l with
    | some p, some ps => some (p :: ps)
    | _, _ => none

/-- `converters.rs` L258-271, the loop of `cel_to_prost_struct`. -/
def toJsonFields (m : List (Key × Val)) (out : List (ProtoKey × ProtoVal)) : Option (List (ProtoKey × ProtoVal)) :=
  match m with
  | [] => some out
  | (k, v) :: m => match k, toJsonMsg v with
    | .str t, some p => toJsonFields m (mapPut out (.string t) p)
    | _, _ => none
end

/-- `converters.rs` L216-222 `cel_value_to_bytes`, before the message is written as bytes: a map is sent as
`google.protobuf.Struct`, everything else as `google.protobuf.Value`. -/
def exportMsg (v : Val) : Option ProtoVal :=
  match v with
  | .map m => (toJsonFields L m []).map fun fields => .message structName [("fields".toList, .map fields)]
  | v => toJsonMsg L v

/-- `converters.rs` L282-296 `dynamic_message_to_cel`: the message itself is a struct whatever its type. -/
def messageToCel (name : Text) (fields : List (Text × ProtoVal)) : Option Val :=
  (celFields L (celGot L fields) (L.desc name).fields).map (.struct name)

/-- The types of `cel::common::types` that are used for fields. -/
inductive CelType where
  | bool | int | uint | double | string | bytes | list | map | timestamp
  | struct (name : Text)
deriving DecidableEq

/-- `converters.rs` L118-147 `protobuf_kind_to_cel_type`. -/
def kindType : ProtoKind → CelType
  | .bool => .bool
  | .int32 | .int64 => .int
  | .uint32 | .uint64 => .uint
  | .float | .double => .double
  | .string => .string
  | .bytes => .bytes
  | .message n => if n = timestampName then .timestamp else .struct n
  | .enum _ => .int

/-- The type of a field in `converters.rs` L97-116 `to_struct_def`. -/
def celTypeOf (f : ProtoField) : CelType :=
  if isMapField L f then .map else if f.repeated then .list else kindType f.kind

/-- `cel`'s `StructDef`: name and fields with types. -/
structure StructDef where
  name : Text
  fields : List (Text × CelType)

/-- `converters.rs` L97-116 `to_struct_def`. -/
def structDef (name : Text) : StructDef :=
  { name, fields := (L.desc name).fields.map fun f => (f.name, celTypeOf L f) }

/-- The message types of the fields of a message, in order. -/
def innerTypes (name : Text) : List Text :=
  (L.desc name).fields.filterMap fun f => match f.kind with
    | .message n => some n
    | _ => none

/-- `converters.rs` L67-94 `collect_struct_defs`: `todo` is the stack with its top first. The loop ends
because a descriptor pool is finite; here `fuel` bounds the number of rounds and `none` means that it was
not enough. -/
def collectDefs : Nat → List Text → List Text → List StructDef → Option (List StructDef)
  | _, [], _, defs => some defs
  | 0, _ :: _, _, _ => none
  | fuel + 1, name :: todo, visited, defs =>
    if name ∈ visited then collectDefs fuel todo visited defs
    else
      let todo := (innerTypes L name).reverse ++ todo
      if (L.desc name).mapEntry then collectDefs fuel todo (name :: visited) defs
      else collectDefs fuel todo (name :: visited) (defs ++ [structDef L name])

end

end Verif
