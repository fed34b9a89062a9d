import Verif.Model.CelEnv
/-!
What the bytes of an attribute mean (C58). Written from Envoy's description of attributes and of CEL's types.
-/
namespace Verif.Spec

/-- The number `v` in `n` bytes, the lowest first. -/
def littleEndian : (n v : Nat) → Bytes
  | 0, _ => []
  | n + 1, v => UInt8.ofNat (v % 256) :: littleEndian n (v / 256)

/-- A signed number of 64 bits. -/
def signed64 (i : Int) : Bytes := littleEndian 8 (i % 2 ^ 64).toNat

mutual
/-- The CEL value for a JSON value: whole numbers that are not negative are unsigned. -/
inductive JsonMeans : Json → Val → Prop where
  | null : JsonMeans .null .null
  | bool {b : Bool} : JsonMeans (.bool b) (.bool b)
  | pos {n : Nat} : JsonMeans (.pos n) (.uint n)
  | neg {i : Int} : JsonMeans (.neg i) (.int i)
  | float {bits : UInt64} : JsonMeans (.float bits) (.float bits)
  | str {t : Text} : JsonMeans (.str t) (.str t)
  | arr {l : List Json} {vs : List Val} : JsonMeansAll l vs → JsonMeans (.arr l) (.list vs)
  | obj {m : List (Text × Json)} {vs : List (Key × Val)} : JsonMeansEntries m vs → JsonMeans (.obj m) (.map vs)

inductive JsonMeansAll : List Json → List Val → Prop where
  | nil : JsonMeansAll [] []
  | cons {j : Json} {v : Val} {l : List Json} {vs : List Val} :
      JsonMeans j v → JsonMeansAll l vs → JsonMeansAll (j :: l) (v :: vs)

inductive JsonMeansEntries : List (Text × Json) → List (Key × Val) → Prop where
  | nil : JsonMeansEntries [] []
  | cons {k : Text} {j : Json} {v : Val} {l : List (Text × Json)} {vs : List (Key × Val)} :
      JsonMeans j v → JsonMeansEntries l vs → JsonMeansEntries ((k, j) :: l) ((.str k, v) :: vs)
end

/-- What the bytes of an attribute mean, given its type. An attribute without a type is JSON if it can be
read as JSON, and a text otherwise. A time counts nanoseconds since 1970. -/
inductive BytesMean (lib : JsonLib) : Option AttrType → Bytes → Val → Prop where
  | string {t : Text} : BytesMean lib (some .string) (utf8 t) (.str t)
  | int {i : Int} : -2 ^ 63 ≤ i → i < 2 ^ 63 → BytesMean lib (some .int) (signed64 i) (.int i)
  | uint {n : Nat} : n < 2 ^ 64 → BytesMean lib (some .uint) (littleEndian 8 n) (.uint n)
  | yes {x : UInt8} : x.toNat % 2 = 1 → BytesMean lib (some .bool) [x] (.bool true)
  | no {x : UInt8} : x.toNat % 2 = 0 → BytesMean lib (some .bool) [x] (.bool false)
  | bytes {v : Bytes} : BytesMean lib (some .bytes) v (.bytes v)
  | time {secs : Int} {nanos : Nat} : nanos < 1000000000 → -2 ^ 63 ≤ secs * 1000000000 + nanos →
      secs * 1000000000 + nanos < 2 ^ 63 →
      BytesMean lib (some .timestamp) (signed64 (secs * 1000000000 + nanos)) (.timestamp secs nanos)
  | json {t : Text} {j : Json} {v : Val} : lib.parse t = some j → JsonMeans j v → BytesMean lib none (utf8 t) v
  | text {t : Text} : lib.parse t = none → BytesMean lib none (utf8 t) (.str t)

end Verif.Spec
