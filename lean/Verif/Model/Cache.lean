import Verif.Model.Path
import Verif.Model.Ctx
/-!
Model of the attribute cache (`crates/kuadrant-filter/src/kuadrant/cache.rs`) and of the attribute
functions of `kuadrant/context.rs` on top of it. Mutexes are not modelled: a request is handled by one
thread, so they are never poisoned.
-/
namespace Verif

/-- `attribute.rs` L26-32 `AttributeError` without the messages. -/
inductive AttrErr where
  | notAvailable | retrieval | parse | set
deriving DecidableEq, Repr

/-- `cache.rs` L8-12 `CachedValue`. -/
inductive Cached where
  | bytes (b : Option Bytes)
  | headers (h : Headers)
deriving DecidableEq, Repr

/-- The attribute functions of the host (`kuadrant/resolver.rs`). `W` is the state of the host. -/
structure Backend (W : Type) where
  getAttr : W → Path → Except AttrErr (Option Bytes) × W
  getMap : W → Target → Except AttrErr Headers × W
  setAttr : W → Path → Bytes → Except AttrErr Unit × W
  setMap : W → Target → Headers → Except AttrErr Unit × W

/-- The host together with the cache (`cache.rs` L14-16); keys are printed paths. -/
structure Attrs (W : Type) where
  world : W
  cache : List (Text × Cached) := []

/-- `headers.rs` L22-29: paths of the header maps. -/
def headersPath : Target → Path
  | .request => ["request".toList, "headers".toList]
  | .response => ["response".toList, "headers".toList]

section
variable {W : Type} (b : Backend W)

/-- `context.rs` L234-253 `remote_address`. -/
def remoteAddress (w : W) : Except AttrErr (Option Bytes) × W :=
  match b.getAttr w ["source".toList, "address".toList] with
  | (.ok (some bytes), w) => match fromUtf8 bytes with
    | some t => (.ok (some (utf8 (t.takeWhile (· ≠ ':')))), w)
    | none => (.error .parse, w)
  | (.ok none, w) => (.ok none, w)
  | (.error e, w) => (.error e, w)

/-- `context.rs` L153-184 `fetch_attribute`. -/
def fetchAttribute (w : W) (p : Path) : Except AttrErr Cached × W :=
  if p = headersPath .request then
    match b.getMap w .request with
    | (.ok hs, w) => (.ok (.headers hs), w)
    | (.error .notAvailable, w) => (.error .retrieval, w)
    | (.error e, w) => (.error e, w)
  else if p = headersPath .response then
    match b.getMap w .response with
    | (.ok hs, w) => (.ok (.headers hs), w)
    | (.error e, w) => (.error e, w)
  else if p = ["source".toList, "remote_address".toList] then
    match remoteAddress b w with
    | (.ok bytes, w) => (.ok (.bytes bytes), w)
    | (.error e, w) => (.error e, w)
  else
    match b.getAttr w (if p.head? = some "auth".toList then wasmProp p else p) with
    | (.ok bytes, w) => (.ok (.bytes bytes), w)
    | (.error e, w) => (.error e, w)

namespace Attrs

/-- `cache.rs` L25-31 `get`. -/
def cached (s : Attrs W) (p : Path) : Option Cached := mapGet s.cache p.print

/-- `cache.rs` L57-64 `insert`. -/
def insert (s : Attrs W) (p : Path) (v : Cached) : Attrs W := { s with cache := mapInsert s.cache p.print v }

/-- `cache.rs` L33-55 `get_or_insert_with` as used by `context.rs` L145-151 `get_attribute_ref`.
`as` is `from_cached` of the type asked for. -/
def read {α : Type} (as : Cached → Except AttrErr α) (s : Attrs W) (p : Path) : Ans α × Attrs W :=
  let answer := fun v => match as v with
    | .ok a => Ans.available a
    | .error _ => .err
  match s.cached p with
  | some v => (answer v, s)
  | none =>
    match fetchAttribute b s.world p with
    | (.ok v, w) => (answer v, Attrs.insert { s with world := w } p v)
    | (.error .notAvailable, w) => (.pending, { s with world := w })
    | (.error _, w) => (.err, { s with world := w })

/-- `cache.rs` L75-88 `populate` with its use in `context.rs` L226-232. -/
def populate (s : Attrs W) (p : Path) : Attrs W :=
  match s.cached p with
  | some _ => s
  | none =>
    match fetchAttribute b s.world p with
    | (.ok v, w) => Attrs.insert { s with world := w } p v
    | (.error _, w) => { s with world := w }

/-- `context.rs` L226-232 `ensure_attributes`. -/
def ensure (s : Attrs W) (ps : List Path) : Attrs W := ps.foldl (populate b) s

/-- The path under which a property is written to the host, `context.rs` L191-192. -/
def hostPath (p : Path) : Path := Path.parse ("kuadrant\\.".toList ++ joinWith "\\.".toList p)

/-- `context.rs` L186-198 `store_attribute_bytes` and L255-265 `set_attribute`. -/
def writeBytes (s : Attrs W) (p : Path) (v : Bytes) : Ans Unit × Attrs W :=
  match b.setAttr s.world (hostPath p) v with
  | (.ok _, w) => (.available (), Attrs.insert { s with world := w } p (.bytes (some v)))
  | (.error .notAvailable, w) => (.pending, { s with world := w })
  | (.error _, w) => (.err, { s with world := w })

/-- `context.rs` L200-224 `store_attribute_headers` and L268-278 `set_attribute_map`. -/
def writeHeaders (s : Attrs W) (t : Target) (hs : Headers) : Ans Unit × Attrs W :=
  match b.setMap s.world t hs with
  | (.ok _, w) => (.available (), Attrs.insert { s with world := w } (headersPath t) (.headers hs))
  | (.error .notAvailable, w) => (if t = .response then .pending else .err, { s with world := w })
  | (.error _, w) => (.err, { s with world := w })

end Attrs

end

/-- `attribute.rs` L60-71 `from_cached` for types that are parsed from bytes. -/
def fromBytes {α : Type} (parse : Bytes → Option α) : Cached → Except AttrErr (Option α)
  | .bytes (some v) => match parse v with
    | some a => .ok (some a)
    | none => .error .parse
  | .bytes none => .ok none
  | .headers _ => .error .parse

/-- `attribute.rs` L160-167 `Headers::from_cached`. -/
def asHeaders : Cached → Except AttrErr Headers
  | .headers hs => .ok hs
  | .bytes _ => .error .parse

/-- Little-endian number (`from_le_bytes`). -/
def leNat : Bytes → Nat
  | [] => 0
  | x :: xs => x.toNat + 256 * leNat xs

/-- `attribute.rs` L96-106 `u64`. -/
def attrU64 (v : Bytes) : Option Nat := if v.length = 8 then some (leNat v) else none

/-- `attribute.rs` L84-94 `i64`. -/
def attrI64 (v : Bytes) : Option Int :=
  if v.length = 8 then some (if leNat v < 2 ^ 63 then (leNat v : Int) else (leNat v : Int) - 2 ^ 64) else none

/-- `attribute.rs` L126-136 `bool`. -/
def attrBool (v : Bytes) : Option Bool :=
  match v with
  | [x] => some (x.toNat % 2 = 1)
  | _ => none

/-- `attribute.rs` L138-151: a timestamp in nanoseconds since 1970, as seconds and nanoseconds. -/
def attrTimestamp (v : Bytes) : Option (Int × Nat) :=
  (attrI64 v).map fun n => (n.fdiv 1000000000, (n.fmod 1000000000).toNat)

end Verif
