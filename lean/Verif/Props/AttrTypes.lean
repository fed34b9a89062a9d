import Verif.Spec.AttrTypes
import Verif.Props.Attributes
/-!
C58: attributes reach expressions with their type and value.
-/
namespace Verif
open Spec

theorem littleEndian_eq (n v : Nat) : littleEndian n v = Props.leBytes n v := by
  induction n generalizing v with
  | zero => rfl
  | succ n ih => rw [littleEndian, Props.leBytes, ih]

theorem leNat_lt (v : Bytes) : leNat v < 256 ^ v.length := by
  induction v with
  | nil => simp [leNat]
  | cons x v ih =>
    have := x.toNat_lt
    simp only [leNat, List.length_cons, Nat.pow_succ]
    omega

theorem littleEndian_leNat (v : Bytes) : littleEndian v.length (leNat v) = v := by
  induction v with
  | nil => rfl
  | cons x v ih =>
    have hx := x.toNat_lt
    simp only [List.length_cons, leNat, littleEndian]
    rw [show (x.toNat + 256 * leNat v) % 256 = x.toNat by omega,
      show (x.toNat + 256 * leNat v) / 256 = leNat v by omega, ih, UInt8.ofNat_toNat]

mutual
theorem jsonVal_means : ∀ {j : Json} {v : Val}, JsonMeans j v → jsonVal j = v
  | _, _, .null => rfl
  | _, _, .bool => rfl
  | _, _, .pos => rfl
  | _, _, .neg => rfl
  | _, _, .float => rfl
  | _, _, .str => rfl
  | _, _, .arr h => by rw [jsonVal, jsonVals_means h]
  | _, _, .obj h => by rw [jsonVal, jsonEntries_means h]

theorem jsonVals_means : ∀ {l : List Json} {vs : List Val}, JsonMeansAll l vs → jsonVals l = vs
  | _, _, .nil => rfl
  | _, _, .cons h hs => by rw [jsonVals, jsonVal_means h, jsonVals_means hs]

theorem jsonEntries_means : ∀ {l : List (Text × Json)} {vs : List (Key × Val)}, JsonMeansEntries l vs →
    jsonEntries l = vs
  | _, _, .nil => rfl
  | _, _, .cons h hs => by rw [jsonEntries, jsonVal_means h, jsonEntries_means hs]
end

mutual
theorem means_jsonVal : ∀ j : Json, JsonMeans j (jsonVal j)
  | .null => .null
  | .bool _ => .bool
  | .pos _ => .pos
  | .neg _ => .neg
  | .float _ => .float
  | .str _ => .str
  | .arr l => by rw [jsonVal]; exact .arr (means_jsonVals l)
  | .obj m => by rw [jsonVal]; exact .obj (means_jsonEntries m)

theorem means_jsonVals : ∀ l : List Json, JsonMeansAll l (jsonVals l)
  | [] => .nil
  | j :: js => .cons (means_jsonVal j) (means_jsonVals js)

theorem means_jsonEntries : ∀ m : List (Text × Json), JsonMeansEntries m (jsonEntries m)
  | [] => .nil
  | (_, j) :: m => .cons (means_jsonVal j) (means_jsonEntries m)
end

theorem attrI64_signed {v : Bytes} {i : Int} (h : attrI64 v = some i) :
    v = signed64 i ∧ -2 ^ 63 ≤ i ∧ i < 2 ^ 63 := by
  unfold attrI64 at h
  split at h
  · rename_i hl
    have h1 := leNat_lt v
    have h2 := littleEndian_leNat v
    rw [hl] at h1 h2
    simp only [Option.some.injEq] at h
    have : (i % 2 ^ 64).toNat = leNat v := by
      subst h; split <;> omega
    refine ⟨?_, ?_, ?_⟩
    · rw [signed64, this]; exact h2.symm
    · subst h; split <;> omega
    · subst h; split <;> omega
  · simp at h

theorem attrVal_means {lib : JsonLib} {t : Option AttrType} {bytes : Bytes} {v : Val}
    (h : BytesMean lib t bytes v) : attrVal lib t (.bytes (some bytes)) = .ok v := by
  cases h with
  | string => simp [attrVal, fromBytes, fromUtf8_utf8, Except.map]
  | int h1 h2 =>
    rw [signed64, littleEndian_eq]
    simp only [attrVal, fromBytes, Props.C51_signed _ h1 h2]
    rfl
  | uint h => simp [attrVal, fromBytes, littleEndian_eq, Props.C51_unsigned _ h, Except.map]
  | yes h => simp [attrVal, fromBytes, attrBool, h, Except.map]
  | no h => simp [attrVal, fromBytes, attrBool, h, Except.map]
  | bytes => simp [attrVal, fromBytes, Except.map]
  | time h1 h2 h3 =>
    rw [signed64, littleEndian_eq]
    simp only [attrVal, fromBytes, Props.C51_timestamp _ _ h1 h2 h3]
    rfl
  | json hp hj => simp [attrVal, fromBytes, fromUtf8_utf8, Except.map, jsonToCel, hp, jsonVal_means hj]
  | text hp => simp [attrVal, fromBytes, fromUtf8_utf8, Except.map, jsonToCel, hp]

theorem means_attrVal {lib : JsonLib} {t : Option AttrType} (ht : t ≠ some .map) {bytes : Bytes} {v : Val}
    (h : attrVal lib t (.bytes (some bytes)) = .ok v) : BytesMean lib t bytes v := by
  have scalar : ∀ {α : Type} (parse : Bytes → Option α) (f : α → Val),
      (fromBytes parse (.bytes (some bytes))).map (fun r => (r.map f).getD .null) = .ok v →
      ∃ a, parse bytes = some a ∧ v = f a := by
    intro α parse f h
    simp only [fromBytes] at h
    cases hp : parse bytes with
    | none => rw [hp] at h; simp [Except.map] at h
    | some a => rw [hp] at h; simp [Except.map] at h; exact ⟨a, rfl, h.symm⟩
  cases t with
  | none =>
    obtain ⟨a, h1, rfl⟩ := scalar _ _ h
    rw [eq_utf8_of_fromUtf8 h1]
    unfold jsonToCel
    split
    · rename_i j hj; exact .json hj (means_jsonVal j)
    · rename_i hj; exact .text hj
  | some t =>
    cases t with
    | string =>
      obtain ⟨a, h1, rfl⟩ := scalar _ _ h
      rw [eq_utf8_of_fromUtf8 h1]; exact .string
    | int =>
      obtain ⟨a, h1, rfl⟩ := scalar _ _ h
      obtain ⟨rfl, h2, h3⟩ := attrI64_signed h1
      exact .int h2 h3
    | uint =>
      obtain ⟨a, h1, rfl⟩ := scalar _ _ h
      unfold attrU64 at h1
      split at h1
      · rename_i hl
        simp only [Option.some.injEq] at h1
        have h2 := littleEndian_leNat bytes
        have h3 := leNat_lt bytes
        rw [hl] at h2 h3
        subst h1
        have := BytesMean.uint (lib := lib) (n := leNat bytes) (by omega)
        rwa [h2] at this
      · simp at h1
    | bool =>
      obtain ⟨a, h1, rfl⟩ := scalar _ _ h
      unfold attrBool at h1
      split at h1
      · rename_i x
        simp only [Option.some.injEq] at h1
        by_cases hx : x.toNat % 2 = 1
        · simp [hx] at h1; subst h1; exact .yes hx
        · simp [hx] at h1; subst h1; exact .no (by omega)
      · simp at h1
    | bytes =>
      obtain ⟨a, h1, rfl⟩ := scalar some .bytes h
      cases h1; exact .bytes
    | timestamp =>
      obtain ⟨a, h1, rfl⟩ := scalar _ _ h
      unfold attrTimestamp at h1
      cases hi : attrI64 bytes with
      | none => rw [hi] at h1; simp at h1
      | some i =>
        rw [hi] at h1
        simp only [Option.map_some, Option.some.injEq] at h1
        obtain ⟨rfl, h2, h3⟩ := attrI64_signed hi
        subst h1
        rw [Int.fdiv_eq_ediv_of_nonneg _ (by decide), Int.fmod_eq_emod_of_nonneg _ (by decide)]
        have e : i / 1000000000 * 1000000000 + ((i % 1000000000).toNat : Int) = i := by omega
        have := BytesMean.time (lib := lib) (secs := i / 1000000000) (nanos := (i % 1000000000).toNat)
          (by omega) (by omega) (by omega)
        rwa [e] at this
    | map => exact absurd rfl ht

end Verif

namespace Verif.Props
open Spec

variable {W : Type} (b : Backend W) (lib : JsonLib)

/-- C58: an attribute whose bytes mean something for its type has this meaning in expressions. -/
theorem C58_value (s : Attrs W) (p : Path) (bytes : Bytes) (w : W) (v : Val) (hc : s.cached p = none)
    (hf : fetchAttribute b s.world p = (.ok (.bytes (some bytes)), w)) (hm : BytesMean lib (knownType p) bytes v) :
    (attrGet b lib s p).1 = .available v := by
  unfold attrGet Attrs.read
  rw [hc, hf]
  dsimp only
  rw [attrVal_means hm]

/-- C58: bytes without a meaning for the type of the attribute are an error. -/
theorem C58_meaningless (s : Attrs W) (p : Path) (bytes : Bytes) (w : W) (hc : s.cached p = none)
    (hf : fetchAttribute b s.world p = (.ok (.bytes (some bytes)), w))
    (hm : ∀ v, ¬ BytesMean lib (knownType p) bytes v) : (attrGet b lib s p).1 = .err := by
  unfold attrGet Attrs.read
  rw [hc, hf]
  dsimp only
  cases h : attrVal lib (knownType p) (.bytes (some bytes)) with
  | error e => rfl
  | ok v =>
    by_cases ht : knownType p = some .map
    · rw [ht] at h
      simp [attrVal, asHeaders, Except.map] at h
    · exact absurd (means_attrVal ht h) (hm v)

/-- C58: an attribute the host does not have is null, unless it is a map. -/
theorem C58_missing (s : Attrs W) (p : Path) (w : W) (hc : s.cached p = none)
    (hf : fetchAttribute b s.world p = (.ok (.bytes none), w)) (ht : knownType p ≠ some .map) :
    (attrGet b lib s p).1 = .available .null := by
  unfold attrGet Attrs.read
  rw [hc, hf]
  dsimp only
  have : attrVal lib (knownType p) (.bytes none) = .ok .null := by
    cases hk : knownType p with
    | none => rfl
    | some t =>
      rw [hk] at ht
      cases t <;> first | rfl | exact absurd rfl ht
  rw [this]

/-- C58: an attribute the host cannot give yet makes the expression wait. -/
theorem C58_pending (s : Attrs W) (p : Path) (w : W) (hc : s.cached p = none)
    (hf : fetchAttribute b s.world p = (.error .notAvailable, w)) : (attrGet b lib s p).1 = .pending := by
  unfold attrGet Attrs.read
  rw [hc, hf]

/-- C58: the request headers are a map from names to values; see `C52_joined` for names given several
times. -/
theorem C58_headers (s : Attrs W) (hs : Headers) (w : W) (hc : s.cached (headersPath .request) = none)
    (hf : b.getMap s.world .request = (.ok hs, w)) :
    (attrGet b lib s (headersPath .request)).1 =
      .available (.map (hs.toMap.map fun e => (.str e.1, .str e.2))) := by
  have hk : knownType (headersPath .request) = some .map := by decide +kernel
  have hfe : fetchAttribute b s.world (headersPath .request) = (.ok (.headers hs), w) := by
    unfold fetchAttribute
    rw [if_pos rfl, hf]
  unfold attrGet Attrs.read
  rw [hc, hfe, hk]
  rfl

/-- C58: which attributes have which type; all others with a type are texts. -/
theorem C58_types (p : Path) :
    (knownType p = some .timestamp ↔ p ∈ ["request.time"].map fun t => Path.parse t.toList) ∧
    (knownType p = some .int ↔ p ∈ ["request.size", "source.port", "destination.port",
      "ratelimit.hits_addend"].map fun t => Path.parse t.toList) ∧
    (knownType p = some .uint ↔ p ∈ ["connection.id"].map fun t => Path.parse t.toList) ∧
    (knownType p = some .bool ↔ p ∈ ["connection.mtls"].map fun t => Path.parse t.toList) ∧
    (knownType p = some .bytes ↔ p ∈ ["request.raw_body"].map fun t => Path.parse t.toList) ∧
    (knownType p = some .map ↔ p ∈ ["request.headers", "request.context_extensions", "source.labels",
      "destination.labels", "filter_state"].map fun t => Path.parse t.toList) ∧
    (knownType p = some .string ↔ p ∈ ["request.id", "request.protocol", "request.scheme", "request.host",
      "request.method", "request.path", "request.url_path", "request.query", "request.referer",
      "request.useragent", "request.body", "source.address", "source.remote_address", "source.service",
      "source.principal", "source.certificate", "destination.address", "destination.service",
      "destination.principal", "destination.certificate", "connection.requested_server_name",
      "connection.tls_session.sni", "connection.tls_version", "connection.subject_local_certificate",
      "connection.subject_peer_certificate", "connection.dns_san_local_certificate",
      "connection.dns_san_peer_certificate", "connection.uri_san_local_certificate",
      "connection.uri_san_peer_certificate", "connection.sha256_peer_certificate_digest",
      "ratelimit.domain"].map fun t => Path.parse t.toList) := by
  have key : ∀ (t : AttrType) (l : List Path), (∀ e ∈ wellKnown, e.2 = t → Path.parse e.1 ∈ l) →
      (∀ q ∈ l, knownType q = some t) → (knownType p = some t ↔ p ∈ l) := by
    intro t l h1 h2
    constructor
    · intro h
      simp only [knownType, Option.map_eq_some_iff] at h
      obtain ⟨e, he, ht⟩ := h
      have h3 := List.find?_some he
      simp only [decide_eq_true_eq] at h3
      rw [← h3]
      exact h1 e (List.mem_of_find?_eq_some he) ht
    · exact h2 p
  refine ⟨key _ _ ?_ ?_, key _ _ ?_ ?_, key _ _ ?_ ?_, key _ _ ?_ ?_, key _ _ ?_ ?_, key _ _ ?_ ?_,
    key _ _ ?_ ?_⟩ <;> decide +kernel

/-- C58: the response headers have no type, so that reading them always fails or has to wait, whatever the
headers are. -/
theorem C58_response_headers (s : Attrs W) (hc : ∀ v, s.cached (headersPath .response) ≠ some (.bytes v))
    (v : Val) : (attrGet b lib s (headersPath .response)).1 ≠ .available v := by
  have hk : knownType (headersPath .response) = none := by decide +kernel
  have hh : ∀ hs, attrVal lib none (.headers hs) = .error .parse := fun _ => rfl
  unfold attrGet Attrs.read
  rw [hk]
  cases hcc : s.cached (headersPath .response) with
  | some c =>
    cases c with
    | bytes x => exact absurd hcc (hc x)
    | headers hs => simp [hh]
  | none =>
    have hf : ∀ c w, fetchAttribute b s.world (headersPath .response) = (.ok c, w) → ∃ hs, c = .headers hs := by
      intro c w h
      unfold fetchAttribute at h
      rw [if_neg (by decide), if_pos rfl] at h
      split at h <;> cases h
      exact ⟨_, rfl⟩
    simp only
    cases hff : fetchAttribute b s.world (headersPath .response) with
    | mk r w =>
      cases r with
      | ok c =>
        obtain ⟨hs, rfl⟩ := hf c w hff
        simp [hh]
      | error e => cases e <;> simp

/-- A host whose attributes all have these bytes. -/
def bytesHost (v : Bytes) : Backend Nat := { countingHost with getAttr := fun w _ => (.ok (some v), w) }

/-- The hypotheses of `C58_value` hold: a port and a request time. -/
example : (attrGet (bytesHost [0x50, 0, 0, 0, 0, 0, 0, 0]) lib { world := 0 }
    ["source".toList, "port".toList]).1 = .available (.int 80) :=
  C58_value _ lib _ _ _ 0 _ rfl rfl
    (by rw [show knownType _ = some .int from by decide +kernel]
        exact BytesMean.int (i := 80) (by decide) (by decide))

example : (attrGet (bytesHost (littleEndian 8 1500000000)) lib { world := 0 }
    ["request".toList, "time".toList]).1 = .available (.timestamp 1 500000000) :=
  C58_value _ lib _ _ _ 0 _ rfl rfl
    (by rw [show knownType _ = some .timestamp from by decide +kernel]
        exact BytesMean.time (secs := 1) (nanos := 500000000) (by decide) (by decide) (by decide))

/-- The hypotheses of `C58_meaningless` hold: a number of three bytes. -/
example : (attrGet (bytesHost [1, 2, 3]) lib { world := 0 } ["source".toList, "port".toList]).1 = .err := by
  refine C58_meaningless _ lib _ _ [1, 2, 3] 0 rfl rfl fun v h => ?_
  rw [show knownType _ = some .int from by decide +kernel] at h
  have := attrVal_means h
  simp [attrVal, fromBytes, attrI64, Except.map] at this

end Verif.Props
