import Verif.Spec.WireRequest
import Verif.Lemmas.Wire
import Verif.Lemmas.Request
/-! The messages that the services are sent. -/
namespace Verif
open Spec Legacy Cel

variable {L : ProtoLib}

theorem each_get {R : Text × Val → String × ProtoVal → Prop} (hR : ∀ g p, R g p → g.1 = p.1.toList)
    {given : List (Text × Val)} {out : List (String × ProtoVal)} (h : Each R given out) (n : Text) :
    (mapGet given n = none ∧ mapGet (out.map fun g => (g.1.toList, g.2)) n = none) ∨
    ∃ g p, R g p ∧ g.1 = n ∧ mapGet given n = some g.2 ∧ mapGet (out.map fun g => (g.1.toList, g.2)) n = some p.2 := by
  induction h with
  | nil => exact .inl ⟨rfl, rfl⟩
  | @cons g p gs ps h _ ih =>
    have he := hR g p h
    obtain ⟨m, v⟩ := g
    simp only at he
    rw [mapGet_entry, List.map_cons, mapGet_entry]
    by_cases hm : m = n
    · rw [if_pos hm, if_pos (he ▸ hm)]
      exact .inr ⟨_, _, h, hm, rfl, rfl⟩
    · rw [if_neg hm, if_neg (he ▸ hm)]
      exact ih

/-- How a field of a message is made: only the one called `only` can be in a oneof. -/
def FieldMade (L : ProtoLib) (name : Text) (only : String) (g : Text × Val) (p : String × ProtoVal) : Prop :=
  g.1 = p.1.toList ∧ ∃ t, Takes L name p.1 t (p.1 ≠ only) ∧ toProto L g.2 t = some p.2

theorem fieldMade {name : Text} {only : String} (n : String) {t : ProtoType} {v : Val} {p : ProtoVal}
    (h : Takes L name n t (n ≠ only)) (hv : toProto L v t = some p) : FieldMade L name only (n.toList, v) (n, p) :=
  ⟨rfl, t, h, hv⟩

theorem str_made (t : Text) : toProto L (.str t) (.one .string) = some (.string t) := rfl

theorem uint_made (n : Nat) : toProto L (.uint n) (.one .uint32) = some (.u32 (n % 2 ^ 32)) := rfl

/-- A message is made of its fields. -/
theorem message_made (hG : GoodDescs L) {name : Text} (called : Text) (only : String) {given : List (Text × Val)}
    {out : List (String × ProtoVal)} (h : Each (FieldMade L name only) given out) :
    ∃ p, toProto L (.struct called given) (.one (.message name)) = some p ∧ IsMessage p name out := by
  have hget := each_get (fun g p hm => hm.1) h
  let P : ProtoField → Option ProtoVal := fun f => mapGet (out.map fun g => (g.1.toList, g.2)) f.name
  have hone : ∀ f ∈ (L.desc name).fields, (P f).isSome → f.oneof.isSome → f.name = only.toList := by
    intro f hf hs ho
    rcases hget f.name with ⟨_, h2⟩ | ⟨g, p, ⟨h1, t, ⟨f', hf', hn, _, hal⟩, _⟩, h3, _, _⟩
    · simp only [P, h2] at hs; cases hs
    · have he : f' = f := eq_of_names (hG.names name) hf' hf (by rw [hn, ← h1, h3])
      subst he
      by_cases hp : p.1 = only
      · rw [hn, hp]
      · rw [hal (by simpa using hp)] at ho; cases ho
  have hbuild : buildFields (L.desc name).fields (fieldConvs L given) (L.desc name).fields [] =
      some (setFields P (L.desc name).fields) := by
    refine buildFields_eq (P := P) (hG.names name) ?_ ?_ [] _ rfl
    · intro f hf
      rw [fieldConvs_get]
      rcases hget f.name with ⟨h1, h2⟩ | ⟨g, p, ⟨h1, t, ⟨f', hf', hn, hft, _⟩, hp⟩, h3, h4, h5⟩
      · rw [h1]; exact h2
      · have he : f' = f := eq_of_names (hG.names name) hf' hf (by rw [hn, ← h1, h3])
        subst he
        rw [h4]
        refine ⟨?_, ?_⟩
        · simp only [P, h5, hft, Option.bind_some, hp]
        · simp only [P, h5]; rfl
    · intro f hf g hg h1 h2 h3 h4
      rw [hone f hf h1 h3, hone g hg h2 (by rw [h4]; exact h3)]
  refine ⟨_, by simp only [toProto, hbuild, Option.map_some]; rfl, _, rfl, fun n => ?_⟩
  by_cases hn : ∃ f ∈ (L.desc name).fields, f.name = n
  · obtain ⟨f, hf, rfl⟩ := hn
    exact setFields_get P (hG.names name) hf
  · rcases hget n with ⟨_, h2⟩ | ⟨g, p, ⟨h1, t, ⟨f', hf', hn', _⟩, _⟩, h3, _⟩
    · rw [h2]
      cases hm : mapGet (setFields P (L.desc name).fields) n with
      | none => rfl
      | some q =>
        have : n ∈ names (setFields P (L.desc name).fields) := mapGet_isSome_names.mp (by rw [hm]; rfl)
        obtain ⟨e, he, rfl⟩ := List.mem_map.mp this
        obtain ⟨a, ha, hp⟩ := List.mem_filterMap.mp he
        cases hP : P a with
        | none => rw [hP] at hp; cases hp
        | some q => rw [hP] at hp; cases hp; exact absurd ⟨a, ha, rfl⟩ hn
    · exact absurd ⟨f', hf', by rw [hn', ← h1, h3]⟩ hn

/-- A list is made of its items. -/
theorem items_made {α : Type} {R : α → ProtoVal → Prop} {kind : ProtoKind} {value : α → Val} (l : List α)
    (h : ∀ a ∈ l, ∃ p, toProto L (value a) (.one kind) = some p ∧ R a p) :
    ∃ ps, toProto L (.list (l.map value)) (.list kind) = some (.list ps) ∧ Each R l ps := by
  have key : ∃ ps, toItems L (l.map value) kind = some ps ∧ Each R l ps := by
    induction l with
    | nil => exact ⟨[], rfl, .nil⟩
    | cons a l ih =>
      obtain ⟨p, h1, h2⟩ := h a List.mem_cons_self
      obtain ⟨ps, h3, h4⟩ := ih fun b hb => h b (List.mem_cons_of_mem _ hb)
      exact ⟨p :: ps, by simp only [List.map_cons, toItems, h1, h3], .cons h2 h4⟩
  obtain ⟨ps, h1, h2⟩ := key
  exact ⟨ps, by simp only [toProto, h1, Option.map_some], h2⟩

/-- A map is made of its entries. -/
theorem entries_made {α : Type} {R : α → ProtoVal → Prop} {key kind : ProtoKind} {value : α → Val} (l : List (Text × α))
    (hn : (l.map Prod.fst).Nodup) (h : ∀ a ∈ l, ∃ p, toProto L (value a.2) (.one kind) = some p ∧ R a.2 p) :
    ∃ m, toProto L (mapValue (l.map fun a => (a.1, value a.2))) (.map key kind) = some (.map m) ∧
      Each (fun a e => e.1 = .string a.1 ∧ R a.2 e.2) l m := by
  have go : ∀ out : List (ProtoKey × ProtoVal), (∀ a ∈ l, ProtoKey.string a.1 ∉ out.map Prod.fst) →
      ∃ m, toEntries L ((l.map fun a => (a.1, value a.2)).map fun kv => (.str kv.1, kv.2)) key kind out = some (out ++ m) ∧
      Each (fun a e => e.1 = .string a.1 ∧ R a.2 e.2) l m := by
    induction l with
    | nil => exact fun out _ => ⟨[], by simp [toEntries], .nil⟩
    | cons a l ih =>
      intro out hout
      obtain ⟨p, h1, h2⟩ := h a List.mem_cons_self
      rw [List.map_cons, List.nodup_cons] at hn
      obtain ⟨m, h3, h4⟩ := ih hn.2 (fun b hb => h b (List.mem_cons_of_mem _ hb)) (out ++ [(.string a.1, p)]) (by
        intro b hb hm
        rw [List.map_append, List.mem_append] at hm
        rcases hm with hm | hm
        · exact hout b (List.mem_cons_of_mem _ hb) hm
        · simp only [List.map_cons, List.map_nil, List.mem_singleton, ProtoKey.string.injEq] at hm
          exact hn.1 (hm ▸ List.mem_map_of_mem hb))
      refine ⟨(.string a.1, p) :: m, ?_, .cons ⟨rfl, h2⟩ h4⟩
      have hk : protoKey (.str a.1) key = some (.string a.1) := by cases key <;> rfl
      simp only [List.map_cons, toEntries, hk, h1]
      rw [mapPut_new (hout a List.mem_cons_self), h3, List.append_assoc]
      rfl
  obtain ⟨m, h1, h2⟩ := go [] (by simp)
  refine ⟨m, ?_, h2⟩
  rw [mapValue]
  simp only [toProto, h1, Option.map_some, List.nil_append]

variable {L : ProtoLib} (hG : GoodDescs L) (hE : RequestDescs L)

/-! ### Rate limits -/

include hG hE

theorem entry_made (e : Text × Text) : ∃ p, toProto L (entryValue e) (.one (.message entryName)) = some p ∧ entryOn e p :=
  message_made hG _ "" (.cons (fieldMade "key" hE.key rfl) (.cons (fieldMade "value" hE.value rfl) .nil))

theorem descriptor_made (d : List (Text × Text)) :
    ∃ p, toProto L (descriptorValue d) (.one (.message descriptorName)) = some p ∧ descriptorOn d p := by
  obtain ⟨es, h1, h2⟩ := items_made (kind := .message entryName) (value := entryValue) d fun e _ => entry_made hG hE e
  obtain ⟨p, h3, h4⟩ := message_made hG "envoy.extensions.common.ratelimit.v3.RateLimitDescriptor".toList ""
    (.cons (fieldMade "entries" hE.entries h1) .nil)
  exact ⟨p, h3, es, h4, h2⟩

theorem limit_made (q : LimitQuery) :
    ∃ p, toMessage L q.value limitRequestName = some p ∧ limitOn q p := by
  obtain ⟨ds, h1, h2⟩ := items_made (kind := .message descriptorName) (value := descriptorValue) q.descriptors
    fun d _ => descriptor_made hG hE d
  obtain ⟨p, h3, h4⟩ := message_made hG "envoy.service.ratelimit.v3.RateLimitRequest".toList ""
    (.cons (fieldMade "domain" hE.domain (str_made q.domain)) (.cons (fieldMade "hits_addend" hE.hits (uint_made q.hits)) (.cons (fieldMade "descriptors" hE.descriptors h1) .nil)))
  exact ⟨p, h3, ds, h4, h2⟩

/-! ### Authorization -/

/-- The value of request data. -/
def datumValue : Datum → Val
  | .text t => messageOf "google.protobuf.Value" [("string_value", .str t)]
  | .expression e => messageOf "google.protobuf.Value" [
      ("struct_value", structValue [("cel_expr".toList, messageOf "google.protobuf.Value" [("string_value", .str e)])])]

theorem text_made (t : Text) : ∃ p, toProto L (messageOf "google.protobuf.Value" [("string_value", .str t)])
    (.one (.message "google.protobuf.Value".toList)) = some p ∧
    IsMessage p "google.protobuf.Value".toList [("string_value", .string t)] :=
  message_made hG _ "string_value" (.cons (fieldMade "string_value" hE.text rfl) .nil)

theorem struct_made {α : Type} {R : α → ProtoVal → Prop} {value : α → Val} (l : List (Text × α))
    (hn : (l.map Prod.fst).Nodup)
    (h : ∀ a ∈ l, ∃ p, toProto L (value a.2) (.one (.message "google.protobuf.Value".toList)) = some p ∧ R a.2 p) :
    ∃ p, toProto L (structValue (l.map fun a => (a.1, value a.2))) (.one (.message "google.protobuf.Struct".toList)) = some p ∧
      ∃ m, IsMessage p "google.protobuf.Struct".toList [("fields", .map m)] ∧
        Each (fun a e => e.1 = .string a.1 ∧ R a.2 e.2) l m := by
  obtain ⟨m, h1, h2⟩ := entries_made (key := .string) l hn h
  obtain ⟨p, h3, h4⟩ := message_made hG "google.protobuf.Struct".toList "" (.cons (fieldMade "fields" hE.fields h1) .nil)
  exact ⟨p, h3, m, h4, h2⟩

theorem datum_made (d : Datum) :
    ∃ p, toProto L (datumValue d) (.one (.message "google.protobuf.Value".toList)) = some p ∧ d.On p := by
  cases d with
  | text t => exact text_made hG hE t
  | expression e =>
    obtain ⟨s, h1, m, h2, h3⟩ := struct_made hG hE (R := fun (t : Text) p =>
        IsMessage p "google.protobuf.Value".toList [("string_value", .string t)])
      (value := fun t => messageOf "google.protobuf.Value" [("string_value", .str t)])
      [("cel_expr".toList, e)] (by simp) (fun a _ => text_made hG hE a.2)
    obtain ⟨p, h4, h5⟩ := message_made hG "google.protobuf.Value".toList "struct_value" (.cons (fieldMade "struct_value" hE.struct h1) .nil)
    cases h3 with
    | @cons _ b _ _ h6 h7 =>
      cases h7
      obtain ⟨k, inner⟩ := b
      obtain ⟨h6, h7⟩ := h6
      cases h6
      exact ⟨p, h4, s, inner, h5, h2, h7⟩

theorem domain_made (d : List (Text × Datum)) (hn : (d.map Prod.fst).Nodup) :
    ∃ p, toProto L (structValue (d.map fun x => (x.1, datumValue x.2))) (.one (.message "google.protobuf.Struct".toList)) = some p ∧
      domainOn d p := by
  obtain ⟨p, h1, m, h2, h3⟩ := struct_made hG hE (R := fun x p => Datum.On p x) (value := datumValue) d hn fun a _ => datum_made hG hE a.2
  exact ⟨p, h1, m, h2, h3⟩

theorem end_made (x : Text × Nat) : ∃ p, toProto L (peerValue (.str x.1, x.2)) (.one (.message peerName)) = some p ∧ endOn x p := by
  obtain ⟨s, h1, h2⟩ := message_made hG "envoy.config.core.v3.SocketAddress".toList "port_value"
    (.cons (fieldMade "address" hE.address (str_made x.1)) (.cons (fieldMade "port_value" hE.port (uint_made x.2)) .nil))
  obtain ⟨a, h3, h4⟩ := message_made hG "envoy.config.core.v3.Address".toList "socket_address"
    (.cons (fieldMade "socket_address" hE.socket h1) .nil)
  obtain ⟨p, h5, h6⟩ := message_made hG "envoy.service.auth.v3.AttributeContext.Peer".toList ""
    (.cons (fieldMade "address" hE.peer h3) .nil)
  exact ⟨p, h5, a, s, h6, h4, h2⟩

theorem metadata_made (md : List (Text × List (Text × Datum))) (hn : (md.map Prod.fst).Nodup)
    (hd : ∀ d ∈ md, (d.2.map Prod.fst).Nodup) :
    ∃ p, toProto L (messageOf "envoy.config.core.v3.Metadata" (if md = [] then [] else
        [("filter_metadata", mapValue (md.map fun d => (d.1, structValue (d.2.map fun x => (x.1, datumValue x.2)))))]))
      (.one (.message metadataName)) = some p ∧ metadataOn md p := by
  by_cases he : md = []
  · rw [if_pos he]
    obtain ⟨p, h1, h2⟩ := message_made hG "envoy.config.core.v3.Metadata".toList "" (given := []) (out := []) .nil
    exact ⟨p, h1, .inl ⟨he, h2⟩⟩
  · rw [if_neg he]
    obtain ⟨m, h1, h2⟩ := entries_made (key := .string) (kind := .message "google.protobuf.Struct".toList) (R := domainOn)
      (value := fun d => structValue (d.map fun x => (x.1, datumValue x.2))) md hn
      fun d hm => domain_made hG hE d.2 (hd d hm)
    obtain ⟨p, h3, h4⟩ := message_made hG "envoy.config.core.v3.Metadata".toList ""
      (.cons (fieldMade "filter_metadata" hE.filterMetadata h1) .nil)
    exact ⟨p, h3, .inr ⟨he, m, h4, h2⟩⟩

omit hG hE in
/-- The texts of a map. -/
theorem texts_made (l : List (Text × Text)) (hn : (l.map Prod.fst).Nodup) :
    toProto L (.map (l.map fun h => (.str h.1, .str h.2))) (.map .string .string) =
      some (.map (l.map fun h => (.string h.1, .string h.2))) := by
  obtain ⟨m, h1, h2⟩ := entries_made (L := L) (key := .string) (kind := .string) (R := fun t p => p = .string t)
    (value := .str) l hn fun a _ => ⟨_, rfl, rfl⟩
  rw [mapValue, List.map_map] at h1
  have hm : m = l.map fun h => (.string h.1, .string h.2) := by
    clear h1 hn
    induction h2 with
    | nil => rfl
    | @cons a b _ _ h _ ih => rw [List.map_cons, ← ih]; congr 1; exact Prod.ext h.1 h.2
  rw [← hm]
  exact h1

/-- The query for these facts. -/
def checkQuery (t : CheckFacts) : CheckQuery where
  time := .timestamp t.seconds t.nanos
  http := [("host", .str t.host), ("method", .str t.method), ("scheme", .str t.scheme), ("path", .str t.path),
    ("protocol", .str t.protocol), ("headers", .map (t.headers.map fun h => (.str h.1, .str h.2)))]
  destination := (.str t.destination.1, t.destination.2)
  source := (.str t.source.1, t.source.2)
  scope := t.scope
  metadata := t.metadata.map fun d => (d.1, d.2.map fun x => (x.1, datumValue x.2))

theorem check_made (t : CheckFacts) (hnanos : t.nanos < 2 ^ 31) (hh : (t.headers.map Prod.fst).Nodup)
    (hn : (t.metadata.map Prod.fst).Nodup) (hd : ∀ d ∈ t.metadata, (d.2.map Prod.fst).Nodup) :
    ∃ p, toMessage L (checkQuery t).value checkRequestName = some p ∧ t.On p := by
  obtain ⟨source, hs1, hs2⟩ := end_made hG hE t.source
  obtain ⟨destination, hd1, hd2⟩ := end_made hG hE t.destination
  obtain ⟨metadata, hm1, hm2⟩ := metadata_made hG hE t.metadata hn hd
  have htime : toProto L (.timestamp t.seconds t.nanos) (.one (.message "google.protobuf.Timestamp".toList)) =
      some (.message "google.protobuf.Timestamp".toList
        [("seconds".toList, .i64 t.seconds), ("nanos".toList, .i32 t.nanos)]) := by
    simp only [toProto]
    rw [if_pos (show "google.protobuf.Timestamp".toList = timestampName from rfl), wrapI32_of (by unfold InI32; omega)]
  obtain ⟨http, hh1, hh2⟩ := message_made hG "envoy.service.auth.v3.AttributeContext.HttpRequest".toList ""
    (.cons (fieldMade "host" hE.host (str_made t.host)) (.cons (fieldMade "method" hE.method (str_made t.method))
      (.cons (fieldMade "scheme" hE.scheme (str_made t.scheme)) (.cons (fieldMade "path" hE.path (str_made t.path))
        (.cons (fieldMade "protocol" hE.protocol (str_made t.protocol))
          (.cons (fieldMade "headers" hE.headers (texts_made t.headers hh)) .nil))))))
  obtain ⟨request, hr1, hr2⟩ := message_made hG "envoy.service.auth.v3.AttributeContext.Request".toList ""
    (.cons (fieldMade "time" hE.time htime) (.cons (fieldMade "http" hE.http hh1) .nil))
  obtain ⟨attributes, ha1, ha2⟩ := message_made hG "envoy.service.auth.v3.AttributeContext".toList ""
    (.cons (fieldMade "request" hE.request hr1) (.cons (fieldMade "destination" hE.destination hd1)
      (.cons (fieldMade "source" hE.source hs1)
        (.cons (fieldMade "context_extensions" hE.extensions (texts_made [("host".toList, t.scope)] (by simp)))
          (.cons (fieldMade "metadata_context" hE.metadata hm1) .nil)))))
  obtain ⟨p, hp1, hp2⟩ := message_made hG "envoy.service.auth.v3.CheckRequest".toList ""
    (.cons (fieldMade "attributes" hE.attributes ha1) .nil)
  refine ⟨p, ?_, attributes, request, http, source, destination, metadata, hp2, ha2, hr2, hh2, hs2, hd2, hm2⟩
  refine Eq.trans ?_ hp1
  simp only [CheckQuery.value, checkQuery, messageOf, toMessage, List.map_map, List.map_eq_nil_iff, mapValue, List.map_cons,
    List.map_nil]
  rfl

end Verif
