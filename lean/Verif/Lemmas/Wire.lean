import Verif.Spec.Wire
import Verif.Props.Answers
/-! The messages of the services as CEL values. -/
namespace Verif
open Spec Props

variable {L : ProtoLib}

theorem hasField_of {fields : List (Text × Val)} {n : Text} {v : Val} (h : mapGet fields n = some v) :
    HasField fields n v := by
  induction fields with
  | nil => cases h
  | cons e l ih =>
    obtain ⟨m, u⟩ := e
    rw [mapGet_entry] at h
    split at h
    · rename_i hm
      cases h
      rw [hm]
      exact .here _ _ _
    · rename_i hm
      exact .later hm (ih h)

theorem hasField_get {fields : List (Text × Val)} {n : Text} {v : Val} (h : HasField fields n v) :
    mapGet fields n = some v := by
  induction h with
  | here => rw [mapGet_entry, if_pos rfl]
  | later hne _ ih => rw [mapGet_entry, if_neg hne, ih]

theorem noField_of {fields : List (Text × Val)} {n : Text} (h : mapGet fields n = none) : NoField fields n := by
  intro v hv
  rw [hasField_get hv] at h
  cases h

/-- The CEL fields `out` show the message with the fields `fields`. -/
structure Shown (L : ProtoLib) (name : Text) (fields : List (Text × ProtoVal)) (out : List (Text × Val)) : Prop where
  typed : WellTyped L (.message name fields) (.one (.message name))
  given : ∀ f ∈ (L.desc name).fields, (∀ p, mapGet fields f.name = some p → ∃ v, mapGet out f.name = some v ∧ Says L p v) ∧
    (mapGet fields f.name = none → mapGet out f.name = if f.presence then none else some (zero L f))
  only : ∀ n, (mapGet out n).isSome → ∃ f ∈ (L.desc name).fields, f.name = n

theorem says_shown (hG : GoodDescs L) {name : Text} {fields : List (Text × ProtoVal)} {v : Val} (hord : Ordinary name)
    (ht : WellTyped L (.message name fields) (.one (.message name))) (h : Says L (.message name fields) v) :
    ∃ out, v = .struct name out ∧ Shown L name fields out := by
  obtain ⟨given, h3, rfl⟩ : ∃ given, SaysFields L fields given ∧ v = .struct name (fill L given (L.desc name).fields) := by
    rcases says_message h with ⟨_, h⟩ | ⟨h, _⟩ | ⟨h, _⟩ | ⟨h, _⟩ | ⟨h, _⟩
    · exact h
    · exact absurd h hord.1
    · exact absurd h hord.2.1
    · exact absurd h hord.2.2.2
    · exact absurd h hord.2.2.1
  refine ⟨_, rfl, ht, fun f hf => ?_, fun n hs => ?_⟩
  · rw [fill_get hf (hG.names name)]
    rcases saysFields_get h3 f.name with ⟨h5, h6⟩ | ⟨p, v, h5, h6, h7⟩
    · rw [h5, h6]
      exact ⟨fun p h => (by cases h), fun _ => rfl⟩
    · rw [h5, h6]
      refine ⟨fun q h => ?_, fun h => by cases h⟩
      cases h
      exact ⟨v, rfl, h7⟩
  · apply Classical.byContradiction
    intro hno
    have key : ∀ fs : List ProtoField, (∀ f ∈ fs, f.name ≠ n) → mapGet (fill L given fs) n = none := by
      intro fs
      induction fs with
      | nil => intro _; rfl
      | cons g fs ih =>
        intro h
        have ih := ih fun f hf => h f (by simp [hf])
        rw [fill]
        split
        · rw [mapGet_entry, if_neg (h g (by simp))]; exact ih
        · split
          · exact ih
          · rw [mapGet_entry, if_neg (h g (by simp))]; exact ih
    rw [key _ fun f hf e => hno ⟨f, hf, e⟩] at hs
    cases hs

theorem eq_of_names {fs : List ProtoField} (h : (fs.map ProtoField.name).Nodup) {f g : ProtoField} (hf : f ∈ fs) (hg : g ∈ fs)
    (he : f.name = g.name) : f = g := by
  induction fs with
  | nil => cases hf
  | cons a fs ih =>
    rw [List.map_cons, List.nodup_cons] at h
    rcases List.mem_cons.1 hf with hf' | hf' <;> rcases List.mem_cons.1 hg with hg' | hg'
    · rw [hf', hg']
    · exact absurd (List.mem_map.2 ⟨g, hg', by rw [← he, hf']⟩) h.1
    · exact absurd (List.mem_map.2 ⟨f, hf', by rw [he, hg']⟩) h.1
    · exact ih h.2 hf' hg'

theorem wellTypedFields_get {l : List (Text × ProtoVal)} {fields : List ProtoField} (h : WellTypedFields L l fields)
    {n : Text} {p : ProtoVal} (hp : mapGet l n = some p) :
    ∃ f ∈ fields, f.name = n ∧ ∃ type, fieldType L f = some type ∧ WellTyped L p type := by
  induction l with
  | nil => cases hp
  | cons e l ih =>
    obtain ⟨m, q⟩ := e
    rw [WellTypedFields] at h
    rw [mapGet_entry] at hp
    split at hp
    · rename_i hm
      cases hp
      subst hm
      exact h.1
    · exact ih h.2 hp

/-- A field with a given value is of the type of the field. -/
theorem Shown.field (hG : GoodDescs L) {name : Text} {fields : List (Text × ProtoVal)} {out : List (Text × Val)}
    (h : Shown L name fields out) {f : ProtoField} (hf : f ∈ (L.desc name).fields) {p : ProtoVal}
    (hp : mapGet fields f.name = some p) : ∃ type, fieldType L f = some type ∧ WellTyped L p type := by
  have ht := h.typed
  rw [WellTyped] at ht
  obtain ⟨g, hg, hn, type, h1, h2⟩ := wellTypedFields_get ht.2.2.1 hp
  have he : g = f := eq_of_names (hG.names name) hg hf hn
  subst he
  exact ⟨type, h1, h2⟩

theorem fieldType_one {f : ProtoField} (h : f.repeated = false) : fieldType L f = some (.one f.kind) := by
  simp [fieldType, isMapField, h]

theorem fieldType_list {f : ProtoField} (h : f.repeated = true)
    (hm : ∀ n, f.kind = .message n → (L.desc n).mapEntry = false) : fieldType L f = some (.list f.kind) := by
  have hno : isMapField L f = false := by
    unfold isMapField
    rw [h, Bool.true_and]
    split
    · rename_i n hk
      exact hm n hk
    · rfl
  simp [fieldType, hno, h]

theorem zero_one {f : ProtoField} (h : f.repeated = false) : zero L f = match f.kind with
    | .bool => .bool false
    | .int32 | .int64 => .int 0
    | .uint32 | .uint64 => .uint 0
    | .float | .double => .float 0
    | .string => .str []
    | .bytes => .bytes []
    | .enum numbers => .int (numbers.headD 0)
    | .message n => .struct n [] := by
  unfold zero
  split
  · rename_i h'; rw [fieldType_one h] at h'; cases h'
  · rename_i h'; rw [fieldType_one h] at h'; cases h'
  · rfl

theorem zero_list {f : ProtoField} {kind : ProtoKind} (h : fieldType L f = some (.list kind)) : zero L f = .list [] := by
  unfold zero
  rw [h]

theorem Shown.text (hG : GoodDescs L) {name : Text} {fields : List (Text × ProtoVal)} {out : List (Text × Val)}
    (h : Shown L name fields out) {n : String} (hk : HasKind L name n .string false false) :
    HasField out n.toList (.str (textIn fields n)) := by
  obtain ⟨f, hf, hn, hkind, hr, hp⟩ := hk
  apply hasField_of
  unfold textIn
  rw [← hn]
  cases hg : mapGet fields f.name with
  | none =>
    rw [(h.given f hf).2 hg, hp]
    simp [zero_one hr, hkind]
  | some p =>
    obtain ⟨v, h1, h2⟩ := (h.given f hf).1 p hg
    obtain ⟨type, h3, h4⟩ := h.field hG hf hg
    rw [fieldType_one hr, hkind] at h3
    cases h3
    cases h2 <;> simp [WellTyped] at h4
    exact h1

theorem Shown.number (hG : GoodDescs L) {name : Text} {fields : List (Text × ProtoVal)} {out : List (Text × Val)}
    (h : Shown L name fields out) {n : String} {rest : List Int} (hk : HasKind L name n (.enum (0 :: rest)) false false) :
    HasField out n.toList (.int (numberIn fields n)) := by
  obtain ⟨f, hf, hn, hkind, hr, hp⟩ := hk
  apply hasField_of
  unfold numberIn
  rw [← hn]
  cases hg : mapGet fields f.name with
  | none =>
    rw [(h.given f hf).2 hg, hp]
    simp [zero_one hr, hkind]
  | some p =>
    obtain ⟨v, h1, h2⟩ := (h.given f hf).1 p hg
    obtain ⟨type, h3, h4⟩ := h.field hG hf hg
    rw [fieldType_one hr, hkind] at h3
    cases h3
    cases h2 <;> simp [WellTyped] at h4
    exact h1

theorem Shown.entries (hG : GoodDescs L) {name : Text} {fields : List (Text × ProtoVal)} {out : List (Text × Val)}
    (h : Shown L name fields out) {n : String} {kind : ProtoKind} (hk : HasKind L name n kind true false)
    (hm : ∀ n, kind = .message n → (L.desc n).mapEntry = false) :
    ∃ items, HasField out n.toList (.list items) ∧ SaysItems L (entriesIn fields n) items ∧
      WellTypedItems L (entriesIn fields n) kind := by
  obtain ⟨f, hf, hn, hkind, hr, hp⟩ := hk
  subst hkind
  have hty := fieldType_list hr hm
  unfold entriesIn
  rw [← hn]
  cases hg : mapGet fields f.name with
  | none =>
    refine ⟨[], hasField_of ?_, .nil, trivial⟩
    rw [(h.given f hf).2 hg, hp]
    simp [zero_list hty]
  | some p =>
    obtain ⟨v, h1, h2⟩ := (h.given f hf).1 p hg
    obtain ⟨type, h3, h4⟩ := h.field hG hf hg
    rw [hty] at h3
    cases h3
    cases h2 <;> simp [WellTyped] at h4
    rename_i hs
    exact ⟨_, hasField_of h1, hs, h4⟩

theorem Shown.message (hG : GoodDescs L) {name : Text} {fields : List (Text × ProtoVal)} {out : List (Text × Val)}
    (h : Shown L name fields out) {n : String} {inner : Text} (hk : HasKind L name n (.message inner) false true)
    (hord : Ordinary inner) :
    (messageIn fields n = none ∧ NoField out n.toList) ∨
    ∃ fs more, messageIn fields n = some fs ∧ HasField out n.toList (.struct inner more) ∧ Shown L inner fs more := by
  obtain ⟨f, hf, hn, hkind, hr, hp⟩ := hk
  unfold messageIn
  rw [← hn]
  cases hg : mapGet fields f.name with
  | none =>
    refine .inl ⟨rfl, noField_of ?_⟩
    rw [(h.given f hf).2 hg, hp]
    rfl
  | some p =>
    obtain ⟨v, h1, h2⟩ := (h.given f hf).1 p hg
    obtain ⟨type, h3, h4⟩ := h.field hG hf hg
    rw [fieldType_one hr, hkind] at h3
    cases h3
    obtain ⟨fs, rfl⟩ : ∃ fs, p = .message inner fs := by
      cases p <;> simp [WellTyped] at h4
      rename_i m fs
      exact ⟨fs, by rw [h4.1]⟩
    obtain ⟨more, rfl, h5⟩ := says_shown hG hord h4 h2
    exact .inr ⟨fs, more, rfl, hasField_of h1, h5⟩

theorem saysItems_length {l : List ProtoVal} {items : List Val} (h : SaysItems L l items) :
    items.isEmpty = l.isEmpty := by
  cases h <;> rfl

theorem ordinary_of {t : Text} (h : "envoy.".toList <+: t) : Ordinary t := by
  refine ⟨?_, ?_, ?_, ?_⟩ <;> (rintro rfl; revert h; decide)

/-- The entries of a list of `HeaderValueOption` stand for its headers. -/
theorem items_pairs (hG : GoodDescs L) (hE : EnvoyDescs L) {l : List ProtoVal} {items : List Val}
    (h : SaysItems L l items) (ht : WellTypedItems L l (.message optionName)) : Pairs items (l.filterMap headerOf) := by
  induction l generalizing items with
  | nil => cases h; exact .nil
  | cons p l ih =>
    rw [WellTypedItems] at ht
    cases h with
    | cons h1 h2 =>
      have hrest := ih h2 ht.2
      obtain ⟨fs, rfl⟩ : ∃ fs, p = .message optionName fs := by
        have := ht.1
        cases p <;> simp [WellTyped] at this
        rename_i m fs
        exact ⟨fs, by rw [this.1]⟩
      obtain ⟨out, rfl, hs⟩ := says_shown hG (ordinary_of (by decide)) ht.1 h1
      have hno : ∀ k v, ¬KeyValue out k v := by
        rintro k v ⟨hk, _⟩
        obtain ⟨f, hf, hn⟩ := hs.only _ (by rw [hasField_get hk]; rfl)
        exact hE.noKey f hf hn
      rcases hs.message hG hE.header (ordinary_of (by decide)) with ⟨h3, h4⟩ | ⟨inner, more, h3, h4, h5⟩
      · rw [List.filterMap_cons_none (by simp [headerOf, h3])]
        refine .other (fun k v hst => ?_) hrest
        cases hst with
        | keyValue hkv => exact hno _ _ hkv
        | header _ hf _ => exact h4 _ hf
      · rw [List.filterMap_cons_some (b := (textIn inner "key", textIn inner "value")) (by simp [headerOf, h3])]
        exact .entry (.header hno h4 ⟨h5.text hG hE.key, h5.text hG hE.value⟩) hrest

theorem option_noMap (hE : EnvoyDescs L) : ∀ n, ProtoKind.message optionName = .message n → (L.desc n).mapEntry = false := by
  rintro n ⟨⟩
  exact hE.noMaps

/-- A list of `HeaderValueOption` in a message. -/
theorem Shown.headers (hG : GoodDescs L) (hE : EnvoyDescs L) {name : Text} {fields : List (Text × ProtoVal)}
    {out : List (Text × Val)} (h : Shown L name fields out) {n : String}
    (hk : HasKind L name n (.message optionName) true false) :
    ∃ items, HasField out n.toList (.list items) ∧ Pairs items (headersIn fields n) ∧
      items.isEmpty = (entriesIn fields n).isEmpty := by
  obtain ⟨items, h1, h2, h3⟩ := h.entries hG hk (option_noMap hE)
  exact ⟨items, h1, items_pairs hG hE h2 h3, saysItems_length h2⟩

/-- The reply of the rate limiter. -/
theorem limit_shown (hG : GoodDescs L) (hE : EnvoyDescs L) {fields : List (Text × ProtoVal)} {out : List (Text × Val)}
    (h : Shown L limitName fields out) :
    ∃ items, ({ code := numberIn fields "overall_code", headers := items } : LimitReply).Is (.struct limitName out) ∧
      Pairs items (headersIn fields "response_headers_to_add") := by
  obtain ⟨items, h1, h2, _⟩ := h.headers hG hE hE.limitHeaders
  obtain ⟨rest, hc⟩ := hE.code
  exact ⟨items, ⟨_, _, rfl, h.number hG hc, h1⟩, h2⟩

/-- What a message of the authorization service says, as a value. -/
theorem check_shown (hG : GoodDescs L) (hE : EnvoyDescs L) {fields : List (Text × ProtoVal)} {out : List (Text × Val)}
    (h : Shown L checkName fields out) :
    ∃ r : CheckReply, r.Is (.struct checkName out) ∧
      (∀ p, mapGet fields "dynamic_metadata".toList = some p → ∃ v, r.metadata = some v ∧ Says L p v) ∧
      (mapGet fields "dynamic_metadata".toList = none → r.metadata = none) ∧
      ((∃ d, messageIn fields "denied_response" = some d ∧ ∃ status items, Pairs items (headersIn d "headers") ∧
          r.result = .denied status items (textIn d "body") ∧
          status = (messageIn d "status").map fun s => numberIn s "code") ∨
       (messageIn fields "denied_response" = none ∧ ∃ k, messageIn fields "ok_response" = some k ∧
          ∃ ok : OkReply, r.result = .ok ok ∧ Pairs ok.headers (headersIn k "headers") ∧
            ok.responseHeaders.isEmpty = (entriesIn k "response_headers_to_add").isEmpty ∧
            ok.removedHeaders.isEmpty = (entriesIn k "headers_to_remove").isEmpty ∧
            ok.setParameters.isEmpty = (entriesIn k "query_parameters_to_set").isEmpty ∧
            ok.removedParameters.isEmpty = (entriesIn k "query_parameters_to_remove").isEmpty) ∨
       (messageIn fields "denied_response" = none ∧ messageIn fields "ok_response" = none ∧ r.result = .absent)) := by
  obtain ⟨extra, hm1, hm2, hm3⟩ : ∃ extra : Option Val, (match extra with
      | none => NoField out "dynamic_metadata".toList
      | some m => HasField out "dynamic_metadata".toList m) ∧
      (∀ p, mapGet fields "dynamic_metadata".toList = some p → ∃ v, extra = some v ∧ Says L p v) ∧
      (mapGet fields "dynamic_metadata".toList = none → extra = none) := by
    obtain ⟨f, hf, hn, _, _, hp⟩ := hE.metadata
    rw [← hn]
    cases hg : mapGet fields f.name with
    | none =>
      refine ⟨none, noField_of ?_, fun p hp => (by cases hp), fun _ => rfl⟩
      rw [(h.given f hf).2 hg, hp]
      rfl
    | some p =>
      obtain ⟨v, h1, h2⟩ := (h.given f hf).1 p hg
      exact ⟨some v, hasField_of h1, fun q hq => (by cases hq; exact ⟨v, rfl, h2⟩), fun h => (by cases h)⟩
  rcases h.message hG hE.denied (ordinary_of (by decide)) with ⟨h1, h2⟩ | ⟨d, more, h1, h2, h3⟩
  · rcases h.message hG hE.ok (ordinary_of (by decide)) with ⟨h4, h5⟩ | ⟨k, more, h4, h5, h6⟩
    · exact ⟨{ result := .absent, metadata := extra }, ⟨_, _, rfl, ⟨h2, h5⟩, hm1⟩, hm2, hm3, .inr (.inr ⟨h1, h4, rfl⟩)⟩
    · obtain ⟨hs, a1, a2, _⟩ := h6.headers hG hE hE.okHeaders
      obtain ⟨rh, b1, _, b2⟩ := h6.headers hG hE hE.responseHeaders
      obtain ⟨rm, c1, c2, _⟩ := h6.entries hG hE.removed (by intro n hn; cases hn)
      obtain ⟨n, hsp, hno⟩ := hE.setParameters
      obtain ⟨sp, d1, d2, _⟩ := h6.entries hG hsp (by rintro m ⟨⟩; exact hno)
      obtain ⟨rp, e1, e2, _⟩ := h6.entries hG hE.removedParameters (by intro n hn; cases hn)
      refine ⟨{ result := .ok { headers := hs, responseHeaders := rh, removedHeaders := rm, setParameters := sp,
                                removedParameters := rp }, metadata := extra },
        ⟨_, _, rfl, ⟨h2, _, _, h5, a1, b1, c1, d1, e1⟩, hm1⟩, hm2, hm3, .inr (.inl ⟨h1, k, h4, _, rfl, a2, b2,
          saysItems_length c2, saysItems_length d2, saysItems_length e2⟩)⟩
  · have hnok : NoField out "ok_response".toList := by
      rcases h.message hG hE.ok (ordinary_of (by decide)) with ⟨h4, h5⟩ | ⟨k, _, h4, _, _⟩
      · exact h5
      · exfalso
        have ht := h.typed
        rw [WellTyped] at ht
        obtain ⟨f, hf, hfn, _⟩ := hE.denied
        obtain ⟨g, hg, hgn, _⟩ := hE.ok
        obtain ⟨kind, hone⟩ := hE.oneof
        have hof := hone f hf (.inl hfn)
        have hog := hone g hg (.inr hgn)
        have hin : ∀ {n : String} {x}, messageIn fields n = some x → n.toList ∈ names fields := by
          intro n x hx
          apply mapGet_isSome_names.1
          unfold messageIn at hx
          cases hq : mapGet fields n.toList with
          | none => rw [hq] at hx; cases hx
          | some _ => rfl
        have := ht.2.2.2 f hf g hg (by rw [hfn]; exact hin h1) (by rw [hgn]; exact hin h4) (by rw [hof]; rfl)
          (by rw [hog, hof])
        rw [hfn, hgn] at this
        exact absurd this (by decide)
    obtain ⟨items, a1, a2, _⟩ := h3.headers hG hE hE.deniedHeaders
    have hb := h3.text hG hE.body
    rcases h3.message hG hE.status (ordinary_of (by decide)) with ⟨h4, h5⟩ | ⟨st, more', h4, h5, h6⟩
    · refine ⟨{ result := .denied none items (textIn d "body"), metadata := extra },
        ⟨_, _, rfl, ⟨hnok, _, _, h2, a1, hb, h5⟩, hm1⟩, hm2, hm3, .inl ⟨d, h1, _, items, a2, rfl, ?_⟩⟩
      rw [h4]; rfl
    · obtain ⟨rest, hc⟩ := hE.statusCode
      refine ⟨{ result := .denied (some (numberIn st "code")) items (textIn d "body"), metadata := extra },
        ⟨_, _, rfl, ⟨hnok, _, _, h2, a1, hb, _, _, h5, h6.number hG hc⟩, hm1⟩, hm2, hm3, .inl ⟨d, h1, _, items, a2, rfl, ?_⟩⟩
      rw [h4]; rfl

end Verif
