import Verif.Lemmas.Legacy
import Verif.Lemmas.Descriptors
import Verif.Lemmas.Store
/-! How the request to the authorization service is read. -/
set_option linter.unusedSimpArgs false
set_option linter.unusedVariables false
namespace Verif.Legacy
open Cel Parser

/-! ### Request data by domain -/

/-- The entries of a domain. -/
def entriesOf (data : RequestData) (dom : Text) : List (Text × Text) :=
  (data.filter fun d => domainName d.1.1 = dom).map fun d => (d.1.2, d.2)

theorem entriesOf_append (a b : RequestData) (dom : Text) :
    entriesOf (a ++ b) dom = entriesOf a dom ++ entriesOf b dom := by simp [entriesOf]

theorem groups (data : RequestData) :
    UniqueKeys (data.foldl group []) ∧
    ∀ dom, mapGet (data.foldl group []) dom = if entriesOf data dom = [] then none else some (entriesOf data dom) := by
  refine snoc_ind (P := fun data => UniqueKeys (data.foldl group []) ∧
    ∀ dom, mapGet (data.foldl group []) dom = if entriesOf data dom = [] then none else some (entriesOf data dom))
    ⟨List.nodup_nil, fun dom => rfl⟩ ?_ data
  intro data d ih
  rw [List.foldl_append]
  refine ⟨uniqueKeys_mapInsert ih.1 _ _, fun dom => ?_⟩
  show mapGet (mapInsert _ _ _) dom = _
  rw [mapGet_mapInsert, entriesOf_append, ← domainName_eq]
  have h1 : entriesOf [d] dom = if dom = domainName d.1.1 then [(d.1.2, d.2)] else [] := by
    unfold entriesOf
    by_cases h : dom = domainName d.1.1
    · simp [h]
    · have h' : ¬domainName d.1.1 = dom := fun e => h e.symm
      simp [h, h']
  rw [h1]
  by_cases h : dom = domainName d.1.1
  · rw [if_pos h, if_pos h, if_neg (by simp), ← h, ih.2]
    by_cases he : entriesOf data dom = []
    · simp [he]
    · simp [he]
  · rw [if_neg h, if_neg h, ih.2, List.append_nil]

theorem entriesOf_ne {data : RequestData} {dom : Text} :
    entriesOf data dom ≠ [] ↔ ∃ d ∈ data, domainName d.1.1 = dom := by
  unfold entriesOf
  rw [ne_eq, List.map_eq_nil_iff, List.filter_eq_nil_iff]
  simp

theorem byDomain_eq (data : RequestData) :
    ∃ domains, Domains data domains ∧ byDomain data = domains.map fun dom => (dom, entriesOf data dom) := by
  obtain ⟨hu, hg⟩ := groups data
  have hperm : (byDomain data).Perm (data.foldl group []) := List.mergeSort_perm _ _
  have hmem : ∀ e ∈ byDomain data, mapGet (data.foldl group []) e.1 = some e.2 := fun e he =>
    (mapGet_iff hu e.1 e.2).2 (hperm.mem_iff.1 he)
  refine ⟨(byDomain data).map Prod.fst, ⟨?_, fun dom => ?_⟩, ?_⟩
  · have hs : (byDomain data).Pairwise fun a b => textLe a.1 b.1 = true :=
      List.pairwise_mergeSort (fun a b c => textLe_trans a.1 b.1 c.1) (fun a b => textLe_total a.1 b.1) _
    have hn : ((byDomain data).map Prod.fst).Nodup := (hperm.map Prod.fst).nodup_iff.2 hu
    have hs' : ((byDomain data).map Prod.fst).Pairwise fun a b => textLe a b = true := List.pairwise_map.2 hs
    exact hs'.and hn
  · rw [← entriesOf_ne]
    constructor
    · intro h
      obtain ⟨e, he, rfl⟩ := List.mem_map.1 h
      have := hmem e he
      rw [hg] at this
      intro h0
      rw [if_pos h0] at this
      exact nomatch this
    · intro h
      have := hg dom
      rw [if_neg h] at this
      exact List.mem_map.2 ⟨_, hperm.mem_iff.2 ((mapGet_iff hu _ _).1 this), rfl⟩
  · rw [List.map_map]
    have : ∀ e ∈ byDomain data, ((fun dom => (dom, entriesOf data dom)) ∘ Prod.fst) e = e := by
      intro e he
      have h := hmem e he
      rw [hg] at h
      split at h
      · exact nomatch h
      · cases e; simp at h ⊢; exact h
    exact (List.map_id' (byDomain data)).symm.trans (List.map_congr_left fun e he => (this e he).symm)

attribute [local irreducible] quoted

/-! ### Messages without blanks around the braces -/

theorem written_compact {first : Text} {names : List Text} {head : Text}
    (hh : Seg head (.ident first :: dots names ++ [.sym .lbrace])) {ts : List Text} {fs : List (Text × Ast)}
    (h : Each Field ts fs) :
    Written 8 (head ++ join (lit ", ") ts ++ lit "}") (.message (path first names) fs) :=
  written_message hh seg_comma ends_rbrace (tail := []) (seg_of rfl) h

theorem written_compact1 {first : Text} {names : List Text} {head label name : Text}
    (hh : Seg head (.ident first :: dots names ++ [.sym .lbrace])) (hl : Seg label [.ident name, .sym .colon])
    {t : Text} {a : Ast} (h : Written 1 t a) :
    Written 8 (head ++ (label ++ t) ++ lit "}") (.message (path first names) [(name, a)]) := by
  have := written_compact hh (.cons (field hl h) .nil)
  simpa only [join] using this

theorem written_pbString {t : Text} {a : Ast} (h : Written 1 t a) :
    Written 8 (lit "google.protobuf.Value{string_value: " ++ t ++ lit "}")
      (message "google" ["protobuf", "Value"] [("string_value", a)]) := by
  have := written_compact1 (first := lit "google") (names := ["protobuf", "Value"].map String.toList)
    (head := lit "google.protobuf.Value{") (label := lit "string_value: ") (name := lit "string_value")
    (seg_of (by decide +kernel)) (seg_of (by decide +kernel)) h
  have h1 : lit "google.protobuf.Value{string_value: " = lit "google.protobuf.Value{" ++ lit "string_value: " := by
    decide +kernel
  rw [h1]
  simp only [List.append_assoc] at this ⊢
  exact this

theorem written_pbStruct {ts : List Text} {as : List (Ast × Ast)} (h : Each MapEntry ts as) :
    Written 8 (lit "google.protobuf.Struct{fields: {" ++ join (lit ", ") ts ++ lit "}}")
      (message "google" ["protobuf", "Struct"] [("fields", .map as)]) := by
  have := written_compact1 (first := lit "google") (names := ["protobuf", "Struct"].map String.toList)
    (head := lit "google.protobuf.Struct{") (label := lit "fields: ") (name := lit "fields")
    (seg_of (by decide +kernel)) (seg_of (by decide +kernel)) ((written_map h).lift (by decide) (by decide))
  have h1 : lit "google.protobuf.Struct{fields: {" = lit "google.protobuf.Struct{" ++ (lit "fields: " ++ lit "{") := by
    decide +kernel
  have h2 : lit "}}" = lit "}" ++ lit "}" := by decide +kernel
  rw [h1, h2]
  simp only [List.append_assoc] at this ⊢
  exact this

theorem written_requestValue {P : Text → Ast} {e : Text} (h : Proper P e) :
    Written 8 (requestValue e) (requestValueAst P e) := by
  unfold requestValue requestValueAst
  by_cases hc : contains (lit "auth.") e = true
  · rw [if_pos hc, if_pos (show "auth.".toList <:+: e from (contains_iff _ _).1 hc)]
    have h1 := written_pbStruct (.cons (mapEntry ((written_quoted (lit "cel_expr")).lift (m := 1) (by decide) (by decide))
      ((written_pbString ((written_quoted e).lift (m := 1) (by decide) (by decide))).lift (m := 1) (by decide) (by decide))) .nil)
    have := written_compact1 (first := lit "google") (names := ["protobuf", "Value"].map String.toList)
      (head := lit "google.protobuf.Value{") (label := lit "struct_value: ") (name := lit "struct_value")
      (seg_of (by decide +kernel)) (seg_of (by decide +kernel)) (h1.lift (m := 1) (by decide) (by decide))
    have h2 : lit "google.protobuf.Value{struct_value: google.protobuf.Struct{fields: {\"cel_expr\": google.protobuf.Value{string_value: " =
        lit "google.protobuf.Value{" ++ (lit "struct_value: " ++ (lit "google.protobuf.Struct{fields: {" ++
          (quoted (lit "cel_expr") ++ (lit ": " ++ lit "google.protobuf.Value{string_value: ")))) := by
      decide +kernel
    have h3 : lit "}}}}" = lit "}" ++ (lit "}}" ++ lit "}") := by decide +kernel
    rw [h2, h3]
    simp only [List.append_assoc, join] at this ⊢
    exact this
  · rw [if_neg hc, if_neg (show ¬"auth.".toList <:+: e from fun h => hc ((contains_iff _ _).2 h))]
    have := written_pbString ((written_string (sound_written h)).lift (m := 1) (by decide) (by decide))
    have h1 : lit "google.protobuf.Value{string_value: string(" = lit "google.protobuf.Value{string_value: " ++ lit "string(" := by
      decide +kernel
    have h2 : lit ")}" = lit ")" ++ lit "}" := by decide +kernel
    rw [h1, h2]
    simp only [List.append_assoc] at this ⊢
    exact this

theorem mapEntry_domain {P : Text → Ast} {data : RequestData} (h : ∀ d ∈ data, Proper P d.2) (dom : Text) :
    MapEntry (domainEntry (dom, entriesOf data dom))
      (string dom, message "google" ["protobuf", "Struct"] [
          ("fields", .map ((data.filter fun d => domainName d.1.1 = dom).map fun d =>
            (string d.1.2, requestValueAst P d.2)))]) := by
  have he : Each MapEntry ((entriesOf data dom).map fun f => quoted f.1 ++ lit ": " ++ requestValue f.2)
      ((data.filter fun d => domainName d.1.1 = dom).map fun d => (string d.1.2, requestValueAst P d.2)) := by
    unfold entriesOf
    rw [List.map_map]
    exact each_map (R := MapEntry) ((fun f : Text × Text => quoted f.1 ++ lit ": " ++ requestValue f.2) ∘ fun d : (Text × Text) × Text => (d.1.2, d.2))
      (fun d => (string d.1.2, requestValueAst P d.2)) fun d hd =>
      mapEntry ((written_quoted d.1.2).lift (by decide) (by decide))
        ((written_requestValue (h d (List.mem_filter.1 hd).1)).lift (by decide) (by decide))
  have := mapEntry ((written_quoted dom).lift (m := 1) (by decide) (by decide))
    ((written_pbStruct he).lift (m := 1) (by decide) (by decide))
  have h1 : lit ": google.protobuf.Struct{fields: {" = lit ": " ++ lit "google.protobuf.Struct{fields: {" := by decide +kernel
  unfold domainEntry
  rw [h1]
  simp only [List.append_assoc] at this ⊢
  exact this

theorem written_metadata {P : Text → Ast} {data : RequestData} (h : ∀ d ∈ data, Proper P d.2) :
    ∃ domains, Domains data domains ∧ Written 8 (metadataContext data) (metadataAst P domains data) := by
  obtain ⟨domains, hd, he⟩ := byDomain_eq data
  refine ⟨domains, hd, ?_⟩
  unfold metadataContext metadataAst
  by_cases hn : data.isEmpty = true
  · rw [if_pos hn, if_pos hn]
    have := written_compact (first := lit "envoy") (names := ["config", "core", "v3", "Metadata"].map String.toList)
      (head := lit "envoy.config.core.v3.Metadata{") (seg_of (by decide +kernel)) .nil
    have h1 : lit "envoy.config.core.v3.Metadata{}" = lit "envoy.config.core.v3.Metadata{" ++ join (lit ", ") [] ++ lit "}" := by
      decide +kernel
    rw [h1]
    exact this
  · rw [if_neg hn, if_neg hn, he, List.map_map]
    have hm := written_map (each_map (R := MapEntry) (domainEntry ∘ fun dom => (dom, entriesOf data dom)) _ (as := domains)
      fun dom _ => mapEntry_domain h dom)
    have := written_compact1 (first := lit "envoy") (names := ["config", "core", "v3", "Metadata"].map String.toList)
      (head := lit "envoy.config.core.v3.Metadata{") (label := lit "filter_metadata: ") (name := lit "filter_metadata")
      (seg_of (by decide +kernel)) (seg_of (by decide +kernel)) (hm.lift (m := 1) (by decide) (by decide))
    have h1 : lit "envoy.config.core.v3.Metadata{filter_metadata: {" =
        lit "envoy.config.core.v3.Metadata{" ++ (lit "filter_metadata: " ++ lit "{") := by decide +kernel
    have h2 : lit "}}" = lit "}" ++ lit "}" := by decide +kernel
    rw [h1, h2]
    simp only [List.append_assoc] at this ⊢
    exact this

/-! ### The request -/

theorem fld {name : String} {toks : List Token} {a : Ast} (h : Reads 8 toks a) :
    Item (fun K => Cel.entry fieldName (expr K)) .rbrace (.ident name.toList :: .sym .colon :: toks) (name.toList, a) :=
  item_field (h.lift (by decide) (by decide))

theorem msg {first : String} {names : List String} {tks : List (List Token)} {fs : List (Text × Ast)}
    (h : Each (Item (fun K => Cel.entry fieldName (expr K)) .rbrace) tks fs) :
    Reads 8 (.ident first.toList :: dots (names.map String.toList) ++ .sym .lbrace :: commas tks ++ [.sym .rbrace])
      (.message (path first.toList (names.map String.toList)) fs) :=
  reads_message (items_commas (by decide) h)

def peerToks (side : String) : List Token :=
  .ident (lit "envoy") :: dots (["service", "auth", "v3", "AttributeContext", "Peer"].map String.toList) ++ .sym .lbrace ::
    commas [.ident (lit "address") :: .sym .colon ::
      (.ident (lit "envoy") :: dots (["config", "core", "v3", "Address"].map String.toList) ++ .sym .lbrace ::
        commas [.ident (lit "socket_address") :: .sym .colon ::
          (.ident (lit "envoy") :: dots (["config", "core", "v3", "SocketAddress"].map String.toList) ++ .sym .lbrace ::
            commas [.ident (lit "address") :: .sym .colon :: (.ident side.toList :: dots [lit "address"]),
              .ident (lit "port_value") :: .sym .colon :: (.ident (lit "uint") :: .sym .lpar ::
                (.ident side.toList :: dots [lit "port"]) ++ [.sym .rpar])] ++ [.sym .rbrace])] ++ [.sym .rbrace])]
      ++ [.sym .rbrace]

theorem reads_peer (side : String) : Reads 8 (peerToks side) (peerAst side) :=
  msg (first := "envoy") (names := ["service", "auth", "v3", "AttributeContext", "Peer"]) <|
    .cons (fld (name := "address") (msg (first := "envoy") (names := ["config", "core", "v3", "Address"]) <|
      .cons (fld (name := "socket_address") (msg (first := "envoy") (names := ["config", "core", "v3", "SocketAddress"]) <|
        .cons (fld (name := "address") (reads_path side.toList [lit "address"])) <|
        .cons (fld (name := "port_value") (reads_call (name := lit "uint") (items_one (item_expr (.inl rfl)
          ((reads_path side.toList [lit "port"]).lift (by decide) (by decide)))))) .nil)) .nil)) .nil

def httpField (f : String) : List Token := .ident f.toList :: .sym .colon :: (.ident (lit "request") :: dots [f.toList])

def requestToks : List Token :=
  .ident (lit "envoy") :: dots (["service", "auth", "v3", "AttributeContext", "Request"].map String.toList) ++ .sym .lbrace ::
    commas [httpField "time", .ident (lit "http") :: .sym .colon ::
      (.ident (lit "envoy") :: dots (["service", "auth", "v3", "AttributeContext", "HttpRequest"].map String.toList) ++ .sym .lbrace ::
        commas (["host", "method", "scheme", "path", "protocol", "headers"].map httpField) ++ [.sym .rbrace])]
      ++ [.sym .rbrace]

theorem item_http (f : String) :
    Item (fun K => Cel.entry fieldName (expr K)) .rbrace (httpField f) (f.toList, path (lit "request") [f.toList]) :=
  fld (name := f) (reads_path (lit "request") [f.toList])

theorem reads_httpRequest : Reads 8 requestToks httpRequestAst := by
  have h : Each (Item (fun K => Cel.entry fieldName (expr K)) .rbrace)
      (["host", "method", "scheme", "path", "protocol", "headers"].map httpField)
      (["host", "method", "scheme", "path", "protocol", "headers"].map fun f => (f.toList, path (lit "request") [f.toList])) :=
    each_map _ _ fun f _ => item_http f
  exact msg (first := "envoy") (names := ["service", "auth", "v3", "AttributeContext", "Request"]) <|
    .cons (item_http "time") <| .cons (fld (name := "http") (msg (first := "envoy")
      (names := ["service", "auth", "v3", "AttributeContext", "HttpRequest"]) h)) .nil

/-- The tokens before the host. -/
def authHeadToks : List Token :=
  .ident (lit "envoy") :: dots (["service", "auth", "v3", "CheckRequest"].map String.toList) ++ .sym .lbrace ::
    .ident (lit "attributes") :: .sym .colon ::
    .ident (lit "envoy") :: dots (["service", "auth", "v3", "AttributeContext"].map String.toList) ++ .sym .lbrace ::
    .ident (lit "request") :: .sym .colon :: requestToks ++ .sym .comma ::
    .ident (lit "destination") :: .sym .colon :: peerToks "destination" ++ .sym .comma ::
    .ident (lit "source") :: .sym .colon :: peerToks "source" ++ .sym .comma ::
    .ident (lit "context_extensions") :: .sym .colon :: .sym .lbrace :: .str false (lit "host") :: [.sym .colon]

/-- The tokens line by line. -/
def authLines : List (List Token) := [
  [.ident (lit "envoy"), .sym .dot, .ident (lit "service"), .sym .dot, .ident (lit "auth"), .sym .dot, .ident (lit "v3"), .sym .dot, .ident (lit "CheckRequest"), .sym .lbrace],
  [.ident (lit "attributes"), .sym .colon, .ident (lit "envoy"), .sym .dot, .ident (lit "service"), .sym .dot, .ident (lit "auth"), .sym .dot, .ident (lit "v3"), .sym .dot, .ident (lit "AttributeContext"), .sym .lbrace],
  [.ident (lit "request"), .sym .colon, .ident (lit "envoy"), .sym .dot, .ident (lit "service"), .sym .dot, .ident (lit "auth"), .sym .dot, .ident (lit "v3"), .sym .dot, .ident (lit "AttributeContext"), .sym .dot, .ident (lit "Request"), .sym .lbrace],
  [.ident (lit "time"), .sym .colon, .ident (lit "request"), .sym .dot, .ident (lit "time"), .sym .comma],
  [.ident (lit "http"), .sym .colon, .ident (lit "envoy"), .sym .dot, .ident (lit "service"), .sym .dot, .ident (lit "auth"), .sym .dot, .ident (lit "v3"), .sym .dot, .ident (lit "AttributeContext"), .sym .dot, .ident (lit "HttpRequest"), .sym .lbrace],
  [.ident (lit "host"), .sym .colon, .ident (lit "request"), .sym .dot, .ident (lit "host"), .sym .comma],
  [.ident (lit "method"), .sym .colon, .ident (lit "request"), .sym .dot, .ident (lit "method"), .sym .comma],
  [.ident (lit "scheme"), .sym .colon, .ident (lit "request"), .sym .dot, .ident (lit "scheme"), .sym .comma],
  [.ident (lit "path"), .sym .colon, .ident (lit "request"), .sym .dot, .ident (lit "path"), .sym .comma],
  [.ident (lit "protocol"), .sym .colon, .ident (lit "request"), .sym .dot, .ident (lit "protocol"), .sym .comma],
  [.ident (lit "headers"), .sym .colon, .ident (lit "request"), .sym .dot, .ident (lit "headers")],
  [.sym .rbrace],
  [.sym .rbrace, .sym .comma],
  [.ident (lit "destination"), .sym .colon, .ident (lit "envoy"), .sym .dot, .ident (lit "service"), .sym .dot, .ident (lit "auth"), .sym .dot, .ident (lit "v3"), .sym .dot, .ident (lit "AttributeContext"), .sym .dot, .ident (lit "Peer"), .sym .lbrace],
  [.ident (lit "address"), .sym .colon, .ident (lit "envoy"), .sym .dot, .ident (lit "config"), .sym .dot, .ident (lit "core"), .sym .dot, .ident (lit "v3"), .sym .dot, .ident (lit "Address"), .sym .lbrace],
  [.ident (lit "socket_address"), .sym .colon, .ident (lit "envoy"), .sym .dot, .ident (lit "config"), .sym .dot, .ident (lit "core"), .sym .dot, .ident (lit "v3"), .sym .dot, .ident (lit "SocketAddress"), .sym .lbrace],
  [.ident (lit "address"), .sym .colon, .ident (lit "destination"), .sym .dot, .ident (lit "address"), .sym .comma],
  [.ident (lit "port_value"), .sym .colon, .ident (lit "uint"), .sym .lpar, .ident (lit "destination"), .sym .dot, .ident (lit "port"), .sym .rpar],
  [.sym .rbrace],
  [.sym .rbrace],
  [.sym .rbrace, .sym .comma],
  [.ident (lit "source"), .sym .colon, .ident (lit "envoy"), .sym .dot, .ident (lit "service"), .sym .dot, .ident (lit "auth"), .sym .dot, .ident (lit "v3"), .sym .dot, .ident (lit "AttributeContext"), .sym .dot, .ident (lit "Peer"), .sym .lbrace],
  [.ident (lit "address"), .sym .colon, .ident (lit "envoy"), .sym .dot, .ident (lit "config"), .sym .dot, .ident (lit "core"), .sym .dot, .ident (lit "v3"), .sym .dot, .ident (lit "Address"), .sym .lbrace],
  [.ident (lit "socket_address"), .sym .colon, .ident (lit "envoy"), .sym .dot, .ident (lit "config"), .sym .dot, .ident (lit "core"), .sym .dot, .ident (lit "v3"), .sym .dot, .ident (lit "SocketAddress"), .sym .lbrace],
  [.ident (lit "address"), .sym .colon, .ident (lit "source"), .sym .dot, .ident (lit "address"), .sym .comma],
  [.ident (lit "port_value"), .sym .colon, .ident (lit "uint"), .sym .lpar, .ident (lit "source"), .sym .dot, .ident (lit "port"), .sym .rpar],
  [.sym .rbrace],
  [.sym .rbrace],
  [.sym .rbrace, .sym .comma],
  [.ident (lit "context_extensions"), .sym .colon, .sym .lbrace, .str false (lit "host"), .sym .colon]]

theorem seg_flatten {ls : List Text} {tks : List (List Token)} (h : Each Seg ls tks) : Seg ls.flatten tks.flatten := by
  induction h with
  | nil => exact seg_of rfl
  | cons h _ ih => exact h.append ih

theorem authLines_flatten : authLines.flatten = authHeadToks := by decide +kernel

theorem seg_authHead : Seg authMessageHead authHeadToks := by
  rw [← authLines_flatten]
  refine seg_flatten ?_
  unfold authLines
  repeat' refine .cons (seg_of (by decide +kernel)) ?_
  exact .nil

theorem written_auth {P : Text → Ast} {data : RequestData} (h : ∀ d ∈ requestOnly data, Proper P d.2) (scope : Text) :
    ∃ domains, Domains (requestOnly data) domains ∧
      Written 8 (authMessage scope data) (authAst P scope domains (requestOnly data)) := by
  obtain ⟨domains, hd, mt, hm, hr⟩ := written_metadata h
  refine ⟨domains, hd, ?_⟩
  have hhost : Reads 8 (.sym .lbrace :: commas [[.str false (lit "host")] ++ .sym .colon :: [.str false scope]] ++ [.sym .rbrace])
      (.map [(string (lit "host"), string scope)]) :=
    reads_map (items_commas (by decide) (.cons (item_entry ((reads_str false (lit "host")).lift (by decide) (by decide))
      ((reads_str false scope).lift (by decide) (by decide))) .nil))
  have hall := msg (first := "envoy") (names := ["service", "auth", "v3", "CheckRequest"]) <|
    .cons (fld (name := "attributes") (msg (first := "envoy") (names := ["service", "auth", "v3", "AttributeContext"]) <|
      .cons (fld (name := "request") reads_httpRequest) <|
      .cons (fld (name := "destination") (reads_peer "destination")) <|
      .cons (fld (name := "source") (reads_peer "source")) <|
      .cons (fld (name := "context_extensions") hhost) <|
      .cons (fld (name := "metadata_context") hr) .nil)) .nil
  have s1 : Seg (lit "},\n    metadata_context: ") [.sym .rbrace, .sym .comma, .ident (lit "metadata_context"), .sym .colon] :=
    seg_of (by decide +kernel)
  have e1 : lit "},\n    metadata_context: " = '}' :: lit ",\n    metadata_context: " := by decide +kernel
  have s2 : Seg ('\n' :: lit "  }\n}") [.sym .rbrace, .sym .rbrace] := seg_of (by decide +kernel)
  have e2 : lit "\n  }\n}" = '\n' :: lit "  }\n}" := by decide +kernel
  rw [e1] at s1
  have hseg := seg_authHead.append ((frag_quoted scope).then ends_rbrace s1)
  have hfin := hseg.append (hm.then ends_newline s2)
  refine ⟨_, ?_, hall⟩
  have htext : authMessage scope data = authMessageHead ++ (quoted scope ++ '}' :: lit ",\n    metadata_context: ") ++
      (metadataContext (requestOnly data) ++ '\n' :: lit "  }\n}") := by
    unfold authMessage
    rw [e1, e2]
    simp only [List.append_assoc]
  rw [htext]
  refine cast ?_ hfin.frag
  congr 1
  simp only [authHeadToks, commas, List.append_assoc, List.cons_append, List.nil_append]
  rfl

end Verif.Legacy
