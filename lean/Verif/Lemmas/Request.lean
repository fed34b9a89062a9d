import Verif.Spec.Request
import Verif.Lemmas.Store
/-!
Values of the messages that translated actions send.
-/
namespace Verif.Legacy
open Cel

theorem each_both {α β γ δ : Type} {R : α → β → Prop} {S : γ → δ → Prop} (f : α → γ) (g : β → δ)
    (hf : ∀ a b, R a b → S (f a) (g b)) {as : List α} {bs : List β} (h : Each R as bs) : Each S (as.map f) (bs.map g) := by
  induction h with
  | nil => exact .nil
  | cons h _ ih => exact .cons (hf _ _ h) ih

theorem each_join {α β : Type} {R : α → β → Prop} {as as' : List α} {bs bs' : List β} (h : Each R as bs)
    (h' : Each R as' bs') : Each R (as ++ as') (bs ++ bs') := by
  induction h with
  | nil => exact h'
  | cons h _ ih => exact .cons h ih

variable {E : Ast → Option Val} (hE : Evaluator E) {P : Text → Ast}
include hE

theorem value_message (pkg : String) (names : List String) (name : String) (fields : List (String × Ast))
    (vals : List (Text × Val)) (hn : typeName pkg.toList (names.map String.toList) = name.toList)
    (h : Each (fun f v => f.1.toList = v.1 ∧ E f.2 = some v.2) fields vals) :
    E (message pkg names fields) = some (.struct name.toList vals) := by
  unfold message
  rw [hE.message _ _ _ vals, hn]
  have := each_both (S := fun (f : Text × Ast) (v : Text × Val) => f.1 = v.1 ∧ E f.2 = some v.2)
    (fun f : String × Ast => (f.1.toList, f.2)) id (fun a b h => h) h
  rwa [List.map_id] at this

theorem value_messageOf (pkg : String) (names : List String) (name : String) (fields : List (String × Ast))
    (vals : List (String × Val)) (hn : typeName pkg.toList (names.map String.toList) = name.toList)
    (h : Each (fun f v => f.1 = v.1 ∧ E f.2 = some v.2) fields vals) :
    E (message pkg names fields) = some (messageOf name vals) := by
  refine value_message hE pkg names name fields _ hn ?_
  have := each_both (S := fun (f : String × Ast) (v : Text × Val) => f.1.toList = v.1 ∧ E f.2 = some v.2) id
    (fun v : String × Val => (v.1.toList, v.2)) (fun a b h => ⟨congrArg _ h.1, h.2⟩) h
  rwa [List.map_id] at this

def entryValue (e : Text × Text) : Val :=
  .struct "envoy.extensions.common.ratelimit.v3.RateLimitDescriptor.Entry".toList [
    ("key".toList, .str e.1), ("value".toList, .str e.2)]

def descriptorValue (d : List (Text × Text)) : Val :=
  .struct "envoy.extensions.common.ratelimit.v3.RateLimitDescriptor".toList [
    ("entries".toList, .list (d.map entryValue))]

theorem value_entry (key t : Text) (value : Ast) (h : E value = some (.str t)) :
    E (entryAst key value) = some (entryValue (key, t)) :=
  value_message hE _ _ _ _ _ (by decide +kernel) (.cons ⟨rfl, hE.string _⟩ (.cons ⟨rfl, h⟩ .nil))

theorem value_item {i : DataItem} {e : Text × Text} (h : ItemEntry E P i e) :
    E (itemAst P i) = some (entryValue e) := by
  cases h with
  | static k v => exact value_entry hE _ _ _ (hE.string _)
  | expression hv ht => exact value_entry hE _ _ _ (hE.text _ _ _ hv ht)

theorem value_data {d : (Text × Text) × Text} {e : Text × Text} (h : DataEntry E P d e) :
    E (requestEntryAst P d) = some (entryValue e) := by
  obtain ⟨k, t⟩ := e
  obtain ⟨hk, v, hv, ht⟩ := h
  simp only at hk ht
  subst hk
  exact value_entry hE _ _ _ (hE.text _ _ _ hv ht)

theorem allOf_stays (as : List Ast) (a : Ast) (h : E a = some (.bool false)) :
    E (as.foldl (.binary .and) a) = some (.bool false) := by
  induction as generalizing a with
  | nil => exact h
  | cons b as ih => exact ih _ (hE.neither _ _ (.inl h))

theorem allOf_becomes (as : List Ast) (a b : Ast) (hb : b ∈ as) (h : E b = some (.bool false)) :
    E (as.foldl (.binary .and) a) = some (.bool false) := by
  induction as generalizing a with
  | nil => exact nomatch hb
  | cons d as ih =>
    rcases List.mem_cons.1 hb with rfl | hb
    · exact allOf_stays hE as _ (hE.neither _ _ (.inr h))
    · exact ih _ hb

theorem allOf_holds (as : List Ast) (a : Ast) (h : E a = some (.bool true)) (hs : ∀ b ∈ as, E b = some (.bool true)) :
    E (as.foldl (.binary .and) a) = some (.bool true) := by
  induction as generalizing a with
  | nil => exact h
  | cons d as ih =>
    exact ih _ (hE.both _ _ h (hs _ List.mem_cons_self)) fun b hb => hs b (List.mem_cons_of_mem _ hb)

theorem allOf_true (as : List Ast) (hn : as ≠ []) (h : ∀ b ∈ as, E b = some (.bool true)) :
    E (allOf as) = some (.bool true) := by
  cases as with
  | nil => exact absurd rfl hn
  | cons a as => exact allOf_holds hE as a (h _ List.mem_cons_self) fun b hb => h b (List.mem_cons_of_mem _ hb)

theorem allOf_false (as : List Ast) (b : Ast) (hb : b ∈ as) (h : E b = some (.bool false)) :
    E (allOf as) = some (.bool false) := by
  cases as with
  | nil => exact nomatch hb
  | cons a as =>
    rcases List.mem_cons.1 hb with rfl | hb
    · exact allOf_stays hE as _ h
    · exact allOf_becomes hE as a b hb h

theorem value_block {cd : ConditionalData} {es : List (Text × Text)} (h : BlockEntries E P cd es) :
    E (blockAst P cd) = some (.list (es.map entryValue)) := by
  unfold blockAst
  cases h with
  | all hp he =>
    have hl := hE.list _ _ (each_both (S := fun e v => E e = some v) (itemAst P) entryValue (fun a b h => value_item hE h) he)
    split
    · exact hl
    · rename_i hn
      rw [hE.yes, hl]
      refine allOf_true hE _ ?_ ?_
      · intro e
        rw [List.map_eq_nil_iff] at e
        rw [e] at hn
        exact hn rfl
      · intro b hb
        obtain ⟨p, hp', rfl⟩ := List.mem_map.1 hb
        exact hp p hp'
  | none hp hf =>
    rw [if_neg (by intro e; rw [List.isEmpty_iff] at e; rw [e] at hp; exact nomatch hp),
      hE.no _ _ _ (allOf_false hE _ _ (List.mem_map_of_mem hp) hf)]
    exact hE.list [] [] .nil

theorem value_concat_from (as : List Ast) (a : Ast) (l : List Val) (ls : List (List Val)) (h : E a = some (.list l))
    (hs : Each (fun a l => E a = some (.list l)) as ls) :
    E (as.foldl (.binary .add) a) = some (.list (l ++ ls.flatten)) := by
  induction hs generalizing a l with
  | nil => rw [List.flatten_nil, List.append_nil]; exact h
  | cons hb _ ih =>
    rw [List.flatten_cons, ← List.append_assoc]
    exact ih _ _ (hE.add _ _ _ _ h hb)

theorem value_concat {as : List Ast} {ls : List (List Val)} (hs : Each (fun a l => E a = some (.list l)) as ls) :
    E (concat as) = some (.list ls.flatten) := by
  cases hs with
  | nil => exact hE.list [] [] .nil
  | cons h hs => exact value_concat_from hE _ _ _ _ h hs

theorem value_descriptor (a : Ast) (es : List (Text × Text)) (h : E a = some (.list (es.map entryValue))) :
    E (descriptorAst a) = some (descriptorValue es) :=
  value_message hE _ _ _ _ _ (by decide +kernel) (.cons ⟨rfl, h⟩ .nil)

theorem value_domain {scope : Text} {blocks : List ConditionalData} {domain : Text}
    (h : DomainOf E P scope blocks domain) : E (domainAst P scope blocks) = some (.str domain) := by
  unfold DomainOf at h
  unfold domainAst
  cases hf : firstItem blocks "ratelimit.domain" with
  | none => rw [hf] at h; subst h; exact hE.string _
  | some i =>
    rw [hf] at h
    cases i with
    | static k v => subst h; exact hE.string _
    | expression k v => exact h

theorem value_hits {blocks : List ConditionalData} {hits : Nat}
    (h : HitsOf E P blocks hits) : E (hitsAst P blocks) = some (.uint hits) := by
  unfold HitsOf at h
  unfold hitsAst
  cases hf : firstItem blocks "ratelimit.hits_addend" with
  | none => rw [hf] at h; subst h; exact hE.one
  | some i =>
    rw [hf] at h
    cases i with
    | static k v => obtain ⟨v, hv, hu⟩ := h; exact hE.uint _ _ _ hv hu
    | expression k v => obtain ⟨v, hv, hu⟩ := h; exact hE.uint _ _ _ hv hu

theorem value_ratelimit {scope : Text} {blocks : List ConditionalData} {data : RequestData} {q : LimitQuery}
    (h : Queries E P scope blocks data q) : E (ratelimitAst P scope blocks data) = some q.value := by
  obtain ⟨given, sent, hg, hs, hd⟩ := h.descriptors
  refine value_message hE _ _ _ _ _ (by decide +kernel)
    (.cons ⟨rfl, value_domain hE h.domain⟩ (.cons ⟨rfl, value_hits hE h.hits⟩ (.cons ⟨rfl, ?_⟩ .nil)))
  show E (.list _) = some (.list (q.descriptors.map descriptorValue))
  refine hE.list _ _ ?_
  rw [hd, List.map_append]
  refine each_join ?_ ?_
  · by_cases he : entryBlocks blocks = []
    · rw [if_pos he, he]; exact .nil
    · rw [if_neg he, if_neg (by rwa [List.isEmpty_iff])]
      refine .cons (value_descriptor hE _ _ ?_) .nil
      rw [value_concat hE (each_both (S := fun a l => E a = some (.list l)) (blockAst P) (List.map entryValue)
        (fun a b h => value_block hE h) hg), List.map_flatten]
  · by_cases he : data = []
    · rw [if_pos he, he]; exact .nil
    · rw [if_neg he, if_neg (by rwa [List.isEmpty_iff])]
      exact .cons (value_descriptor hE _ _ (hE.list _ _ (each_both (S := fun e v => E e = some v) (requestEntryAst P)
        entryValue (fun a b h => value_data hE h) hs))) .nil

/-! ### Authorization -/

omit hE in
theorem domainName_injective {a b : Text} (h : domainName a = domainName b) : a = b := by
  have aux : ∀ (c : Char) (t : Text), "io.kuadrant".toList ≠ "io.kuadrant.".toList ++ (c :: t) := by
    intro c t e
    have := congrArg List.length e
    simp at this
  cases a with
  | nil =>
    cases b with
    | nil => rfl
    | cons c t => exact absurd h (aux c t)
  | cons c t =>
    cases b with
    | nil => exact absurd h.symm (aux c t)
    | cons c' t' => exact List.append_cancel_left h

omit hE in
theorem domains_unique {data : RequestData} {ds ds' : List Text} (h : Domains data ds) (h' : Domains data ds') :
    ds = ds' := by
  have hn : ∀ {l : List Text}, l.Pairwise (fun a b => textLe a b ∧ a ≠ b) → l.Nodup := fun h => h.imp fun h => h.2
  have hp : ds.Perm ds' := (List.perm_ext_iff_of_nodup (hn h.sorted) (hn h'.sorted)).2 fun a => by
    rw [h.mem, h'.mem]
  exact hp.eq_of_pairwise (fun a b _ _ h1 h2 => textLe_antisymm a b h1.1 h2.1) h.sorted h'.sorted

theorem value_map {es : List (Ast × Ast)} {kvs : List (Text × Val)}
    (h : Each (fun e kv => E e.1 = some (.str kv.1) ∧ E e.2 = some kv.2) es kvs) (hn : (kvs.map Prod.fst).Nodup) :
    E (.map es) = some (mapValue kvs) := hE.map _ _ h hn

theorem value_struct {es : List (Ast × Ast)} {kvs : List (Text × Val)}
    (h : Each (fun e kv => E e.1 = some (.str kv.1) ∧ E e.2 = some kv.2) es kvs) (hn : (kvs.map Prod.fst).Nodup) :
    E (message "google" ["protobuf", "Struct"] [("fields", .map es)]) = some (structValue kvs) :=
  value_messageOf hE _ _ _ _ _ (by decide +kernel) (.cons ⟨rfl, value_map hE h hn⟩ .nil)

theorem value_request_data {expr : Text} {v : Val} (h : DataValue E P expr v) :
    E (requestValueAst P expr) = some v := by
  unfold requestValueAst
  cases h with
  | expression h =>
    rw [if_pos h]
    refine value_messageOf hE _ _ _ _ _ (by decide +kernel) (.cons ⟨rfl, ?_⟩ .nil)
    refine value_struct hE (.cons ⟨hE.string _, ?_⟩ .nil) (by simp)
    exact value_messageOf hE _ _ _ _ _ (by decide +kernel) (.cons ⟨rfl, hE.string _⟩ .nil)
  | value h hv ht =>
    rw [if_neg h]
    exact value_messageOf hE _ _ _ _ _ (by decide +kernel) (.cons ⟨rfl, hE.text _ _ _ hv ht⟩ .nil)

theorem value_peer {side : String} {p : Val × Nat} (h : PeerOf E side p) :
    E (peerAst side) = some (peerValue p) := by
  obtain ⟨ha, v, hv, hu⟩ := h
  refine value_messageOf hE _ _ _ _ _ (by decide +kernel) (.cons ⟨rfl, ?_⟩ .nil)
  refine value_messageOf hE _ _ _ _ _ (by decide +kernel) (.cons ⟨rfl, ?_⟩ .nil)
  exact value_messageOf hE _ _ _ _ _ (by decide +kernel) (.cons ⟨rfl, ha⟩ (.cons ⟨rfl, hE.uint _ _ _ hv hu⟩ .nil))

omit hE in
theorem each_fst {α β γ : Type} {R : α → γ × β → Prop} (f : α → γ) (hf : ∀ a b, R a b → b.1 = f a) {as : List α}
    {bs : List (γ × β)} (h : Each R as bs) : bs.map Prod.fst = as.map f := by
  induction h with
  | nil => rfl
  | cons h _ ih => rw [List.map_cons, List.map_cons, ih, hf _ _ h]

omit hE in
theorem nodup_fields {data : RequestData} (hn : (data.map Prod.fst).Nodup) (dom : Text) :
    ((data.filter fun r => domainName r.1.1 = dom).map fun r => r.1.2).Nodup := by
  induction data with
  | nil => exact .nil
  | cons d ds ih =>
    obtain ⟨hd, hds⟩ := List.nodup_cons.1 hn
    by_cases h : domainName d.1.1 = dom
    · rw [List.filter_cons_of_pos (by simpa using h), List.map_cons, List.nodup_cons]
      refine ⟨fun hm => hd ?_, ih hds⟩
      obtain ⟨r, hr, he⟩ := List.mem_map.1 hm
      rw [List.mem_filter] at hr
      have hdom : domainName r.1.1 = dom := by simpa using hr.2
      have : r.1 = d.1 := Prod.ext (domainName_injective (hdom.trans h.symm)) he
      exact List.mem_map.2 ⟨r, hr.1, this⟩
    · rw [List.filter_cons_of_neg (by simpa using h)]
      exact ih hds

theorem value_metadata {data : RequestData} (hn : (data.map Prod.fst).Nodup) (md : List (Text × List (Text × Val)))
    (hd : Domains data (md.map Prod.fst))
    (hm : ∀ d ∈ md, Each (fun r f => f.1 = r.1.2 ∧ DataValue E P r.2 f.2)
      (data.filter fun r => domainName r.1.1 = d.1) d.2) :
    E (metadataAst P (md.map Prod.fst) data) = some (messageOf "envoy.config.core.v3.Metadata"
        (if md = [] then [] else [("filter_metadata", mapValue (md.map fun d => (d.1, structValue d.2)))])) := by
  have hempty : data = [] ↔ md = [] := by
    constructor
    · rintro rfl
      cases md with
      | nil => rfl
      | cons d md =>
        obtain ⟨r, hr, -⟩ := (hd.mem d.1).1 (by simp)
        exact nomatch hr
    · rintro rfl
      cases data with
      | nil => rfl
      | cons r data => exact nomatch (hd.mem (domainName r.1.1)).2 ⟨r, List.mem_cons_self, rfl⟩
  unfold metadataAst
  refine value_messageOf hE _ _ _ _ _ (by decide +kernel) ?_
  by_cases he : data = []
  · rw [if_pos (hempty.1 he), if_pos (by rw [he]; rfl)]; exact .nil
  · rw [if_neg fun e => he (hempty.2 e), if_neg (by rwa [List.isEmpty_iff])]
    refine .cons ⟨rfl, value_map hE ?_ ?_⟩ .nil
    · clear hempty hd
      induction md with
      | nil => exact .nil
      | cons d md ih =>
        refine .cons ⟨hE.string _, ?_⟩ (ih fun d hd => hm d (List.mem_cons_of_mem _ hd))
        have hd := hm d List.mem_cons_self
        refine value_struct hE (kvs := d.2) ?_ ?_
        · have := each_both (S := fun (e : Ast × Ast) (kv : Text × Val) => E e.1 = some (.str kv.1) ∧ E e.2 = some kv.2)
            (fun r : (Text × Text) × Text => (string r.1.2, requestValueAst P r.2)) id
            (fun a b h => ⟨by rw [id, h.1]; exact hE.string _, value_request_data hE h.2⟩) hd
          rwa [List.map_id] at this
        · rw [each_fst (fun r => r.1.2) (fun a b h => h.1) hd]
          exact nodup_fields hn d.1
    · rw [List.map_map]
      exact hd.sorted.imp fun h => h.2

omit hE in
theorem value_http {vs : List (String × Val)} (fs : List String)
    (h : Each (fun f v => v.1 = f ∧ E (path "request".toList [f.toList]) = some v.2) fs vs) :
    Each (fun (f : String × Ast) (v : String × Val) => f.1 = v.1 ∧ E f.2 = some v.2)
      (fs.map fun f => (f, path "request".toList [f.toList])) vs := by
  have := each_both (S := fun (f : String × Ast) (v : String × Val) => f.1 = v.1 ∧ E f.2 = some v.2)
    (fun f : String => (f, path "request".toList [f.toList])) id (fun a b h => ⟨h.1.symm, h.2⟩) h
  rwa [List.map_id] at this

theorem value_auth {scope : Text} {data : RequestData} {domains : List Text} {q : CheckQuery}
    (hn : (data.map Prod.fst).Nodup) (hd : Domains data domains)
    (h : Checks E P scope data q) : E (authAst P scope domains data) = some q.value := by
  cases domains_unique h.domains hd
  refine value_messageOf hE _ _ _ _ _ (by decide +kernel) (.cons ⟨rfl, ?_⟩ .nil)
  refine value_messageOf hE _ _ _ _ _ (by decide +kernel) (.cons ⟨rfl, ?_⟩ (.cons ⟨rfl, value_peer hE h.destination⟩
    (.cons ⟨rfl, value_peer hE h.source⟩ (.cons ⟨rfl, ?_⟩ (.cons ⟨rfl, ?_⟩ .nil)))))
  · refine value_messageOf hE _ _ _ _ _ (by decide +kernel) (.cons ⟨rfl, h.time⟩ (.cons ⟨rfl, ?_⟩ .nil))
    exact value_messageOf hE _ _ _ _ _ (by decide +kernel) (value_http _ h.http)
  · rw [h.scope]
    exact value_map hE (.cons ⟨hE.string _, hE.string _⟩ .nil) (by simp)
  · exact value_metadata hE hn _ h.domains h.metadata

end Verif.Legacy
