import Verif.Lemmas.HeaderGet
import Verif.Lemmas.Cause
import Verif.Spec.BodyFeed
import Verif.Spec.SseStream
/-! How bodies reach the parsers. -/
set_option linter.unusedSimpArgs false
namespace Verif
open Spec

variable {H : Type} {o : Oracle H}

/-! ### The JSON parser -/

/-- The parser was fed the body up to where it has consumed it, or until it had found everything. -/
structure Tracks (lib : JsonLib) (body : Bytes) (b : JsonBody) : Prop where
  le : b.consumed ≤ body.length
  fed : b.complete = false → b.fed.flatten = body.take b.consumed
  done : b.complete = true → ∃ first last, b.fed = first ++ [last] ∧ b.fed.flatten <+: body ∧
    lib.acuteFeed b.fields first last = some true
  values : ∀ f v, (f, v) ∈ b.extracted → FieldOf lib body f v

theorem mapGet_insert {α β : Type} [DecidableEq α] (m : List (α × β)) (k : α) (v : β) (x : α) :
    mapGet (mapInsert m k v) x = if k = x then some v else mapGet m x := by
  unfold mapGet mapInsert
  by_cases h : k = x
  · simp [List.find?, h]
  · simp only [List.find?_cons, h, decide_false, if_false]
    congr 1
    rw [List.find?_filter]
    congr 1
    funext e
    by_cases he : e.1 = x
    · subst he; simp [Ne.symm h]
    · simp [he]

theorem mem_insert {α β : Type} [DecidableEq α] {m : List (α × β)} {k : α} {v : β} {e : α × β}
    (h : e ∈ mapInsert m k v) : e = (k, v) ∨ e ∈ m := by
  unfold mapInsert at h
  rcases List.mem_cons.1 h with h | h
  · exact .inl h
  · exact .inr (List.mem_filter.1 h).1

theorem finalizeExtracted_spec {lib : JsonLib} {b b' : JsonBody} {fin : Bool}
    (h : b.finalizeExtracted lib fin = some b') :
    b'.fields = b.fields ∧ b'.fed = b.fed ∧ b'.consumed = b.consumed ∧ b'.complete = b.complete ∧
    ∀ f v, (f, v) ∈ b'.extracted → (f, v) ∈ b.extracted ∨
      ∃ raw t, (f, raw) ∈ lib.acuteMatched b.fields b.fed fin ∧ fromUtf8 raw = some t ∧
        v = parseJsonScalar lib.parseF64 t := by
  unfold JsonBody.finalizeExtracted at h
  suffices H : ∀ (l : List (Text × Bytes)) (a : JsonBody), (∀ x ∈ l, x ∈ lib.acuteMatched b.fields b.fed fin) →
      (a.fields = b.fields ∧ a.fed = b.fed ∧ a.consumed = b.consumed ∧ a.complete = b.complete ∧
      ∀ f v, (f, v) ∈ a.extracted → (f, v) ∈ b.extracted ∨
        ∃ raw t, (f, raw) ∈ lib.acuteMatched b.fields b.fed fin ∧ fromUtf8 raw = some t ∧
          v = parseJsonScalar lib.parseF64 t) →
      l.foldl (init := some a) (fun r (x : Text × Bytes) =>
        match r with
        | none => none
        | some b => match fromUtf8 x.2 with
          | none => none
          | some t => some { b with extracted := mapInsert b.extracted x.1 (parseJsonScalar lib.parseF64 t) }) =
        some b' →
      b'.fields = b.fields ∧ b'.fed = b.fed ∧ b'.consumed = b.consumed ∧ b'.complete = b.complete ∧
      ∀ f v, (f, v) ∈ b'.extracted → (f, v) ∈ b.extracted ∨
        ∃ raw t, (f, raw) ∈ lib.acuteMatched b.fields b.fed fin ∧ fromUtf8 raw = some t ∧
          v = parseJsonScalar lib.parseF64 t from
    H _ b (fun _ h => h) ⟨rfl, rfl, rfl, rfl, fun _ _ h => .inl h⟩ h
  intro l
  have hnone : ∀ l : List (Text × Bytes), l.foldl (init := none) (fun (r : Option JsonBody) (x : Text × Bytes) =>
        match r with
        | none => none
        | some b => match fromUtf8 x.2 with
          | none => none
          | some t => some { b with extracted := mapInsert b.extracted x.1 (parseJsonScalar lib.parseF64 t) }) =
        none := by
    intro l
    induction l with
    | nil => rfl
    | cons x l ih => exact ih
  induction l with
  | nil =>
    intro a _ ha h
    cases h
    exact ha
  | cons x l ih =>
    intro a hl ha h
    rw [List.foldl_cons] at h
    dsimp only at h
    cases hu : fromUtf8 x.2 with
    | none => rw [hu] at h; dsimp only at h; rw [hnone] at h; cases h
    | some t =>
      rw [hu] at h
      refine ih _ (fun y hy => hl y (by simp [hy])) ?_ h
      obtain ⟨h1, h2, h3, h4, h5⟩ := ha
      refine ⟨h1, h2, h3, h4, ?_⟩
      intro f v hg
      dsimp only at hg
      rcases mem_insert hg with hg | hg
      · cases hg
        exact .inr ⟨x.2, t, hl x (by simp), hu, rfl⟩
      · exact h5 f v hg

theorem Tracks.new (lib : JsonLib) (body : Bytes) (fields : List Text) : Tracks lib body { fields } where
  le := Nat.zero_le _
  fed _ := by simp
  done h := by cases h
  values f v h := by simp at h

theorem take_slice (body : Bytes) (n m : Nat) :
    body.take n ++ (body.drop n).take m = body.take (n + m) := by
  rw [List.take_add]

/-- Feeding the next part of the body. -/
theorem Tracks.feed {lib : JsonLib} {body : Bytes} {b b' : JsonBody} (h : Tracks lib body b) {len : Nat}
    (hlen : b.consumed + len ≤ body.length)
    (hf : b.feed lib ((body.drop b.consumed).take len) = some b') :
    Tracks lib body b' ∧ b'.consumed = b.consumed + len := by
  have hl : ((body.drop b.consumed).take len).length = len := by
    rw [List.length_take, List.length_drop]; omega
  unfold JsonBody.feed at hf
  dsimp only at hf
  rw [hl] at hf
  split at hf
  · rename_i hc
    cases hf
    exact ⟨⟨hlen, fun hn => (by rw [hc] at hn; cases hn), h.done, h.values⟩, rfl⟩
  · rename_i hc
    have hc' : b.complete = false := by simpa using hc
    split at hf
    · cases hf
    · rename_i done hd
      have hflat : (b.fed ++ [(body.drop b.consumed).take len]).flatten = body.take (b.consumed + len) := by
        rw [List.flatten_append, h.fed hc', List.flatten_singleton, take_slice]
      split at hf
      · rename_i hdone
        subst hdone
        obtain ⟨h1, h2, h3, h4, h5⟩ := finalizeExtracted_spec hf
        dsimp only at h1 h2 h3 h4 h5
        refine ⟨⟨by rw [h3]; exact hlen, fun hn => (by rw [h4] at hn; cases hn), fun _ => ?_, ?_⟩, h3⟩
        · rw [h1, h2]
          exact ⟨_, _, rfl, by rw [hflat]; exact List.take_prefix _ _, hd⟩
        · intro f v hg
          rcases h5 f v hg with hg | ⟨raw, t, hm, ht, hv⟩
          · exact h.values f v hg
          · exact ⟨_, _, _, raw, t, .found (by rw [hflat]; exact List.take_prefix _ _) hd, hm, ht, hv⟩
      · cases hf
        exact ⟨⟨hlen, fun _ => hflat, fun hn => (by dsimp only at hn; rw [hc'] at hn; cases hn), h.values⟩, rfl⟩

/-- Finishing after the whole body. -/
theorem Tracks.finalize {lib : JsonLib} {body : Bytes} {b b' : JsonBody} (h : Tracks lib body b)
    (hall : b.consumed = body.length) (hf : b.finalize lib = some b') :
    Tracks lib body b' ∧ b'.consumed = b.consumed := by
  unfold JsonBody.finalize at hf
  split at hf
  · rename_i hfin
    obtain ⟨h1, h2, h3, h4, h5⟩ := finalizeExtracted_spec hf
    refine ⟨⟨by rw [h3]; exact h.le, fun hn => ?_, fun hn => ?_, ?_⟩, h3⟩
    · rw [h2, h3]; exact h.fed (h4 ▸ hn)
    · rw [h1, h2]; exact h.done (h4 ▸ hn)
    · intro f v hg
      rcases h5 f v hg with hg | ⟨raw, t, hm, ht, hv⟩
      · exact h.values f v hg
      · refine ⟨_, _, _, raw, t, ?_, hm, ht, hv⟩
        cases hc : b.complete with
        | false => exact .whole (by rw [h.fed hc, hall, List.take_length]) hfin
        | true =>
          obtain ⟨first, last, h6, h7, h8⟩ := h.done hc
          rw [h6] at h7 ⊢
          exact .found h7 h8
  · cases hf

/-! ### The store action -/

/-- A parse state for the source, fed from the body. -/
def Feeding (lib : JsonLib) (source : Source) (body : Bytes) (s : ParseState) : Prop :=
  ∀ p, s = .active source p → ∃ b, p = .json b ∧ Tracks lib body b

theorem populate_values (b : Body) (l : List (Text × Val)) {Q : Text → Val → Prop}
    (hb : ∀ f v, mapGet b.values f = some v → Q f v) (hl : ∀ x ∈ l, Q x.1 x.2) :
    (∀ f v, mapGet (populate b l).values f = some v → Q f v) ∧ (populate b l).size = b.size ∧
      (populate b l).eos = b.eos := by
  induction l generalizing b with
  | nil => exact ⟨hb, rfl, rfl⟩
  | cons x l ih =>
    refine ih (b.setValue x.1 x.2) ?_ fun y hy => hl y (by simp [hy])
    intro f v hg
    unfold Body.setValue at hg
    dsimp only at hg
    rw [mapGet_insert] at hg
    split at hg
    · rename_i he
      cases hg
      rw [← he]
      exact hl x (by simp)
    · exact hb f v hg

/-- A result of reading for the store action: the next parse state and context are in order. -/
def ReadsWell (lib : JsonLib) (source : Source) (body : Bytes) (c : Ctx H) : ReadResult H → Prop
  | .requeue s d => Feeding lib source body s ∧ d.body source = c.body source
  | .fail d => d.body source = c.body source
  | .ready s d => Feeding lib source body s ∧ (KnowsBody lib source body c → KnowsBody lib source body d) ∧
      (d.body source).size = (c.body source).size ∧ (d.body source).eos = (c.body source).eos

theorem body_setBody (c : Ctx H) (s : Source) (b : Body) : (c.setBody s b).body s = b := by cases s <;> rfl

theorem body_withHost (c : Ctx H) (s : Source) (h : H) : (c.withHost h).body s = c.body s := by cases s <;> rfl

theorem feeding_json {lib : JsonLib} {source : Source} {body : Bytes} {b : JsonBody} (h : Tracks lib body b) :
    Feeding lib source body (.active source (.json b)) := by
  intro p hp
  cases hp
  exact ⟨b, rfl, h⟩

theorem storeFinish_reads {source : Source} {body : Bytes} {c0 c : Ctx H} {b : JsonBody}
    (hc : c.body source = c0.body source) (ht : Tracks o.json body b)
    (he : (c.body source).eos = true → b.consumed = body.length) :
    ReadsWell o.json source body c0 (storeFinish o c source (.json b)) := by
  have publish : ∀ b', Tracks o.json body b' → ReadsWell o.json source body c0
      (.ready (.active source (.json b')) (c.setBody source (populate (c.body source) b'.extracted))) := by
    intro b' ht'
    refine ⟨feeding_json ht', ?_, ?_, ?_⟩
    · intro hk f v hg
      rw [body_setBody] at hg
      exact (populate_values (c.body source) b'.extracted (Q := FieldOf o.json body) (by rw [hc]; exact hk)
        (fun x hx => ht'.values x.1 x.2 hx)).1 f v hg
    · rw [body_setBody, ← hc]
      exact (populate_values (c.body source) b'.extracted (Q := fun _ _ => True) (fun _ _ _ => trivial)
        (fun _ _ => trivial)).2.1
    · rw [body_setBody, ← hc]
      exact (populate_values (c.body source) b'.extracted (Q := fun _ _ => True) (fun _ _ _ => trivial)
        (fun _ _ => trivial)).2.2
  unfold storeFinish
  dsimp only
  split
  · rename_i heos
    cases hf : (BodyParser.json b).finalize o.json with
    | none => exact hc
    | some p =>
      dsimp only
      split
      · unfold BodyParser.finalize at hf
        obtain ⟨b', hb', rfl⟩ := Option.map_eq_some_iff.1 hf
        exact publish b' (ht.finalize (he heos) hb').1
      · exact hc
  · exact publish b ht

/-- What the host has accumulated, in a single context. -/
structure AccumulatedAt (o : Oracle H) (source : Source) (body : Bytes) (c : Ctx H) : Prop where
  size : (c.body source).size ≤ body.length
  whole : (c.body source).eos = true → (c.body source).size = body.length
  reads : ∀ off len bytes h', off + len ≤ (c.body source).size →
    o.readBody c source off len = (.available (some bytes), h') → bytes = (body.drop off).take len

theorem _root_.Verif.Spec.Accumulated.soon {source : Source} {body : Bytes} {c : Ctx H} (h : Accumulated o source body c) {x : H}
    (hx : Soon o c x) : AccumulatedAt o source body (c.withHost x) :=
  ⟨by rw [body_withHost]; exact h.size, by rw [body_withHost]; exact h.whole,
    by rw [body_withHost]; exact fun off len bytes h' => h.reads x off len bytes h' hx⟩

theorem _root_.Verif.Spec.Accumulated.here {source : Source} {body : Bytes} {c : Ctx H} (h : Accumulated o source body c) :
    AccumulatedAt o source body c :=
  ⟨h.size, h.whole, fun off len bytes h' => h.reads c.host off len bytes h' (.inl rfl)⟩

theorem storeRead_reads {source : Source} {body : Bytes} {c0 c : Ctx H} {b : JsonBody}
    (hc : c.body source = c0.body source) (ha : AccumulatedAt o source body c) (ht : Tracks o.json body b) :
    ReadsWell o.json source body c0 (storeRead o c source (.json b)) := by
  unfold storeRead
  dsimp only
  split
  · exact ⟨feeding_json ht, hc⟩
  · split
    · rename_i hlt
      replace hlt : b.consumed < (c.body source).size := hlt
      split
      · exact (body_withHost _ _ _).trans hc
      · exact ⟨feeding_json ht, (body_withHost _ _ _).trans hc⟩
      · exact (body_withHost _ _ _).trans hc
      · rename_i bytes h' hr
        have hbytes := ha.reads b.consumed ((c.body source).size - b.consumed) bytes h' (by omega) hr
        subst hbytes
        have hsz := ha.size
        cases hf : (BodyParser.json b).feed o.json
            ((body.drop b.consumed).take ((c.body source).size - b.consumed)) with
        | none =>
          replace hf : (BodyParser.json b).feed o.json
            ((body.drop (BodyParser.json b).consumed).take ((c.body source).size - (BodyParser.json b).consumed)) =
            none := hf
          exact (body_withHost _ _ _).trans hc
        | some p =>
          unfold BodyParser.feed at hf
          obtain ⟨b', hb', rfl⟩ := Option.map_eq_some_iff.1 hf
          obtain ⟨ht', hcons⟩ := ht.feed (by omega) hb'
          refine storeFinish_reads ((body_withHost _ _ _).trans hc) ht' ?_
          rw [body_withHost]
          intro heos
          rw [hcons]
          have := ha.whole heos
          omega
    · rename_i hge
      replace hge : ¬ b.consumed < (c.body source).size := hge
      refine storeFinish_reads hc ht fun heos => ?_
      have := ha.whole heos
      have := ht.le
      omega

theorem createParser_json {source : Source} {c : Ctx H} {fields : List Text} {p : BodyParser} {d : Ctx H}
    (hplain : source = .response → ∀ hs h, o.getHeaders c .response = (.available hs, h) → isEventStream hs = false)
    (h : createParser o c source fields = (.available p, d)) : p = .json { fields } ∧ ∃ h, Soon o c h ∧ d = c.withHost h := by
  have hnew : ∀ {a : BodyParser}, (match JsonBody.new o.json fields with
      | some b => Ans.available (BodyParser.json b)
      | none => .err) = .available a → a = .json { fields } := by
    intro a ha
    unfold JsonBody.new at ha
    split at ha
    · rename_i b hb
      split at hb
      · cases hb; cases ha; rfl
      · cases hb
    · cases ha
  unfold createParser at h
  dsimp only at h
  cases source with
  | request =>
    simp only [Prod.mk.injEq] at h
    exact ⟨hnew h.1, c.host, .inl rfl, h.2.symm⟩
  | response =>
    dsimp only at h
    cases hg : o.getHeaders c .response with
    | mk a hh =>
    rw [hg] at h
    cases a with
    | pending => cases h
    | err =>
      simp only [Prod.mk.injEq] at h
      exact ⟨hnew h.1, hh, .inr (by rw [hg]), h.2.symm⟩
    | available hs =>
      have hp := hplain rfl hs hh hg
      simp only [hp, Bool.false_eq_true, if_false, Prod.mk.injEq] at h
      exact ⟨hnew h.1, hh, .inr (by rw [hg]), h.2.symm⟩

theorem createParser_host (c : Ctx H) (source : Source) (fields : List Text) :
    ∃ h, Soon o c h ∧ (createParser o c source fields).2 = c.withHost h := by
  unfold createParser
  dsimp only
  cases source with
  | request => exact ⟨c.host, .inl rfl, rfl⟩
  | response =>
    dsimp only
    generalize hg : o.getHeaders c .response = g
    obtain ⟨a, h⟩ := g
    refine ⟨h, .inr (by rw [hg]), ?_⟩
    cases a <;> rfl

/-- Reading one body leaves the other alone. -/
theorem storeRead_other {source other : Source} (hne : other ≠ source) (body : Bytes) {c0 c : Ctx H} (p : BodyParser)
    (hc : c.body source = c0.body source) : ReadsWell o.json source body c0 (storeRead o c other p) := by
  have hfeed : ∀ p', Feeding o.json source body (.active other p') := by
    intro p' q hq
    cases hq
    exact absurd rfl hne
  have hset : ∀ (d : Ctx H) b, (d.setBody other b).body source = d.body source := by
    intro d b
    cases source <;> cases other <;> first | rfl | exact absurd rfl hne
  have hfin : ∀ (d : Ctx H) p', d.body source = c0.body source →
      ReadsWell o.json source body c0 (storeFinish o d other p') := by
    intro d p' hd
    have publish : ∀ q : BodyParser, ReadsWell o.json source body c0
        (.ready (.active other q) (d.setBody other (populate (d.body other) q.extracted))) := by
      intro q
      have := (hset d (populate (d.body other) q.extracted)).trans hd
      refine ⟨hfeed q, ?_, by rw [this], by rw [this]⟩
      intro hk f v hg
      rw [this] at hg
      exact hk f v hg
    unfold storeFinish
    dsimp only
    split
    · split
      · exact hd
      · split
        · exact publish _
        · exact hd
    · exact publish _
  unfold storeRead
  dsimp only
  split
  · exact ⟨hfeed p, hc⟩
  · split
    · split
      · exact (body_withHost _ _ _).trans hc
      · exact ⟨hfeed p, (body_withHost _ _ _).trans hc⟩
      · exact (body_withHost _ _ _).trans hc
      · split
        · exact (body_withHost _ _ _).trans hc
        · exact hfin _ _ ((body_withHost _ _ _).trans hc)
    · exact hfin _ _ hc

theorem storeBody_reads {source : Source} {body : Bytes} {c : Ctx H} {s : ParseState}
    (ha : Accumulated o source body c) (hs : Feeding o.json source body s)
    (hplain : source = .response → ∀ hs h, o.getHeaders c .response = (.available hs, h) → isEventStream hs = false) :
    ReadsWell o.json source body c (storeBody o c s) := by
  unfold storeBody
  cases s with
  | notNeeded => exact ⟨hs, fun h => h, rfl, rfl⟩
  | active src p =>
    dsimp only
    by_cases h : src = source
    · subst h
      obtain ⟨b, rfl, ht⟩ := hs p rfl
      exact storeRead_reads rfl ha.here ht
    · exact storeRead_other h body p rfl
  | pending src fields =>
    dsimp only
    obtain ⟨hh, hsoon, hhost⟩ := createParser_host (o := o) c src fields
    cases hcp : createParser o c src fields with
    | mk a d =>
    rw [hcp] at hhost
    dsimp only at hhost
    subst hhost
    cases a with
    | pending => exact ⟨(fun p hp => by cases hp), body_withHost _ _ _⟩
    | err => exact body_withHost _ _ _
    | available p =>
      dsimp only
      by_cases h : src = source
      · subst h
        obtain ⟨rfl, _⟩ := createParser_json hplain hcp
        exact storeRead_reads (body_withHost _ _ _) (ha.soon hsoon) (.new _ _ _)
      · exact storeRead_other h body p (body_withHost _ _ _)

/-! ### The other actions -/

/-- The bodies are left alone. -/
def SameBodies (c c' : Ctx H) : Prop := c'.req = c.req ∧ c'.resp = c.resp

theorem SameBodies.refl (c : Ctx H) : SameBodies c c := ⟨rfl, rfl⟩

theorem SameBodies.trans {a b c : Ctx H} (h : SameBodies a b) (g : SameBodies b c) : SameBodies a c :=
  ⟨g.1.trans h.1, g.2.trans h.2⟩

theorem evalExpr_bodies (c : Ctx H) (id : Text) (e : Expr) : SameBodies c (evalExpr o c id e).2 := by
  unfold evalExpr
  dsimp only
  repeat' split
  all_goals exact ⟨rfl, rfl⟩

theorem testPred_bodies (c : Ctx H) (id : Text) (e : Expr) : SameBodies c (testPred o c id e).2 := by
  have h := evalExpr_bodies (o := o) c id e
  unfold testPred
  split <;> rename_i heq <;> rw [heq] at h <;> exact h

theorem requestId_bodies (c : Ctx H) : SameBodies c (requestId o c).2 := by
  unfold requestId
  split
  · exact .refl c
  · dsimp only
    split <;> exact ⟨rfl, rfl⟩

theorem tracker_bodies (c : Ctx H) : SameBodies c (tracker o c).2 := by
  have h := requestId_bodies (o := o) c
  unfold tracker
  split
  · exact .refl c
  · exact h

theorem dispatchValue_bodies (c : Ctx H) (svc : Svc) (v : Val) : SameBodies c (dispatchValue o c svc v).2 := by
  have h := requestId_bodies (o := o) c
  unfold dispatchValue
  split
  · exact .refl c
  · dsimp only
    split <;> exact h

theorem applyGrpc_bodies (c : Ctx H) (id deps guard pred msg var svc r) :
    SameBodies c (applyGrpc o c id deps guard pred msg var svc r).2 := by
  have h1 := testPred_bodies (o := o) c id pred
  unfold applyGrpc
  generalize testPred o c id pred = q at h1 ⊢
  obtain ⟨a, c1⟩ := q
  dsimp only at h1
  cases a with
  | pending => dsimp only; split <;> exact h1
  | err => exact h1
  | available b =>
    cases b with
    | false => exact h1
    | true =>
      dsimp only
      have h2 := h1.trans (evalExpr_bodies (o := o) c1 id msg)
      generalize evalExpr o c1 id msg = q at h2 ⊢
      obtain ⟨a, c2⟩ := q
      cases a with
      | pending => dsimp only; split <;> exact h2
      | err => exact h2
      | available v =>
        dsimp only
        have h3 := h2.trans (dispatchValue_bodies (o := o) c2 svc v)
        generalize dispatchValue o c2 svc v = q at h3 ⊢
        obtain ⟨a, c3⟩ := q
        cases a with
        | none => exact h3
        | some x => cases guard <;> exact h3

theorem applySendReply_bodies (c : Ctx H) (id pred e terminal) :
    SameBodies c (applySendReply o c id pred e terminal).2 := by
  have hf : ∀ (d : Ctx H) fields, SameBodies d (finishReply o d fields terminal).2 := by
    intro d fields
    have h := tracker_bodies (o := o) d
    unfold finishReply
    dsimp only
    repeat' split
    all_goals exact h
  have h1 := testPred_bodies (o := o) c id pred
  unfold applySendReply
  generalize testPred o c id pred = q at h1 ⊢
  obtain ⟨a, c1⟩ := q
  dsimp only at h1
  cases a with
  | pending => exact h1
  | err => exact h1
  | available b =>
    cases b with
    | false => exact h1
    | true =>
      dsimp only
      have h2 := h1.trans (evalExpr_bodies (o := o) c1 id e)
      generalize evalExpr o c1 id e = q at h2 ⊢
      obtain ⟨a, c2⟩ := q
      dsimp only at h2
      split
      · rename_i heq
        cases heq
        exact h2.trans (hf _ _)
      · rename_i heq
        cases heq
        exact h2

theorem applyHeaders_bodies (c : Ctx H) (id pred e target terminal) :
    SameBodies c (applyHeaders o c id pred e target terminal).2 := by
  have h1 := testPred_bodies (o := o) c id pred
  unfold applyHeaders
  generalize testPred o c id pred = q at h1 ⊢
  obtain ⟨a, c1⟩ := q
  dsimp only at h1
  cases a with
  | pending => exact h1
  | err => exact h1
  | available b =>
    cases b with
    | false => exact h1
    | true =>
      dsimp only
      have h2 := h1.trans (evalExpr_bodies (o := o) c1 id e)
      generalize evalExpr o c1 id e = q at h2 ⊢
      obtain ⟨a, c2⟩ := q
      dsimp only at h2
      cases a with
      | pending => exact h2
      | err => exact h2
      | available v =>
        dsimp only
        repeat' split
        all_goals first | exact h2 | (cases terminal <;> exact h2)

theorem applyFail_bodies (c : Ctx H) (id pred terminal) : SameBodies c (applyFail o c id pred terminal).2 := by
  have h1 := testPred_bodies (o := o) c id pred
  unfold applyFail
  generalize testPred o c id pred = q at h1 ⊢
  obtain ⟨a, c1⟩ := q
  dsimp only at h1
  cases a with
  | pending => dsimp only; split <;> exact h1
  | err => exact h1
  | available b => cases b <;> cases terminal <;> exact h1

theorem applyPending_bodies (c : Ctx H) (id guard svc var r) :
    SameBodies c (applyPending o c id guard svc var r).2 := by
  have h : SameBodies c (processResponse o c id svc var r).2 := by
    unfold processResponse
    repeat' split
    all_goals dsimp only
    all_goals repeat' split
    all_goals exact ⟨rfl, rfl⟩
  unfold applyPending
  dsimp only
  generalize processResponse o c id svc var r = q at h ⊢
  cases guard <;> exact h

theorem tokenUsage_req (c : Ctx H) (s fields) : (applyTokenUsage o c s fields).2.req = c.req := by
  have hf : ∀ (d : Ctx H) s, (tokenFinish o d s fields).2.req = d.req := by
    intro d s
    unfold tokenFinish
    split <;> rfl
  have hc : (chooseStrategy o c s).2.req = c.req := by
    unfold chooseStrategy
    repeat' split
    all_goals rfl
  unfold applyTokenUsage
  dsimp only
  generalize chooseStrategy o c s = q at hc ⊢
  obtain ⟨a, c1⟩ := q
  cases a with
  | pending => exact hc
  | err => exact hc
  | available s' =>
    dsimp only
    split
    · split
      · exact (hf _ _).trans hc
      · exact (hf _ _).trans hc
      · exact hc
      · exact hc
    · exact (hf _ _).trans hc

/-- Only store actions and token counting touch the bodies. -/
theorem core_bodies (c : Ctx H) (k : Core) (h1 : ∀ id pred e path x terminal s, k ≠ .store id pred e path x terminal s)
    (h2 : ∀ s fields, k ≠ .tokenUsage s fields) : SameBodies c (k.apply o c).2 := by
  cases k with
  | grpc => exact applyGrpc_bodies ..
  | sendReply => exact applySendReply_bodies ..
  | headers => exact applyHeaders_bodies ..
  | store => exact absurd rfl (h1 _ _ _ _ _ _ _)
  | fail => exact applyFail_bodies ..
  | tokenUsage => exact absurd rfl (h2 _ _)
  | pending => exact applyPending_bodies ..
  | noop id guard => cases guard <;> exact .refl _
  | noopTerminal => exact .refl _

/-! ### The whole run -/

/-- What store actions have been fed of the request body. -/
def StoreFed (lib : JsonLib) (body : Bytes) : Core → Prop
  | .store _ _ _ _ _ _ s => Feeding lib .request body s
  | _ => True

/-- As much of the request body as was announced, and the fields known of it. -/
def BodyOK (lib : JsonLib) (body : Bytes) (c : Ctx H) : Prop :=
  c.req.size ≤ body.length ∧ (c.req.eos = true → c.req.size = body.length) ∧ KnowsBody lib .request body c

theorem BodyOK.same {lib : JsonLib} {body : Bytes} {c c' : Ctx H} (h : BodyOK lib body c) (hr : c'.req = c.req) :
    BodyOK lib body c' := by
  obtain ⟨h1, h2, h3⟩ := h
  refine ⟨by rw [hr]; exact h1, by rw [hr]; exact h2, ?_⟩
  intro f v hf
  refine h3 f v ?_
  have : (c'.body .request) = (c.body .request) := hr
  rw [← this]
  exact hf

theorem storeFed_all {lib : JsonLib} {body : Bytes} {k k' : Core} (h : Core.All (StoreFed lib body) k)
    (ha : Again k k') (hs : ∀ id pred e path x terminal s, k ≠ .store id pred e path x terminal s) :
    Core.All (StoreFed lib body) k' := by
  cases ha with
  | same => exact h
  | store => exact absurd rfl (hs _ _ _ _ _ _ _)
  | tokenUsage => exact .mk _ trivial (by simp [Core.children])

theorem res_fed {lib : JsonLib} {body : Bytes} {k : Core} {c c' : Ctx H} {out : Outcome}
    (h : Res k c out c') (hk : Core.All (StoreFed lib body) k)
    (hs : ∀ id pred e path x terminal s, k ≠ .store id pred e path x terminal s) :
    ∀ t ∈ out.tasks, Core.All (StoreFed lib body) t.strip := by
  cases h with
  | plain es hw hx hl ho =>
    cases ho with
    | requeued t ha =>
      intro t' ht
      simp only [Outcome.tasks, List.mem_singleton] at ht
      subst ht
      exact storeFed_all hk ha hs
    | _ => simp [Outcome.tasks]
  | sent id deps guard pred msg var svc onReply token bytes rid p hk' hp hx hr =>
    intro t' ht
    simp only [Outcome.tasks, List.mem_singleton] at ht
    subst ht hk'
    rw [hp]
    exact .mk _ trivial hk.sub
  | answered id guard svc var onReply es hk' hx hl ho =>
    cases ho with
    | requeued ts ha =>
      intro t' ht
      subst hk'
      refine hk.sub t'.strip ?_
      simp only [Core.children, ← ha]
      exact List.mem_map_of_mem ht
    | _ => simp [Outcome.tasks]
  | dropped => simp [Outcome.tasks]

/-- What a store action leaves when the body was read well. -/
theorem applyStore_fed {body : Bytes} {c : Ctx H} (id pred e path x terminal s)
    (hc : BodyOK o.json body c) (hr : ReadsWell o.json .request body c (storeBody o c s)) :
    BodyOK o.json body (applyStore o c id pred e path x terminal s).2 ∧
    ∀ t ∈ (applyStore o c id pred e path x terminal s).1.tasks, Core.All (StoreFed o.json body) t.strip := by
  have task : ∀ s', Feeding o.json .request body s' →
      ∀ t ∈ (Outcome.requeued [.core (.store id pred e path x terminal s')]).tasks,
        Core.All (StoreFed o.json body) t.strip := by
    intro s' hs' t ht
    simp only [Outcome.tasks, List.mem_singleton] at ht
    subst ht
    exact .mk _ hs' (by simp [Core.children, PTask.strip])
  have hstore : ∀ (d : Ctx H) v, (storeValue d path v terminal).2.req = d.req ∧
      ∀ t ∈ (storeValue d path v terminal).1.tasks, Core.All (StoreFed o.json body) t.strip := by
    intro d v
    unfold storeValue
    cases terminal <;> exact ⟨rfl, by simp [Outcome.tasks]⟩
  unfold applyStore
  dsimp only
  generalize storeBody o c s = r at hr ⊢
  cases r with
  | requeue s' d => exact ⟨hc.same hr.2, task s' hr.1⟩
  | fail d => exact ⟨hc.same hr, by simp [Outcome.tasks]⟩
  | ready s' d =>
    obtain ⟨h1, h2, h3, h4⟩ := hr
    have hd : BodyOK o.json body d := by
      refine ⟨?_, ?_, h2 hc.2.2⟩
      · exact Nat.le_trans (Nat.le_of_eq h3) hc.1
      · intro he
        exact h3.trans (hc.2.1 (h4 ▸ he))
    dsimp only
    have g1 := testPred_bodies (o := o) d id pred
    generalize testPred o d id pred = q at g1 ⊢
    obtain ⟨a, d1⟩ := q
    dsimp only at g1
    cases a with
    | pending => exact ⟨hd.same g1.1, task s' h1⟩
    | err => exact ⟨hd.same g1.1, by simp [Outcome.tasks]⟩
    | available b =>
      cases b with
      | false => exact ⟨hd.same g1.1, by simp [Outcome.tasks]⟩
      | true =>
        dsimp only
        have g2 := g1.trans (evalExpr_bodies (o := o) d1 id e)
        generalize evalExpr o d1 id e = q at g2 ⊢
        obtain ⟨a, d2⟩ := q
        cases a with
        | pending => exact ⟨hd.same g2.1, task s' h1⟩
        | err => exact ⟨hd.same g2.1, by simp [Outcome.tasks]⟩
        | available v =>
          dsimp only
          split
          · split
            · exact ⟨hd.same g2.1, by simp [Outcome.tasks]⟩
            · split
              · exact ⟨hd.same g2.1, by simp [Outcome.tasks]⟩
              · exact ⟨hd.same ((hstore _ _).1.trans g2.1), (hstore _ _).2⟩
              · exact ⟨hd.same ((hstore _ _).1.trans g2.1), (hstore _ _).2⟩
          · exact ⟨hd.same ((hstore _ _).1.trans g2.1), (hstore _ _).2⟩

theorem core_req (c : Ctx H) (k : Core) (h1 : ∀ id pred e path x terminal s, k ≠ .store id pred e path x terminal s) :
    (k.apply o c).2.req = c.req := by
  by_cases h : ∃ s fields, k = .tokenUsage s fields
  · obtain ⟨s, fields, rfl⟩ := h
    exact tokenUsage_req c s fields
  · exact (core_bodies c k h1 fun s fields heq => h ⟨s, fields, heq⟩).1

theorem BodyOK.accumulated {body : Bytes} {c : Ctx H} (h : BodyOK o.json body c)
    (hr : ∀ c off len bytes h, off + len ≤ (c : Ctx H).req.size →
      o.readBody c .request off len = (.available (some bytes), h) → bytes = (body.drop off).take len) :
    Accumulated o .request body c :=
  ⟨h.1, h.2.1, fun x off len bytes _ _ hle hx => hr (c.withHost x) off len bytes _ hle hx⟩

theorem fed_joint (body : Bytes)
    (hr : ∀ c off len bytes h, off + len ≤ (c : Ctx H).req.size →
      o.readBody c .request off len = (.available (some bytes), h) → bytes = (body.drop off).take len) :
    Joint o (StoreFed o.json body) (BodyOK o.json body) where
  noop _ _ := trivial
  start k c hall hw hi := by
    have hi' : BodyOK o.json body (c.push (.applied k.id)) := hi.same rfl
    by_cases h : ∃ id pred e path x terminal s, k = .store id pred e path x terminal s
    · obtain ⟨id, pred, e, path, x, terminal, s, rfl⟩ := h
      exact applyStore_fed id pred e path x terminal s hi'
        (storeBody_reads (hi'.accumulated hr) hall.here (fun h => by cases h))
    · have hne : ∀ id pred e path x terminal s, k ≠ .store id pred e path x terminal s :=
        fun id pred e path x terminal s heq => h ⟨id, pred, e, path, x, terminal, s, heq⟩
      exact ⟨hi'.same (core_req _ k hne), res_fed (core_res o _ k) hall hne⟩
  respond k c token s z hall hw hi := by
    have hne : ∀ id pred e path x terminal s, k ≠ .store id pred e path x terminal s := by
      intro id pred e path x terminal s heq
      subst heq
      simp [Core.waits] at hw
    refine ⟨?_, res_fed (core_res o _ k) hall hne⟩
    refine BodyOK.same (c := c) hi ?_
    exact (core_req _ k hne).trans rfl
  last c hi := hi.same (core_req c defaultCore (fun _ _ _ _ _ _ _ h => by cases h))
  aside c c' hi _ h1 _ := hi.same h1

theorem fed_ready {body : Bytes}
    (hr : ∀ c off len bytes h, off + len ≤ (c : Ctx H).req.size →
      o.readBody c .request off len = (.available (some bytes), h) → bytes = (body.drop off).take len)
    (c : Ctx H) (id pred e path x terminal state state') (c1 : Ctx H)
    (hq : StoreFed o.json body (.store id pred e path x terminal state)) (hi : BodyOK o.json body c)
    (h : storeBody o (c.push (.applied id)) state = .ready state' c1) : KnowsBody o.json .request body c1 := by
  have hi' : BodyOK o.json body (c.push (.applied id)) := hi.same rfl
  have hw := storeBody_reads (hi'.accumulated hr) hq (fun h => by cases h)
  rw [h] at hw
  exact hw.2.1 hi'.2.2

/-- A new store action has no parser yet. -/
theorem initial_feeding (lib : JsonLib) (source : Source) (body : Bytes) (pred e : Expr) :
    Feeding lib source body (initialParseState pred e) := by
  intro p hp
  unfold initialParseState at hp
  dsimp only at hp
  repeat' split at hp
  all_goals cases hp

theorem built_fed {lib : JsonLib} {body : Bytes} {parse : Text → Option Expr} {cfg : PluginConfig} {s : ActionSet}
    {c : Ctx H} {b : Blueprint} {p : Pipe H} (hb : Built c b p) (hfs : FromSet parse cfg s b) :
    Tasks (StoreFed lib body) p [] := by
  refine built_all' hb (R := Origin parse cfg s) (fromSet_origin hfs) ?_ fun _ => trivial
  intro a k _ hm
  cases hm with
  | store head path e x => exact initial_feeding lib .request body _ _
  | _ => trivial

/-! ### Single store actions -/

theorem store_again {c c' : Ctx H} {id pred e path x terminal s k'}
    (h : (Core.store id pred e path x terminal s).apply o c = (.requeued [.core k'], c')) :
    ∃ s' d, k' = .store id pred e path x terminal s' ∧
      (storeBody o c s = .requeue s' d ∨ storeBody o c s = .ready s' d) := by
  have hstore : ∀ (d : Ctx H) v, (storeValue d path v terminal).1 ≠ .requeued [.core k'] := by
    intro d v
    unfold storeValue
    cases terminal <;> exact fun h => by cases h
  have h1 : (applyStore o c id pred e path x terminal s).1 = .requeued [.core k'] := congrArg Prod.fst h
  unfold applyStore at h1
  dsimp only at h1
  generalize storeBody o c s = r at h1 ⊢
  cases r with
  | requeue s' d => cases h1; exact ⟨s', d, rfl, .inl rfl⟩
  | fail d => cases h1
  | ready s' d =>
    dsimp only at h1
    generalize testPred o d id pred = q at h1
    obtain ⟨a, d1⟩ := q
    cases a with
    | pending => cases h1; exact ⟨s', d, rfl, .inr rfl⟩
    | err => cases h1
    | available b =>
      cases b with
      | false => cases h1
      | true =>
        dsimp only at h1
        generalize evalExpr o d1 id e = q at h1
        obtain ⟨a, d2⟩ := q
        cases a with
        | pending => cases h1; exact ⟨s', d, rfl, .inr rfl⟩
        | err => cases h1
        | available v =>
          dsimp only at h1
          repeat' split at h1
          all_goals first | exact absurd h1 (hstore _ _) | cases h1

/-- The parser of a JSON body has read all that was announced, unless it was done before. -/
def CaughtUp (source : Source) (n : Nat) (s : ParseState) : Prop :=
  ∃ b, s = .active source (.json b) ∧ (b.complete = true ∨ n ≤ b.consumed)

theorem feed_consumed {lib : JsonLib} {b b' : JsonBody} {chunk : Bytes} (h : b.feed lib chunk = some b') :
    b'.consumed = b.consumed + chunk.length := by
  unfold JsonBody.feed at h
  dsimp only at h
  split at h
  · cases h; rfl
  · split at h
    · cases h
    · split at h
      · exact (finalizeExtracted_spec h).2.2.1
      · cases h; rfl

theorem storeFinish_caught {source : Source} {c d : Ctx H} {b : JsonBody} {s' : ParseState}
    (hc : b.complete = true ∨ (c.body source).size ≤ b.consumed)
    (h : storeFinish o c source (.json b) = .requeue s' d ∨ storeFinish o c source (.json b) = .ready s' d) :
    CaughtUp source (c.body source).size s' := by
  unfold storeFinish at h
  dsimp only at h
  split at h
  · split at h
    · rcases h with h | h <;> cases h
    · rename_i p hp
      split at h
      · rcases h with h | h
        · cases h
        · cases h
          simp only [BodyParser.finalize] at hp
          obtain ⟨b', hb, rfl⟩ := Option.map_eq_some_iff.1 hp
          unfold JsonBody.finalize at hb
          split at hb
          · obtain ⟨_, _, h3, h4, _⟩ := finalizeExtracted_spec hb
            refine ⟨b', rfl, ?_⟩
            rw [h3, h4]
            exact hc
          · cases hb
      · rcases h with h | h <;> cases h
  · rcases h with h | h
    · cases h
    · cases h
      exact ⟨b, rfl, hc⟩

theorem storeRead_caught {source : Source} {c d : Ctx H} {b : JsonBody} {s' : ParseState}
    (hpos : 0 < (c.body source).size ∨ (c.body source).eos = true)
    (hr : ∀ off len, off + len ≤ (c.body source).size →
      ∃ bytes h', bytes.length = len ∧ o.readBody c source off len = (.available (some bytes), h'))
    (h : storeRead o c source (.json b) = .requeue s' d ∨ storeRead o c source (.json b) = .ready s' d) :
    CaughtUp source (c.body source).size s' := by
  unfold storeRead at h
  dsimp only at h
  split at h
  · rename_i h0
    rcases hpos with hpos | hpos
    · omega
    · rw [hpos] at h0; exact absurd h0.2 (by simp)
  · split at h
    · rename_i hlt
      replace hlt : b.consumed < (c.body source).size := hlt
      obtain ⟨bytes, h', hlen, hb⟩ := hr b.consumed ((c.body source).size - b.consumed) (by omega)
      rw [show (BodyParser.json b).consumed = b.consumed from rfl, hb] at h
      dsimp only [BodyParser.feed] at h
      cases hf : b.feed o.json bytes with
      | none => rw [hf] at h; rcases h with h | h <;> cases h
      | some b' =>
        rw [hf] at h
        have := feed_consumed hf
        have hsz : ((c.withHost h').body source).size = (c.body source).size := by rw [body_withHost]
        rw [← hsz]
        refine storeFinish_caught (.inr ?_) h
        rw [hsz]; omega
    · rename_i hlt
      replace hlt : ¬ b.consumed < (c.body source).size := hlt
      exact storeFinish_caught (.inr (by omega)) h

theorem Feeding.pending {lib : JsonLib} {source : Source} {body : Bytes} {src : Source} {fields : List Text} :
    Feeding lib source body (.pending src fields) := fun p hp => by cases hp

/-- What an evaluation leaves when it asks for another one. -/
theorem store_step {source : Source} {body : Bytes} {c c' : Ctx H} {id pred e path x terminal s k'}
    (ha : Accumulated o source body c) (hp : PlainBody o source c) (hs : Feeding o.json source body s)
    (h : (Core.store id pred e path x terminal s).apply o c = (.requeued [.core k'], c')) :
    ∃ s', k' = .store id pred e path x terminal s' ∧ Feeding o.json source body s' := by
  obtain ⟨s', d, hk, hb⟩ := store_again h
  have hr := storeBody_reads ha hs hp.flag
  refine ⟨s', hk, ?_⟩
  rcases hb with hb | hb <;> rw [hb] at hr <;> exact hr.1

theorem json_feed_fields {lib : JsonLib} {b b' : JsonBody} {chunk : Bytes} (h : b.feed lib chunk = some b') :
    b'.fields = b.fields := by
  unfold JsonBody.feed at h
  dsimp only at h
  split at h
  · cases h; rfl
  · split at h
    · cases h
    · split at h
      · exact (finalizeExtracted_spec h).1
      · cases h; rfl

theorem push_fields (l : List Sse.Event) (b : SseBody) : (l.foldl SseBody.push b).fields = b.fields := by
  induction l generalizing b with
  | nil => rfl
  | cons e l ih => exact ih _

theorem parser_feed_fields {lib : JsonLib} {p p' : BodyParser} {chunk : Bytes} (h : p.feed lib chunk = some p') :
    p'.fields = p.fields := by
  cases p with
  | json b =>
    obtain ⟨b', hb, rfl⟩ := Option.map_eq_some_iff.1 h
    exact json_feed_fields hb
  | sse b =>
    obtain ⟨b', hb, rfl⟩ := Option.map_eq_some_iff.1 h
    unfold SseBody.feed at hb
    split at hb
    · cases hb; rfl
    · split at hb
      · cases hb
      · cases hb; exact push_fields _ _

/-- The fields found in a document are added. -/
def foundIn (lib : JsonLib) (json : Json) (b : SseBody) (field : Text) : SseBody :=
  match lib.pointer json field with
  | none => b
  | some (.str s) => { b with extracted := mapInsert b.extracted field (.str s) }
  | some other => { b with
      extracted := mapInsert b.extracted field (parseJsonScalar lib.parseF64 (lib.render other)) }

theorem foundIn_fields (lib : JsonLib) (json : Json) (l : List Text) (b : SseBody) :
    (l.foldl (foundIn lib json) b).fields = b.fields := by
  induction l generalizing b with
  | nil => rfl
  | cons f l ih =>
    refine (ih _).trans ?_
    unfold foundIn
    repeat' split
    all_goals rfl

theorem sse_finalize {lib : JsonLib} {b b' : SseBody} (h : b.finalize lib = some b') :
    (b.beforeLast = none ∧ b' = { b with complete := true }) ∨
    ∃ e json, b.beforeLast = some e ∧ lib.parse e.data = some json ∧
      b' = b.fields.foldl (foundIn lib json) { b with complete := true } := by
  unfold SseBody.finalize at h
  dsimp only at h
  split at h
  · rename_i hb; cases h; exact .inl ⟨hb, rfl⟩
  · rename_i e hb
    split at h
    · cases h
    · rename_i json hj
      cases h
      refine .inr ⟨e, json, hb, hj, ?_⟩
      rfl

theorem parser_finalize_fields {lib : JsonLib} {p p' : BodyParser} (h : p.finalize lib = some p') :
    p'.fields = p.fields := by
  cases p with
  | json b =>
    obtain ⟨b', hb, rfl⟩ := Option.map_eq_some_iff.1 h
    unfold JsonBody.finalize at hb
    split at hb
    · exact (finalizeExtracted_spec hb).1
    · cases hb
  | sse b =>
    obtain ⟨b', hb, rfl⟩ := Option.map_eq_some_iff.1 h
    rcases sse_finalize hb with ⟨_, rfl⟩ | ⟨e, json, _, _, rfl⟩
    · rfl
    · exact foundIn_fields _ _ _ _

/-- What is known of the source and the fields of the parser. -/
def From (source : Source) (fields : List Text) (s : ParseState) : Prop :=
  s = .pending source fields ∨ ∃ p, s = .active source p ∧ p.fields = fields

theorem storeFinish_from {source : Source} {c d : Ctx H} {p : BodyParser} {s' : ParseState}
    (h : storeFinish o c source p = .requeue s' d ∨ storeFinish o c source p = .ready s' d) :
    ∃ p', s' = .active source p' ∧ p'.fields = p.fields := by
  unfold storeFinish at h
  dsimp only at h
  split at h
  · split at h
    · rcases h with h | h <;> cases h
    · rename_i p1 hp
      split at h
      · rcases h with h | h
        · cases h
        · cases h; exact ⟨_, rfl, parser_finalize_fields hp⟩
      · rcases h with h | h <;> cases h
  · rcases h with h | h
    · cases h
    · cases h; exact ⟨_, rfl, rfl⟩

theorem storeRead_from {source : Source} {c d : Ctx H} {p : BodyParser} {s' : ParseState}
    (h : storeRead o c source p = .requeue s' d ∨ storeRead o c source p = .ready s' d) :
    ∃ p', s' = .active source p' ∧ p'.fields = p.fields := by
  unfold storeRead at h
  dsimp only at h
  split at h
  · rcases h with h | h
    · cases h; exact ⟨_, rfl, rfl⟩
    · cases h
  · split at h
    · split at h
      · rcases h with h | h <;> cases h
      · rcases h with h | h
        · cases h; exact ⟨_, rfl, rfl⟩
        · cases h
      · rcases h with h | h <;> cases h
      · split at h
        · rcases h with h | h <;> cases h
        · rename_i p1 hp
          obtain ⟨p', h1, h2⟩ := storeFinish_from h
          exact ⟨p', h1, h2.trans (parser_feed_fields hp)⟩
    · exact storeFinish_from h

theorem createParser_fields {source : Source} {c d : Ctx H} {fields : List Text} {p : BodyParser}
    (h : createParser o c source fields = (.available p, d)) : p.fields = fields := by
  unfold createParser at h
  dsimp only at h
  have hnew : ∀ b, JsonBody.new o.json fields = some b → b.fields = fields := by
    intro b hb
    unfold JsonBody.new at hb
    split at hb
    · cases hb; rfl
    · cases hb
  cases source with
  | request =>
    dsimp only at h
    split at h
    · rename_i b hb; cases h; exact hnew b hb
    · cases h
  | response =>
    dsimp only at h
    split at h
    · cases h
    · split at h
      · rename_i b hb; cases h; exact hnew b hb
      · cases h
    · split at h
      · cases h; rfl
      · split at h
        · rename_i b hb; cases h; exact hnew b hb
        · cases h

theorem storeBody_from {source : Source} {fields : List Text} {c d : Ctx H} {s s' : ParseState}
    (hs : From source fields s) (h : storeBody o c s = .requeue s' d ∨ storeBody o c s = .ready s' d) :
    From source fields s' := by
  rcases hs with rfl | ⟨p, rfl, hp⟩
  · unfold storeBody at h
    dsimp only at h
    split at h
    · rename_i p c1 hcr
      obtain ⟨p', h1, h2⟩ := storeRead_from h
      exact .inr ⟨p', h1, h2.trans (createParser_fields hcr)⟩
    · rcases h with h | h
      · cases h; exact .inl rfl
      · cases h
    · rcases h with h | h <;> cases h
  · obtain ⟨p', h1, h2⟩ := storeRead_from h
    exact .inr ⟨p', h1, h2.trans hp⟩

theorem reads_length {source : Source} {body : Bytes} {c : Ctx H} (ha : Accumulated o source body c)
    (hr : Answers o source c) (x : H) (hx : Soon o c x) (off len : Nat) (hle : off + len ≤ (c.body source).size) :
    ∃ bytes h', bytes.length = len ∧ o.readBody (c.withHost x) source off len = (.available (some bytes), h') := by
  obtain ⟨bytes, h', hb⟩ := hr.reads x off len hx hle
  refine ⟨bytes, h', ?_, hb⟩
  rw [ha.reads x off len bytes h' hx hle hb, List.length_take, List.length_drop]
  have := ha.size
  omega

theorem storeBody_caught {source : Source} {fields : List Text} {body : Bytes} {c d : Ctx H} {s s' : ParseState}
    (ha : Accumulated o source body c) (hp : PlainBody o source c) (hr : Answers o source c)
    (hs : Feeding o.json source body s) (hf : From source fields s)
    (h : storeBody o c s = .requeue s' d ∨ storeBody o c s = .ready s' d) :
    CaughtUp source (c.body source).size s' := by
  rcases hf with rfl | ⟨p, rfl, _⟩
  · unfold storeBody at h
    dsimp only at h
    split at h
    · rename_i p c1 hcr
      obtain ⟨rfl, x, hsoon, rfl⟩ := createParser_json hp.flag hcr
      have := storeRead_caught (by rw [body_withHost]; exact hr.size)
        (by rw [body_withHost]; exact fun off len => reads_length ha hr x hsoon off len) h
      rw [body_withHost] at this
      exact this
    · rename_i c1 hcr
      exfalso
      unfold createParser at hcr
      dsimp only at hcr
      cases source with
      | request =>
        dsimp only at hcr
        split at hcr <;> cases hcr
      | response =>
        have := hr.headers rfl
        dsimp only at hcr
        generalize o.getHeaders c .response = g at hcr this
        obtain ⟨a, x⟩ := g
        cases a with
        | pending => exact this rfl
        | err => dsimp only at hcr; split at hcr <;> cases hcr
        | available hs =>
          dsimp only at hcr
          split at hcr
          · cases hcr
          · split at hcr <;> cases hcr
    · rcases h with h | h <;> cases h
  · obtain ⟨b, rfl, _⟩ := hs p rfl
    exact storeRead_caught hr.size (fun off len => reads_length ha hr c.host (.inl rfl) off len) h

/-- All the evaluations of a store action. -/
theorem store_evaluations {source : Source} {fields : List Text} {body : Bytes} {id pred e path x terminal} {k k' : Core}
    {cs : List (Ctx H)} (h : Evaluations o k cs k') (s : ParseState) (hk : k = .store id pred e path x terminal s)
    (hs : Feeding o.json source body s) (hf : From source fields s)
    (ha : ∀ c ∈ cs, Accumulated o source body c) (hp : ∀ c ∈ cs, PlainBody o source c) :
    ∃ s', k' = .store id pred e path x terminal s' ∧ Feeding o.json source body s' ∧ From source fields s' ∧
      ∀ c, cs.getLast? = some c → Answers o source c → CaughtUp source (c.body source).size s' := by
  induction h generalizing s with
  | none k => exact ⟨s, hk, hs, hf, by simp⟩
  | @again k k1 k2 c c' cs h1 h2 ih =>
    subst hk
    obtain ⟨s1, d, hk1, hb⟩ := store_again h1
    have hac := ha c (by simp)
    have hpc := hp c (by simp)
    have hr := storeBody_reads hac hs hpc.flag
    have hs1 : Feeding o.json source body s1 := by
      rcases hb with hb | hb <;> rw [hb] at hr <;> exact hr.1
    have hcaught : Answers o source c → CaughtUp source (c.body source).size s1 := fun hans =>
      storeBody_caught hac hpc hans hs hf hb
    obtain ⟨s2, g1, g2, g3, g4⟩ := ih s1 hk1 hs1 (storeBody_from hf hb) (fun c hc => ha c (by simp [hc]))
      (fun c hc => hp c (by simp [hc]))
    refine ⟨s2, g1, g2, g3, ?_⟩
    cases cs with
    | nil =>
      intro c1 hc1 hans
      simp at hc1
      subst hc1
      cases h2
      rw [hk1] at g1
      cases g1
      exact hcaught hans
    | cons c2 cs =>
      intro c1 hc1
      exact g4 c1 (by simpa using hc1)

/-! ### The end of the body -/

theorem setValue_get (b : Body) (k : Text) (v : Val) (f : Text) :
    mapGet (b.setValue k v).values f = if k = f then some v else mapGet b.values f := by
  unfold Body.setValue
  exact mapGet_insert _ _ _ _

theorem populate_kept (b : Body) (l : List (Text × Val)) (f : Text) (h : ∀ v, (f, v) ∉ l) :
    mapGet (populate b l).values f = mapGet b.values f := by
  induction l generalizing b with
  | nil => rfl
  | cons x l ih =>
    refine (ih (b.setValue x.1 x.2) fun v hv => h v (by simp [hv])).trans ?_
    rw [setValue_get, if_neg]
    intro he
    exact h x.2 (by rw [← he]; simp)

theorem populate_get (b : Body) (l : List (Text × Val)) (f : Text) (h : ∃ v, (f, v) ∈ l) :
    ∃ v, (f, v) ∈ l ∧ mapGet (populate b l).values f = some v := by
  induction l generalizing b with
  | nil => simp at h
  | cons x l ih =>
    by_cases hl : ∃ v, (f, v) ∈ l
    · obtain ⟨v, h1, h2⟩ := ih (b.setValue x.1 x.2) hl
      exact ⟨v, by simp [h1], h2⟩
    · obtain ⟨v, hv⟩ := h
      rcases List.mem_cons.1 hv with rfl | hv
      · refine ⟨v, by simp, ?_⟩
        refine (populate_kept (b.setValue f v) l f fun w hw => hl ⟨w, hw⟩).trans ?_
        rw [setValue_get, if_pos rfl]
      · exact absurd ⟨v, hv⟩ hl

/-- The state of the bodies after a store action whose body was read. -/
theorem applyStore_bodies {c d : Ctx H} {s s' : ParseState} (id pred e path x terminal)
    (h : storeBody o c s = .ready s' d) : SameBodies d (applyStore o c id pred e path x terminal s).2 := by
  have hstore : ∀ (d : Ctx H) v, SameBodies d (storeValue d path v terminal).2 := by
    intro d v
    unfold storeValue
    cases terminal <;> exact ⟨rfl, rfl⟩
  unfold applyStore
  dsimp only
  rw [h]
  dsimp only
  have g1 := testPred_bodies (o := o) d id pred
  generalize testPred o d id pred = q at g1 ⊢
  obtain ⟨a, d1⟩ := q
  dsimp only at g1
  cases a with
  | pending => exact g1
  | err => exact g1
  | available b =>
    cases b with
    | false => exact g1
    | true =>
      dsimp only
      have g2 := g1.trans (evalExpr_bodies (o := o) d1 id e)
      generalize evalExpr o d1 id e = q at g2 ⊢
      obtain ⟨a, d2⟩ := q
      cases a with
      | pending => exact g2
      | err => exact g2
      | available v =>
        dsimp only
        repeat' split
        all_goals first | exact g2 | exact g2.trans (hstore _ _)

theorem applyStore_fail {c d : Ctx H} {s : ParseState} (id pred e path x terminal)
    (h : storeBody o c s = .fail d) : (applyStore o c id pred e path x terminal s).1 = .failed := by
  unfold applyStore
  dsimp only
  rw [h]

theorem mapGet_isSome {β : Type} {m : List (Text × β)} {k : Text} (h : (mapGet m k).isSome) : ∃ v, (k, v) ∈ m := by
  obtain ⟨v, hv⟩ := Option.isSome_iff_exists.1 h
  unfold mapGet at hv
  obtain ⟨e, he, rfl⟩ := Option.map_eq_some_iff.1 hv
  have h1 := List.mem_of_find?_eq_some he
  have h2 := List.find?_some he
  simp at h2
  exact ⟨e.2, by rw [← h2]; exact h1⟩

/-- Finalisation publishes all fields or fails. -/
theorem storeFinish_end {c : Ctx H} {source : Source} {p : BodyParser} (he : (c.body source).eos = true) :
    (∃ d, storeFinish o c source p = .fail d) ∨
    ∃ p' s' d, storeFinish o c source p = .ready s' d ∧ p.finalize o.json = some p' ∧
      d.body source = populate (c.body source) p'.extracted ∧
      ∀ f ∈ p'.fields, ∃ v, (f, v) ∈ p'.extracted := by
  unfold storeFinish
  dsimp only
  rw [if_pos he]
  cases hp : p.finalize o.json with
  | none => exact .inl ⟨_, rfl⟩
  | some p' =>
    dsimp only
    split
    · rename_i hr
      refine .inr ⟨p', _, _, rfl, rfl, body_setBody _ _ _, ?_⟩
      intro f hf
      unfold BodyParser.remaining at hr
      rw [List.isEmpty_iff, List.filter_eq_nil_iff] at hr
      have := hr f hf
      exact mapGet_isSome (by simpa [Option.isSome_iff_ne_none] using this)
    · exact .inl ⟨_, rfl⟩

theorem storeRead_end {source : Source} {body : Bytes} {c : Ctx H} {b : JsonBody} (ha : AccumulatedAt o source body c)
    (ht : Tracks o.json body b) (he : (c.body source).eos = true)
    (hr : ∀ off len, off + len ≤ (c.body source).size →
      ∃ bytes h', o.readBody c source off len = (.available (some bytes), h')) :
    (∃ d, storeRead o c source (.json b) = .fail d) ∨
    ∃ b' s' d, storeRead o c source (.json b) = .ready s' d ∧ Tracks o.json body b' ∧ b'.fields = b.fields ∧
      d.body source = populate (c.body source) b'.extracted ∧ ∀ f ∈ b.fields, ∃ v, (f, v) ∈ b'.extracted := by
  have fin : ∀ (x : H) (b1 : JsonBody), Tracks o.json body b1 → b1.fields = b.fields → b1.consumed = body.length →
      (∃ d, storeFinish o (c.withHost x) source (.json b1) = .fail d) ∨
      ∃ b' s' d, storeFinish o (c.withHost x) source (.json b1) = .ready s' d ∧ Tracks o.json body b' ∧
        b'.fields = b.fields ∧
        d.body source = populate (c.body source) b'.extracted ∧ ∀ f ∈ b.fields, ∃ v, (f, v) ∈ b'.extracted := by
    intro x b1 h1 h2 h3
    rcases storeFinish_end (o := o) (c := c.withHost x) (source := source) (p := .json b1)
      (by rw [body_withHost]; exact he) with ⟨d, hd⟩ | ⟨p', s', d, g1, g2, g3, g4⟩
    · exact .inl ⟨d, hd⟩
    · obtain ⟨b', hb, rfl⟩ := Option.map_eq_some_iff.1 g2
      have hfl : b'.fields = b1.fields := parser_finalize_fields g2
      refine .inr ⟨b', s', d, g1, (h1.finalize h3 hb).1, hfl.trans h2, ?_, ?_⟩
      · rw [g3, body_withHost]; rfl
      · intro f hf
        refine g4 f ?_
        show f ∈ b'.fields
        rw [hfl, h2]; exact hf
  unfold storeRead
  dsimp only
  split
  · rename_i h0
    rw [he] at h0
    exact absurd h0.2 (by simp)
  · split
    · rename_i hlt
      replace hlt : b.consumed < (c.body source).size := hlt
      obtain ⟨bytes, h', hb⟩ := hr b.consumed ((c.body source).size - b.consumed) (by omega)
      have hby := ha.reads b.consumed ((c.body source).size - b.consumed) bytes h' (by omega) hb
      rw [show (BodyParser.json b).consumed = b.consumed from rfl, hb]
      dsimp only [BodyParser.feed]
      cases hf : b.feed o.json bytes with
      | none => exact .inl ⟨_, rfl⟩
      | some b1 =>
        rw [hby] at hf
        have hsz := ha.size
        obtain ⟨g1, g2⟩ := ht.feed (by omega) hf
        have hw := ha.whole he
        exact fin h' b1 g1 (json_feed_fields hf) (by omega)
    · rename_i hlt
      replace hlt : ¬ b.consumed < (c.body source).size := hlt
      have hw := ha.whole he
      have hle := ht.le
      exact fin c.host b ht rfl (by omega)

theorem storeBody_end {source : Source} {fields : List Text} {body : Bytes} {c : Ctx H} {s : ParseState}
    (ha : Accumulated o source body c) (hp : PlainBody o source c) (hr : Answers o source c)
    (hs : Feeding o.json source body s) (hf : From source fields s) (he : (c.body source).eos = true) :
    (∃ d, storeBody o c s = .fail d) ∨
    ∃ b' s' d, storeBody o c s = .ready s' d ∧ Tracks o.json body b' ∧ b'.fields = fields ∧
      d.body source = populate (c.body source) b'.extracted ∧ ∀ f ∈ fields, ∃ v, (f, v) ∈ b'.extracted := by
  rcases hf with rfl | ⟨p, rfl, hfl⟩
  · unfold storeBody
    dsimp only
    split
    · rename_i p c1 hcr
      obtain ⟨rfl, x, hsoon, rfl⟩ := createParser_json hp.flag hcr
      have ha' := ha.soon hsoon
      rcases storeRead_end (b := { fields }) ha' (.new _ _ _) (by rw [body_withHost]; exact he)
        (by rw [body_withHost]; exact fun off len h => hr.reads x off len hsoon h) with h | ⟨b', s', d, g1, g2, g3, g4, g5⟩
      · exact .inl h
      · rw [body_withHost] at g4
        exact .inr ⟨b', s', d, g1, g2, g3, g4, g5⟩
    · rename_i c1 hcr
      exfalso
      unfold createParser at hcr
      dsimp only at hcr
      cases source with
      | request =>
        dsimp only at hcr
        split at hcr <;> cases hcr
      | response =>
        have := hr.headers rfl
        dsimp only at hcr
        generalize o.getHeaders c .response = g at hcr this
        obtain ⟨a, x⟩ := g
        cases a with
        | pending => exact this rfl
        | err => dsimp only at hcr; split at hcr <;> cases hcr
        | available hs =>
          dsimp only at hcr
          split at hcr
          · cases hcr
          · split at hcr <;> cases hcr
    · exact .inl ⟨_, rfl⟩
  · obtain ⟨b, rfl, ht⟩ := hs p rfl
    rcases storeRead_end ha.here ht he (fun off len h => hr.reads c.host off len (.inl rfl) h) with h | ⟨b', s', d, g1, g2, g3, g4, g5⟩
    · exact .inl h
    · exact .inr ⟨b', s', d, g1, g2, g3.trans hfl, g4, by rw [← hfl]; exact g5⟩

/-! ### Event streams -/

/-- One chunk, if there is anything in it. -/
def Took (b : SseBody) (chunk : Bytes) (b' : SseBody) : Prop :=
  (chunk = [] ∧ b' = b) ∨ (chunk ≠ [] ∧ b.feed chunk = some b')

theorem sse_read {chunk : Bytes} {c : Ctx H} {b : SseBody} (hc : HandedOver o .response chunk c) (x : H)
    (hsoon : Soon o c x) :
    (storeRead o (c.withHost x) .response (.sse b) = .requeue (.active .response (.sse b)) (c.withHost x) ∧
      chunk = [] ∧ (c.body .response).eos = false) ∨
    (∃ d, storeRead o (c.withHost x) .response (.sse b) = .fail d) ∨
    ∃ b' y, Took b chunk b' ∧
      storeRead o (c.withHost x) .response (.sse b) = storeFinish o (c.withHost y) .response (.sse b') := by
  have hsz := hc.size
  have hsz' : ((c.withHost x).body .response).size = chunk.length := by rw [body_withHost]; exact hsz
  unfold storeRead
  dsimp only
  split
  · rename_i h0
    rw [body_withHost] at h0
    refine .inl ⟨rfl, ?_, h0.2⟩
    have := h0.1
    rw [hsz] at this
    exact List.eq_nil_of_length_eq_zero this
  · right
    split
    · rename_i hlt
      have hlt' : 0 < chunk.length := by rw [← hsz']; exact hlt
      have hne : chunk ≠ [] := List.ne_nil_of_length_pos hlt'
      obtain ⟨h', hb⟩ := hc.reads x 0 chunk.length hsoon
      rw [show (BodyParser.sse b).consumed = 0 from rfl, hsz', Nat.sub_zero, hb]
      simp only [List.drop_zero, List.take_length]
      dsimp only [BodyParser.feed]
      cases hf : b.feed chunk with
      | none => exact .inl ⟨_, rfl⟩
      | some b' => exact .inr ⟨b', h', .inr ⟨hne, hf⟩, rfl⟩
    · rename_i hlt
      have hlt' : ¬ 0 < chunk.length := by rw [← hsz']; exact hlt
      exact .inr ⟨b, x, .inl ⟨List.eq_nil_of_length_eq_zero (by omega), rfl⟩, rfl⟩

/-- The parser of an event stream, or that it is still to be made. -/
def Streaming (fields : List Text) (s : ParseState) (b : SseBody) : Prop :=
  (s = .pending .response fields ∧ b = { fields }) ∨ s = .active .response (.sse b)

theorem createParser_events {c : Ctx H} {fields : List Text} (he : ContentIs o true c) :
    ∃ x, Soon o c x ∧ createParser o c .response fields = (.available (.sse { fields }), c.withHost x) := by
  obtain ⟨hs, h, h1, h2⟩ := ContentIs.flag.1 he
  refine ⟨h, .inr (by rw [h1]), ?_⟩
  unfold createParser
  dsimp only
  rw [h1]
  dsimp only
  rw [h2]
  rfl

theorem sse_body {fields : List Text} {chunk : Bytes} {c : Ctx H} {s : ParseState} {b : SseBody}
    (hs : Streaming fields s b) (hc : HandedOver o .response chunk c) (he : ContentIs o true c) :
    (∃ d, storeBody o c s = .requeue (.active .response (.sse b)) d ∧ chunk = [] ∧ (c.body .response).eos = false) ∨
    (∃ d, storeBody o c s = .fail d) ∨
    ∃ b' y, Took b chunk b' ∧ storeBody o c s = storeFinish o (c.withHost y) .response (.sse b') := by
  rcases hs with ⟨rfl, rfl⟩ | rfl
  · obtain ⟨x, hsoon, hx⟩ := createParser_events (fields := fields) he
    have : storeBody o c (.pending .response fields) = storeRead o (c.withHost x) .response (.sse { fields }) := by
      unfold storeBody
      dsimp only
      rw [hx]
    rw [this]
    rcases sse_read (b := { fields }) hc x hsoon with ⟨h1, h2, h3⟩ | h | h
    · exact .inl ⟨_, h1, h2, h3⟩
    · exact .inr (.inl h)
    · exact .inr (.inr h)
  · rcases sse_read (b := b) hc c.host (.inl rfl) with ⟨h1, h2, h3⟩ | h | h
    · exact .inl ⟨_, h1, h2, h3⟩
    · exact .inr (.inl h)
    · exact .inr (.inr h)

/-- One evaluation per chunk. -/
theorem sse_evaluations {fields : List Text} {id pred e path x terminal} (ws : List (Ctx H × Bytes)) {k k' : Core}
    (h : Evaluations o k (ws.map Prod.fst) k') (s : ParseState) (b : SseBody)
    (hk : k = .store id pred e path x terminal s) (hs : Streaming fields s b)
    (hc : ∀ w ∈ ws, HandedOver o .response w.2 w.1) (he : ∀ w ∈ ws, ContentIs o true w.1)
    (hn : ∀ w ∈ ws, (w.1.body .response).eos = false) :
    ∃ s' b', k' = .store id pred e path x terminal s' ∧ Streaming fields s' b' ∧
      Sse.feedBody b ((ws.map Prod.snd).filter (fun c => !c.isEmpty)) = some b' := by
  induction ws generalizing k s b with
  | nil =>
    cases h
    exact ⟨s, b, hk, hs, rfl⟩
  | cons w ws ih =>
    cases h with
    | @again _ k1 _ _ c' _ h1 h2 =>
      subst hk
      obtain ⟨s1, d, hk1, hb⟩ := store_again h1
      have hn1 := hn w (by simp)
      have next : ∀ b1, Took b w.2 b1 → s1 = .active .response (.sse b1) → ∃ s' b', k' = .store id pred e path x terminal s' ∧
          Streaming fields s' b' ∧
          Sse.feedBody b (((w :: ws).map Prod.snd).filter (fun c => !c.isEmpty)) = some b' := by
        intro b1 ht hs1
        obtain ⟨s', b', g1, g2, g3⟩ := ih h2 s1 b1 hk1 (.inr hs1) (fun w hw => hc w (by simp [hw]))
          (fun w hw => he w (by simp [hw])) (fun w hw => hn w (by simp [hw]))
        refine ⟨s', b', g1, g2, ?_⟩
        rw [List.map_cons]
        rcases ht with ⟨h0, rfl⟩ | ⟨h0, hf⟩
        · rw [List.filter_cons_of_neg (by simp [h0])]; exact g3
        · rw [List.filter_cons_of_pos (by simp [h0])]
          simp only [Sse.feedBody, hf]
          exact g3
      rcases sse_body hs (hc w (by simp)) (he w (by simp)) with ⟨d1, g1, g2, _⟩ | ⟨d1, g1⟩ | ⟨b1, y, g1, g2⟩
      · refine next b (.inl ⟨g2, rfl⟩) ?_
        rw [g1] at hb
        rcases hb with hb | hb
        · cases hb; rfl
        · cases hb
      · rw [g1] at hb
        rcases hb with hb | hb <;> cases hb
      · refine next b1 g1 ?_
        rw [g2] at hb
        unfold storeFinish at hb
        dsimp only at hb
        rw [body_withHost, hn1] at hb
        rcases hb with hb | hb
        · cases hb
        · cases hb; rfl

theorem foundIn_extracted (lib : JsonLib) (json : Json) (l : List Text) (b : SseBody) (f : Text) (v : Val)
    (h : (f, v) ∈ (l.foldl (foundIn lib json) b).extracted) :
    (f, v) ∈ b.extracted ∨ ∃ j, lib.pointer json f = some j ∧
v = eventValue lib j := by
  induction l generalizing b with
  | nil => exact .inl h
  | cons g l ih =>
    rcases ih _ h with h1 | h1
    · unfold foundIn at h1
      split at h1
      · exact .inl h1
      · rename_i s hp
        rcases mem_insert h1 with h2 | h2
        · cases h2; exact .inr ⟨_, hp, rfl⟩
        · exact .inl h2
      · rename_i j hns hp
        rcases mem_insert h1 with h2 | h2
        · cases h2
          refine .inr ⟨_, hp, ?_⟩
          cases j <;> first | rfl | exact absurd rfl (hns _)
        · exact .inl h2
    · exact .inr h1


theorem push_extracted (l : List Sse.Event) (b : SseBody) : (l.foldl SseBody.push b).extracted = b.extracted := by
  induction l generalizing b with
  | nil => rfl
  | cons e l ih => exact ih _

theorem feed_extracted {b b' : SseBody} {chunk : Bytes} (h : b.feed chunk = some b') : b'.extracted = b.extracted := by
  unfold SseBody.feed at h
  split at h
  · cases h; rfl
  · split at h
    · cases h
    · cases h; exact push_extracted _ _

theorem feedBody_extracted (l : List Bytes) {b b' : SseBody} (h : Sse.feedBody b l = some b') :
    b'.extracted = b.extracted ∧ b'.fields = b.fields := by
  induction l generalizing b with
  | nil => cases h; exact ⟨rfl, rfl⟩
  | cons c l ih =>
    simp only [Sse.feedBody] at h
    obtain ⟨b1, h1, h2⟩ := Option.bind_eq_some_iff.1 h
    obtain ⟨g1, g2⟩ := ih h2
    have hf : (BodyParser.sse b).feed (lib := ⟨fun _ => none, fun _ _ => none, fun _ => [], fun _ => none,
        fun _ => true, fun _ _ _ => none, fun _ _ => true, fun _ _ _ => []⟩) c = some (.sse b1) := by
      simp [BodyParser.feed, h1]
    exact ⟨g1.trans (feed_extracted h1), g2.trans (parser_feed_fields hf)⟩

theorem feedBody_snoc (l : List Bytes) (c : Bytes) (b : SseBody) :
    Sse.feedBody b (l ++ [c]) = (Sse.feedBody b l).bind (·.feed c) := by
  induction l generalizing b with
  | nil => simp [Sse.feedBody]
  | cons x l ih =>
    simp only [List.cons_append, Sse.feedBody, Option.bind_assoc]
    congr 1
    funext b1
    exact ih b1

/-- The last chunk. -/
theorem sse_end {fields : List Text} {chunk : Bytes} {c : Ctx H} {s : ParseState} {b : SseBody}
    (hs : Streaming fields s b) (hc : HandedOver o .response chunk c) (he : ContentIs o true c)
    (hx : b.extracted = []) (hfl : b.fields = fields) (heos : (c.body .response).eos = true) :
    (∃ d, storeBody o c s = .fail d) ∨
    ∃ b' s' d, Took b chunk b' ∧ storeBody o c s = .ready s' d ∧
      ∀ f ∈ fields, ∃ e json j, b'.beforeLast = some e ∧ o.json.parse e.data = some json ∧
        o.json.pointer json f = some j ∧ mapGet d.resp.values f = some (eventValue o.json j) := by
  rcases sse_body hs hc he with ⟨d1, _, _, g3⟩ | ⟨d1, g1⟩ | ⟨b1, y, g1, g2⟩
  · rw [heos] at g3; cases g3
  · exact .inl ⟨d1, g1⟩
  · have hb1 : b1.extracted = [] ∧ b1.fields = fields := by
      rcases g1 with ⟨_, rfl⟩ | ⟨_, hf⟩
      · exact ⟨hx, hfl⟩
      · have := feedBody_extracted [chunk] (b := b) (b' := b1) (by simp [Sse.feedBody, hf])
        exact ⟨this.1.trans hx, this.2.trans hfl⟩
    rw [g2]
    rcases storeFinish_end (o := o) (c := c.withHost y) (source := .response) (p := .sse b1)
      (by rw [body_withHost]; exact heos) with ⟨d, hd⟩ | ⟨p', s', d, h1, h2, h3, h4⟩
    · exact .inl ⟨d, hd⟩
    · refine .inr ⟨b1, s', d, g1, h1, ?_⟩
      intro f hf
      have hfl2 : p'.fields = b1.fields := parser_finalize_fields h2
      have hex := h4 f (by rw [hfl2, hb1.2]; exact hf)
      obtain ⟨v, hv1, hv2⟩ := populate_get ((c.withHost y).body .response) p'.extracted f hex
      obtain ⟨b2, hb2, rfl⟩ := Option.map_eq_some_iff.1 h2
      have hv1' : (f, v) ∈ b2.extracted := hv1
      rcases sse_finalize hb2 with ⟨_, rfl⟩ | ⟨e, json, k1, k2, rfl⟩
      · rw [show ({ b1 with complete := true } : SseBody).extracted = b1.extracted from rfl, hb1.1] at hv1'
        simp at hv1'
      · rcases foundIn_extracted _ _ _ _ _ _ hv1' with k3 | ⟨j, k3, k4⟩
        · rw [show ({ b1 with complete := true } : SseBody).extracted = b1.extracted from rfl, hb1.1] at k3
          simp at k3
        · refine ⟨e, json, j, k1, k2, k3, ?_⟩
          rw [← k4, ← hv2]
          exact congrArg (fun z : Body => mapGet z.values f) h3

/-! ### Counting tokens -/

/-- The reader that the content type asks for. -/
def freshStrategy (events : Bool) : Strategy := if events then .sse {} none none else .json []

/-- The reader in use or the one to be made. -/
def Counting (events : Bool) (s : Option Strategy) (r : Strategy) : Prop :=
  (s = none ∧ r = freshStrategy events) ∨ s = some r

def tookStrategy (r : Strategy) (chunk : Bytes) : Strategy := if chunk.isEmpty then r else r.feed chunk

theorem tokens_step {events : Bool} {chunk : Bytes} {c : Ctx H} {s : Option Strategy} {r : Strategy}
    (hs : Counting events s r) (hc : HandedOver o .response chunk c) (he : ContentIs o events c) (fields : List Text) :
    ∃ y, applyTokenUsage o c s fields = tokenFinish o (c.withHost y) (tookStrategy r chunk) fields := by
  obtain ⟨hs', h, h1, h2⟩ := ContentIs.flag.1 he
  have hch : ∃ x, Soon o c x ∧ chooseStrategy o c s = (.available r, c.withHost x) := by
    rcases hs with ⟨rfl, rfl⟩ | rfl
    · refine ⟨h, .inr (by rw [h1]), ?_⟩
      unfold chooseStrategy
      dsimp only
      rw [h1]
      dsimp only
      rw [h2]
      rfl
    · exact ⟨c.host, .inl rfl, rfl⟩
  obtain ⟨x, hsoon, hx⟩ := hch
  have hsz : (c.withHost x).resp.size = chunk.length := hc.size
  unfold applyTokenUsage
  dsimp only
  rw [hx]
  dsimp only
  split
  · rename_i hlt
    rw [hsz] at hlt
    obtain ⟨y, hy⟩ := hc.reads x 0 chunk.length hsoon
    rw [hsz, hy]
    refine ⟨y, ?_⟩
    have hne : chunk.isEmpty = false := by
      cases chunk with
      | nil => simp at hlt
      | cons => rfl
    simp only [List.drop_zero, List.take_length, tookStrategy, hne]
    rfl
  · rename_i hlt
    rw [hsz] at hlt
    have hne : chunk.isEmpty = true := by
      cases chunk with
      | nil => rfl
      | cons => simp at hlt
    refine ⟨x, ?_⟩
    simp only [tookStrategy, hne]
    rfl

theorem tokens_evaluations {events : Bool} {fields : List Text} (ws : List (Ctx H × Bytes)) {k k' : Core}
    (h : Evaluations o k (ws.map Prod.fst) k') (s : Option Strategy) (r : Strategy)
    (hk : k = .tokenUsage s fields) (hs : Counting events s r)
    (hc : ∀ w ∈ ws, HandedOver o .response w.2 w.1) (he : ∀ w ∈ ws, ContentIs o events w.1) :
    ∃ s', k' = .tokenUsage s' fields ∧ Counting events s' (Sse.feedStrategy r ((ws.map Prod.snd).filter (fun c => !c.isEmpty))) := by
  induction ws generalizing k s r with
  | nil =>
    cases h
    exact ⟨s, hk, hs⟩
  | cons w ws ih =>
    cases h with
    | @again _ k1 _ _ c' _ h1 h2 =>
      subst hk
      have h1' : applyTokenUsage o w.1 s fields = (.requeued [.core k1], c') := h1
      obtain ⟨y, hy⟩ := tokens_step hs (hc w (by simp)) (he w (by simp)) fields
      rw [hy] at h1'
      unfold tokenFinish at h1'
      split at h1'
      · cases h1'
      · cases h1'
        obtain ⟨s', g1, g2⟩ := ih h2 _ (tookStrategy r w.2) rfl (.inr rfl) (fun w hw => hc w (by simp [hw]))
          (fun w hw => he w (by simp [hw]))
        refine ⟨s', g1, ?_⟩
        rw [List.map_cons]
        cases hw : w.2.isEmpty with
        | true =>
          rw [List.filter_cons_of_neg (by simp [hw])]
          simpa [tookStrategy, hw] using g2
        | false =>
          rw [List.filter_cons_of_pos (by simp [hw])]
          simpa [tookStrategy, hw, Sse.feedStrategy] using g2

end Verif
