import Verif.Lemmas.BodyFeed
import Verif.Props.Cause
import Verif.Props.Sse
/-! C30: bodies reach their parsers exactly once. -/
set_option linter.unusedSimpArgs false
namespace Verif.Props
open Spec

variable {H : Type} (o : Oracle H)

/-! ### JSON bodies that the host accumulates -/

/-- C30: however often a store action is evaluated while the host accumulates the body, its JSON parser has been fed a
part of the body from the beginning, each byte once and in order. If the host answers, this includes all that has been
announced, unless the parser had found everything before. -/
theorem C30_json (source : Source) (fields : List Text) (body : Bytes) (id : Text) (pred e : Expr) (path : Text)
    (x terminal : Bool) (cs : List (Ctx H)) (k : Core)
    (hev : Evaluations o (.store id pred e path x terminal (.pending source fields)) cs k)
    (ha : ∀ c ∈ cs, Accumulated o source body c) (hp : ∀ c ∈ cs, PlainBody o source c) :
    ∃ state, k = .store id pred e path x terminal state ∧
      (state = .pending source fields ∨ ∃ b, state = .active source (.json b) ∧ b.fields = fields ∧
        b.fed.flatten <+: body) ∧
      ∀ c, cs.getLast? = some c → Answers o source c → ∃ b, state = .active source (.json b) ∧
        (body.take (c.body source).size <+: b.fed.flatten ∨
          ∃ first last, b.fed = first ++ [last] ∧ o.json.acuteFeed fields first last = some true) := by
  obtain ⟨s, h1, h2, h3, h4⟩ := store_evaluations hev _ rfl (source := source) (fields := fields) (body := body)
    Feeding.pending (.inl rfl) ha hp
  have pre : ∀ b, Tracks o.json body b → b.fed.flatten <+: body := by
    intro b ht
    cases hc : b.complete with
    | false => rw [ht.fed hc]; exact List.take_prefix _ _
    | true => obtain ⟨_, _, _, h, _⟩ := ht.done hc; exact h
  refine ⟨s, h1, ?_, ?_⟩
  · rcases h3 with h3 | ⟨p, h3, hf⟩
    · exact .inl h3
    · obtain ⟨b, rfl, ht⟩ := h2 p h3
      exact .inr ⟨b, h3, hf, pre b ht⟩
  · intro c hc hans
    obtain ⟨b, hb, hcase⟩ := h4 c hc hans
    obtain ⟨b', hb', ht⟩ := h2 _ hb
    cases hb'
    refine ⟨b, hb, ?_⟩
    cases hcm : b.complete with
    | false =>
      left
      rcases hcase with h | h
      · rw [hcm] at h; cases h
      · rw [ht.fed hcm]
        exact List.take_prefix_take_left h
    | true =>
      right
      obtain ⟨first, last, g1, _, g3⟩ := ht.done hcm
      rcases h3 with h3 | ⟨p, h3, hf⟩
      · rw [hb] at h3; cases h3
      · rw [hb] at h3
        cases h3
        exact ⟨first, last, g1, by rw [← hf]; exact g3⟩

/-- C30: when the end of the body has been announced and the host answers, a store action that does not fail finds all
its fields, with values from the whole body. -/
theorem C30_json_values (source : Source) (fields : List Text) (body : Bytes) (id : Text) (pred e : Expr) (path : Text)
    (x terminal : Bool) (cs : List (Ctx H)) (k : Core)
    (hev : Evaluations o (.store id pred e path x terminal (.pending source fields)) cs k)
    (ha : ∀ c ∈ cs, Accumulated o source body c) (hp : ∀ c ∈ cs, PlainBody o source c)
    (c : Ctx H) (hc : Accumulated o source body c) (hpc : PlainBody o source c) (hans : Answers o source c)
    (heos : (c.body source).eos = true) (hok : (k.apply o c).1 ≠ .failed) :
    ∀ f ∈ fields, ∃ v, mapGet ((k.apply o c).2.body source).values f = some v ∧ FieldOf o.json body f v := by
  obtain ⟨s, rfl, h2, h3, _⟩ := store_evaluations hev _ rfl (source := source) (fields := fields) (body := body)
    Feeding.pending (.inl rfl) ha hp
  intro f hf
  rcases storeBody_end hc hpc hans h2 h3 heos with ⟨d, hd⟩ | ⟨b', s', d, g1, g2, g3, g4, g5⟩
  · exact absurd (applyStore_fail id pred e path x terminal hd) hok
  · obtain ⟨v, hv1, hv2⟩ := populate_get (c.body source) b'.extracted f (g5 f hf)
    refine ⟨v, ?_, g2.values f v hv1⟩
    obtain ⟨k1, k2⟩ := applyStore_bodies id pred e path x terminal g1
    rw [← hv2, ← g4]
    cases source with
    | request => exact congrArg (fun z : Body => mapGet z.values f) k1
    | response => exact congrArg (fun z : Body => mapGet z.values f) k2

/-- C30: whatever a request does under a host that accumulates the request body, every expression was evaluated while
the known fields of the request body were fields of the body, read once and in order. -/
theorem C30_request (parse : Text → Option Expr) (cfg : PluginConfig) (factory : Factory) (host : H) (s : ActionSet)
    (hs : ServedBy o parse cfg factory host s) (body : Bytes) (events : List (Event H))
    (hb : AccumulatesRequest o body events) (pre post : List Effect) (e : Effect)
    (hlog : (Filter.run o factory host events).log = pre ++ e :: post) (he : e.acts = true) :
    CausedIn o (fun c => Acting o factory host events c ∧ KnowsBody o.json .request body c)
      (fun c => Fetching o factory host events c ∧ KnowsBody o.json .request body c) parse cfg s pre e := by
  by_cases hp : ∃ p, factory.build o { host := host } = .pipeline p
  · obtain ⟨p, hp⟩ := hp
    obtain ⟨b, hbuilt, hfs⟩ := servedBy_fromSet hs hp
    have hbeg := servedBy_begun hs hp
    refine ((justified_inv parse cfg s setAll_replaced (fed_joint body hb.reads)
      (V := fun c => Acting o factory host events c ∧ KnowsBody o.json .request body c)
      (F := fun c => Fetching o factory host events c ∧ KnowsBody o.json .request body c)
      (fun _ _ h hS => ⟨hS, h.2.2⟩)
      (fun c id pred e path x terminal st st' c1 hq hi hS hr => ⟨⟨_, hS, Asked.none.body hr⟩, fed_ready hb.reads c id pred e path x terminal st st' c1 hq hi hr⟩)).run
      factory host events p hp
      (fun t ht => core_all_and (fromSet_known hbuilt hfs hbeg t ht) (built_fed hbuilt hfs t ht)) ⟨?_, ?_⟩
      (fun e he c h => ⟨justified_enters e h.1, ?_⟩)).log
      (Q := fun log => log = pre ++ e :: post → CausedIn o _ _ parse cfg s pre e)
      (fun q hq h => hq.ctx.1.cause pre e post h ‹_›) hlog
    · refine ⟨?_, hbeg.tracker, ?_⟩
      · show p.ctx.values = storedIn (p.ctx.log ++ [.hits])
        rw [hbeg.log]
        exact hbuilt.quiet.values
      · show ∀ pre e post, p.ctx.log ++ [.hits] = _ → _
        rw [hbeg.log]
        exact split_quiet (log := []) (fun pre e post h => by simp at h) (by simp [Effect.acts])
    · refine BodyOK.same (c := p.ctx) ?_ rfl
      have hq : p.ctx.req = {} := hbuilt.quiet.req
      refine ⟨by rw [hq]; exact Nat.zero_le _, by rw [hq]; exact fun h => (by cases h), ?_⟩
      intro f v hf
      rw [show p.ctx.body .request = p.ctx.req from rfl, hq] at hf
      cases hf
    · obtain ⟨h1, h2, h3⟩ := h.2
      cases e with
      | requestBody hst size eos => exact ⟨(hb.sizes _ _ _ he).1, (hb.sizes _ _ _ he).2, h3⟩
      | _ => exact ⟨h1, h2, h3⟩
  · obtain ⟨w, es, hl, hes, hw⟩ := run_idle_log (o := o) factory host events (fun p h => hp ⟨p, h⟩)
    rw [hl] at hlog
    refine split_cause (Q := CausedIn o _ _ parse cfg s) ?_ ?_ pre e post hlog he
    · rcases hw with rfl | ⟨acc, rfl⟩ | rfl
      · exact split_quiet (log := []) (fun pre e post h => by simp at h) (by simp [Effect.acts])
      · exact split_two (Q := CausedIn o _ _ parse cfg s) (log := []) (by simp [Effect.acts]) .broken
      · intro pre e post h; simp at h
    · intro pre e post h ha
      have := hes e (by rw [h]; simp)
      cases e <;> simp_all [Effect.isIdle, Effect.acts]

/-! ### Event streams that the host hands over in chunks -/

theorem flatten_nonempty (l : List Bytes) : (l.filter (fun c => !c.isEmpty)).flatten = l.flatten := by
  induction l with
  | nil => rfl
  | cons c l ih =>
    cases hc : c.isEmpty with
    | true =>
      rw [List.filter_cons_of_neg (by simp [hc]), ih, List.flatten_cons, List.isEmpty_iff.1 hc, List.nil_append]
    | false => rw [List.filter_cons_of_pos (by simp [hc]), List.flatten_cons, List.flatten_cons, ih]

/-- C30: if the store action is evaluated once for each chunk of an event stream, then at the end of the stream it
finds its fields in the data of the second to last event of the whole body. -/
theorem C30_events (fields : List Text) (id : Text) (pred e : Expr) (path : Text) (x terminal : Bool)
    (ws : List (Ctx H × Bytes)) (k : Core)
    (hev : Evaluations o (.store id pred e path x terminal (.pending .response fields)) (ws.map Prod.fst) k)
    (hn : ∀ w ∈ ws, (w.1.body .response).eos = false) (c : Ctx H) (last : Bytes)
    (heos : (c.body .response).eos = true)
    (hc : ∀ w ∈ ws ++ [(c, last)], HandedOver o .response w.2 w.1)
    (he : ∀ w ∈ ws ++ [(c, last)], ContentIs o true w.1)
    (hu : ∀ w ∈ ws ++ [(c, last)], (fromUtf8 w.2).isSome) (hok : (k.apply o c).1 ≠ .failed) :
    ∃ text, ((ws.map Prod.snd).flatten ++ last) = utf8 text ∧
      ∀ f ∈ fields, ∃ event json j, Sse.secondToLast (Spec.Sse.events text) = some event ∧
        o.json.parse event.data = some json ∧ o.json.pointer json f = some j ∧
        mapGet (k.apply o c).2.resp.values f = some (eventValue o.json j) := by
  obtain ⟨s, b, rfl, h2, h3⟩ := sse_evaluations (fields := fields) ws hev _ { fields } rfl (.inl ⟨rfl, rfl⟩)
    (fun w hw => hc w (by simp [hw])) (fun w hw => he w (by simp [hw])) hn
  have hall : ∀ ch ∈ (ws.map Prod.snd ++ [last]).filter (fun c => !c.isEmpty), (fromUtf8 ch).isSome := by
    intro ch hch
    have := (List.mem_filter.1 hch).1
    simp only [List.mem_append, List.mem_map, List.mem_singleton] at this
    rcases this with ⟨w, hw, rfl⟩ | rfl
    · exact hu w (by simp [hw])
    · exact hu (c, ch) (by simp)
  obtain ⟨b', text, g1, g2, g3⟩ := C29_store fields _ hall
  rw [flatten_nonempty] at g1
  refine ⟨text, by simpa using g1, ?_⟩
  obtain ⟨hx, hfl⟩ := feedBody_extracted _ h3
  intro f hf
  rcases sse_end h2 (hc (c, last) (by simp)) (he (c, last) (by simp)) hx hfl heos with
    ⟨d, hd⟩ | ⟨b1, s', d, k1, k2, k3⟩
  · exact absurd (applyStore_fail id pred e path x terminal hd) hok
  · have hb1 : Sse.feedBody { fields } ((ws.map Prod.snd ++ [last]).filter (fun c => !c.isEmpty)) = some b1 := by
      rw [List.filter_append]
      rcases k1 with ⟨h0, rfl⟩ | ⟨h0, hfd⟩
      · have h0' : last = [] := h0
        rw [List.filter_cons_of_neg (by simp [h0'])]
        simpa using h3
      · have h0' : last ≠ [] := h0
        rw [List.filter_cons_of_pos (by simp [h0']), List.filter_nil, feedBody_snoc, h3]
        exact hfd
    rw [hb1] at g2
    cases g2
    obtain ⟨ev, json, j, m1, m2, m3, m4⟩ := k3 f hf
    rw [g3] at m1
    have : (Sse.secondToLast (Spec.Sse.events text)).map Sse.toModel = some ev := by
      rw [← m1]
      simp only [Sse.secondToLast, ← List.map_reverse, List.getElem?_map]
    obtain ⟨event, n1, rfl⟩ := Option.map_eq_some_iff.1 this
    refine ⟨event, json, j, n1, m2, m3, ?_⟩
    rw [← m4]
    exact congrArg (fun z : Body => mapGet z.values f) (applyStore_bodies id pred e path x terminal k2).2

theorem feedStrategy_json (l : List Bytes) (buf : Bytes) :
    Sse.feedStrategy (.json buf) l = .json (buf ++ l.flatten) := by
  induction l generalizing buf with
  | nil => simp [Sse.feedStrategy]
  | cons c l ih =>
    refine (ih (buf ++ c)).trans ?_
    simp

theorem counted_values (b : Body) (fields : List Text) (g : Text → Option Val) (f : Text) (hf : f ∈ fields) (v : Val)
    (hv : g f = some v) :
    mapGet (fields.foldl (init := b) fun b f => match g f with
      | some v => b.setValue f v
      | none => b).values f = some v := by
  have keep : ∀ (l : List Text) (b : Body), mapGet b.values f = some v →
      mapGet (l.foldl (init := b) fun b f => match g f with
        | some v => b.setValue f v
        | none => b).values f = some v := by
    intro l
    induction l with
    | nil => exact fun b h => h
    | cons x l ih =>
      intro b h
      refine ih _ ?_
      by_cases hx : x = f
      · subst hx
        dsimp only
        rw [hv]
        dsimp only
        rw [setValue_get, if_pos rfl]
      · dsimp only
        split
        · rw [setValue_get, if_neg hx]; exact h
        · exact h
  induction fields generalizing b with
  | nil => simp at hf
  | cons x l ih =>
    by_cases hl : f ∈ l
    · exact ih _ hl
    · rcases List.mem_cons.1 hf with rfl | hf
      · refine keep l _ ?_
        dsimp only
        rw [hv]
        dsimp only
        rw [setValue_get, if_pos rfl]
      · exact absurd hf hl

/-- C30: if token counting is evaluated once for each chunk, then at the end of the body it finds its fields in the
document that the whole body stands for. -/
theorem C30_tokens (events : Bool) (fields : List Text) (ws : List (Ctx H × Bytes)) (k : Core)
    (hev : Evaluations o (.tokenUsage none fields) (ws.map Prod.fst) k) (c : Ctx H) (last : Bytes)
    (heos : c.resp.eos = true)
    (hc : ∀ w ∈ ws ++ [(c, last)], HandedOver o .response w.2 w.1)
    (he : ∀ w ∈ ws ++ [(c, last)], ContentIs o events w.1)
    (hu : events = true → ∀ w ∈ ws ++ [(c, last)], (fromUtf8 w.2).isSome) :
    (k.apply o c).1 = .done ∧
    ∀ f ∈ fields, ∀ doc j v, countedDoc o.json events ((ws.map Prod.snd).flatten ++ last) = some doc →
      o.json.pointer doc f = some j → countedValue j = some v →
      mapGet (k.apply o c).2.resp.values f = some v := by
  obtain ⟨s, rfl, h2⟩ := tokens_evaluations (fields := fields) ws hev none (freshStrategy events) rfl (.inl ⟨rfl, rfl⟩)
    (fun w hw => hc w (by simp [hw])) (fun w hw => he w (by simp [hw]))
  obtain ⟨y, hy⟩ := tokens_step h2 (hc (c, last) (by simp)) (he (c, last) (by simp)) fields
  have happ : (Core.tokenUsage s fields).apply o c = applyTokenUsage o c s fields := rfl
  rw [happ, hy]
  have hfed : tookStrategy (Sse.feedStrategy (freshStrategy events) ((ws.map Prod.snd).filter (fun c => !c.isEmpty))) last =
      Sse.feedStrategy (freshStrategy events) ((ws.map Prod.snd ++ [last]).filter (fun c => !c.isEmpty)) := by
    rw [List.filter_append]
    unfold tookStrategy
    cases hl : last.isEmpty with
    | true => simp [hl]
    | false => simp [hl, Sse.feedStrategy, List.foldl_append]
  dsimp only
  rw [hfed]
  unfold tokenFinish
  rw [show (c.withHost y).resp.eos = true from heos, if_pos rfl]
  refine ⟨rfl, ?_⟩
  intro f hf doc j v hdoc hj hv
  have hv : jsonToStored j = some v := by
    rw [← hv]
    cases j <;> rfl
  refine counted_values (c.withHost y).resp fields (fun f => (Strategy.extract o.json
    (Sse.feedStrategy (freshStrategy events) ((ws.map Prod.snd ++ [last]).filter (fun c => !c.isEmpty))) f).bind
    jsonToStored) f hf v ?_
  have hd : Strategy.doc o.json (Sse.feedStrategy (freshStrategy events)
      ((ws.map Prod.snd ++ [last]).filter (fun c => !c.isEmpty))) = some doc := by
    rw [← hdoc]
    have hflat : ((ws.map Prod.snd ++ [last]).filter (fun c => !c.isEmpty)).flatten =
        (ws.map Prod.snd).flatten ++ last := by rw [flatten_nonempty]; simp
    unfold countedDoc
    cases events with
    | false =>
      rw [show freshStrategy false = .json [] from rfl, feedStrategy_json, hflat]
      rfl
    | true =>
      have hall : ∀ ch ∈ (ws.map Prod.snd ++ [last]).filter (fun c => !c.isEmpty), (fromUtf8 ch).isSome := by
        intro ch hch
        have := (List.mem_filter.1 hch).1
        simp only [List.mem_append, List.mem_map, List.mem_singleton] at this
        rcases this with ⟨w, hw, rfl⟩ | rfl
        · exact hu rfl w (by simp [hw])
        · exact hu rfl (c, ch) (by simp)
      obtain ⟨text, t1, t2⟩ := C29_tokens o.json _ hall
      rw [show freshStrategy true = .sse {} none none from rfl, t2, ← hflat, t1, fromUtf8_utf8]
      rfl
  simp only [Strategy.extract, hd, Option.bind_some, hj, hv]

/-! ### Examples -/

namespace Feed

/-- A JSON library for which the whole body is the value of every field. -/
def lib : JsonLib where
  parse t := some (.str t)
  pointer j _ := some j
  render _ := []
  parseF64 _ := none
  acuteRegister _ := true
  acuteFeed _ _ _ := some false
  acuteFinish _ _ := true
  acuteMatched _ chunks told := if told then [("/f".toList, chunks.flatten)] else []

/-- A host that gives the bytes of `read`, depending on its state. -/
def reader (read : Nat → Bytes) (contentType : String) : Oracle Nat :=
  { Demo.world with
    readBody := fun c _ off len => (.available (some (((read c.host).drop off).take len)), c.host)
    resolve := fun c _ _ => ((mapGet (c.req.values ++ c.resp.values) "/f".toList), c.host)
    getHeaders := fun c _ => (.available [("content-type".toList, contentType.toList)], c.host)
    json := lib }

def parse (t : Text) : Option Expr :=
  if t = "tokens".toList then some { src := t, respFields := ["/f".toList] } else Demo.parse t

def factory (actions : List ActionConfig) : Factory := (Factory.tryFrom parse (Demo.config actions)).getD {}

/-- Keep a field of the request body (`body`) or of the response body (`tokens`). -/
def keep (source : String) : ActionConfig :=
  .typed (.store { predicate := "true".toList } "p".toList source.toList false)

/-- The values that were kept. -/
def kept (log : List Effect) : List Val := log.filterMap fun e => match e with
  | .stored _ v => some v
  | _ => none

def body : Bytes := utf8 "123".toList

/-- A host that accumulates the body. -/
def accumulating : Oracle Nat := reader (fun _ => body) "application/json"

def field : Expr := { src := "body".toList, reqFields := ["/f".toList] }

def value : Core := .store "0".toList (Demo.const (.bool true)) field "p".toList false false
  (.pending .request ["/f".toList])

/-- The context with the first `n` bytes announced. -/
def seen (n : Nat) (eos : Bool) : Ctx Nat := { host := n, req := { size := n, eos } }

theorem seen_accumulated (n : Nat) (eos : Bool) (h : n ≤ 3) (he : eos = true → n = 3) :
    Accumulated accumulating .request body (seen n eos) where
  size := h
  whole := he
  reads _ off len bytes _ _ _ hr := by cases hr; rfl

theorem seen_answers (n : Nat) (eos : Bool) (h : 0 < n) : Answers accumulating .request (seen n eos) :=
  ⟨.inl h, fun _ _ _ _ _ => ⟨_, _, rfl⟩, fun h => by cases h⟩

/-- The action after two evaluations: two bytes, in two chunks, have been fed. -/
def half : Core := .store "0".toList (Demo.const (.bool true)) field "p".toList false false
  (.active .request (.json { fields := ["/f".toList], fed := [utf8 "1".toList, utf8 "2".toList], consumed := 2 }))

theorem evaluated : Evaluations accumulating value [seen 1 false, seen 1 false, seen 2 false] half :=
  .again (by with_unfolding_all rfl) (.again (by with_unfolding_all rfl) (.again (by with_unfolding_all rfl) (.none _)))

theorem accumulated : ∀ c ∈ [seen 1 false, seen 1 false, seen 2 false], Accumulated accumulating .request body c := by
  intro c hc
  simp only [List.mem_cons, List.not_mem_nil, or_false] at hc
  rcases hc with rfl | rfl | rfl <;> exact seen_accumulated _ _ (by decide) (by simp)

end Feed

/-- The parser was fed the two bytes that were announced, although the first one was announced twice. -/
example := C30_json Feed.accumulating .request ["/f".toList] Feed.body _ _ _ _ _ _ _ _ Feed.evaluated
  Feed.accumulated (fun _ _ h => by cases h)

/-- With the third byte the field is known. -/
example : ∀ f ∈ ["/f".toList], ∃ v, mapGet ((Feed.half.apply Feed.accumulating (Feed.seen 3 true)).2.body .request).values f =
    some v ∧ FieldOf Feed.lib Feed.body f v :=
  C30_json_values Feed.accumulating .request ["/f".toList] Feed.body _ _ _ _ _ _ _ _ Feed.evaluated
    Feed.accumulated (fun _ _ h => by cases h) (Feed.seen 3 true) (Feed.seen_accumulated 3 true (by decide) (by simp))
    (fun h => by cases h) (Feed.seen_answers 3 true (by decide)) rfl
    (fun h => absurd (show Outcome.done = .failed from h) (by simp))

def feedEvents : List (Event Nat) := [.requestBody 1 1 false, .requestBody 2 2 false, .requestBody 3 3 true]

def feedLog : List Effect :=
  (Filter.run Feed.accumulating (Demo.factory (Demo.config [Feed.keep "body"])) 0 feedEvents).log

example : Feed.kept feedLog = [.int 123] := by with_unfolding_all rfl

example : CausedIn Feed.accumulating
    (fun c => Acting Feed.accumulating (Demo.factory (Demo.config [Feed.keep "body"])) 0 feedEvents c ∧
      KnowsBody Feed.lib .request Feed.body c)
    (fun c => Fetching Feed.accumulating (Demo.factory (Demo.config [Feed.keep "body"])) 0 feedEvents c ∧
      KnowsBody Feed.lib .request Feed.body c) Demo.parse (Demo.config [Feed.keep "body"])
    { name := "demo".toList
      hostnames := ["*.com".toList, "Example.com".toList]
      predicates := ["true".toList]
      actions := [Feed.keep "body"] }
    (feedLog.take 8) (.stored "p".toList (.int 123)) :=
  C30_request Feed.accumulating Demo.parse _ _ 0 _
    (demo_served_by Feed.accumulating [Feed.keep "body"] (by decide +kernel) ⟨_, rfl⟩) Feed.body feedEvents
    ⟨by
      intro h size eos hm
      simp only [feedEvents, List.mem_cons, List.not_mem_nil, or_false, Event.requestBody.injEq] at hm
      rcases hm with ⟨_, rfl, rfl⟩ | ⟨_, rfl, rfl⟩ | ⟨_, rfl, rfl⟩ <;> exact ⟨by decide, by decide⟩,
    fun _ _ _ _ _ _ hr => by cases hr; rfl⟩ _ (feedLog.drop 9) _
    (show feedLog = _ by with_unfolding_all rfl) rfl

namespace Feed

/-- A host that hands over an event stream in two chunks, cut inside an event. -/
def chunks (n : Nat) : Bytes := if n ≤ 1 then utf8 "data: 1\n\ndata: 2".toList else utf8 "\n\n".toList

def streaming : Oracle Nat := reader chunks "text/event-stream"

def answer : Expr := { src := "tokens".toList, respFields := ["/f".toList] }

def store (state : ParseState) : Core :=
  .store "0".toList (Demo.const (.bool true)) answer "p".toList false false state

/-- The context in the callback for chunk `n`. -/
def now (n : Nat) : Ctx Nat := { host := n, resp := { size := (chunks n).length, eos := decide (n = 2) } }

theorem handed (n : Nat) : HandedOver streaming .response (chunks n) (now n) where
  size := rfl
  reads h off len hs := by
    have : h = n := by rcases hs with rfl | rfl <;> rfl
    subst this
    exact ⟨_, rfl⟩

theorem content (n : Nat) : ContentIs streaming true (now n) := ContentIs.flag.2 ⟨_, _, rfl, by decide +kernel⟩

/-- What the parser of the store action knows after the first chunk. -/
def fedOnce : SseBody := (({ fields := ["/f".toList] } : SseBody).feed (chunks 1)).getD { fields := [] }

theorem streamed : Evaluations streaming (store (.pending .response ["/f".toList])) [now 1]
    (store (.active .response (.sse fedOnce))) :=
  .again (by with_unfolding_all rfl) (.none _)

theorem finished : ((store (.active .response (.sse fedOnce))).apply streaming (now 2)).1 = .done := by
  with_unfolding_all rfl

theorem utf8_chunks (n : Nat) : (fromUtf8 (chunks n)).isSome := by
  unfold chunks
  split <;> simp [fromUtf8_utf8]

end Feed

/-- The stream is cut inside its second event; the kept value is from the first event, the second to last one. -/
example : ∃ text, Feed.chunks 1 ++ Feed.chunks 2 = utf8 text ∧
    ∀ f ∈ ["/f".toList], ∃ event json j, Sse.secondToLast (Spec.Sse.events text) = some event ∧
      Feed.lib.parse event.data = some json ∧ Feed.lib.pointer json f = some j ∧
      mapGet ((Feed.store (.active .response (.sse Feed.fedOnce))).apply Feed.streaming (Feed.now 2)).2.resp.values f =
        some (eventValue Feed.lib j) := by
  have hall : ∀ (Q : Ctx Nat × Bytes → Prop), Q (Feed.now 1, Feed.chunks 1) → Q (Feed.now 2, Feed.chunks 2) →
      ∀ w ∈ [(Feed.now 1, Feed.chunks 1)] ++ [(Feed.now 2, Feed.chunks 2)], Q w := by
    intro Q h1 h2 w hw
    simp at hw
    rcases hw with rfl | rfl
    · exact h1
    · exact h2
  obtain ⟨text, g1, g2⟩ := C30_events Feed.streaming ["/f".toList] _ _ _ _ _ _ [(Feed.now 1, Feed.chunks 1)] _
    Feed.streamed (by intro w hw; simp at hw; subst hw; rfl) (Feed.now 2) (Feed.chunks 2) rfl
    (hall _ (Feed.handed 1) (Feed.handed 2)) (hall _ (Feed.content 1) (Feed.content 2))
    (hall _ (Feed.utf8_chunks 1) (Feed.utf8_chunks 2)) (by rw [Feed.finished]; exact fun h => by cases h)
  exact ⟨text, by simpa using g1, g2⟩

/-- The same body, kept by a request as a whole. -/
example : Feed.kept (Filter.run Feed.streaming (Feed.factory [Feed.keep "tokens"]) 0
    [.responseHeaders 1, .responseBody 1 16 false, .responseBody 2 2 true]).log = [.str "1".toList] := by
  with_unfolding_all rfl

namespace Feed

def digits (n : Nat) : Bytes := if n ≤ 1 then utf8 "1".toList else utf8 "2".toList

def counting : Oracle Nat := reader digits "application/json"

def digit (n : Nat) : Ctx Nat := { host := n, resp := { size := (digits n).length, eos := decide (n = 2) } }

theorem handedDigit (n : Nat) : HandedOver counting .response (digits n) (digit n) where
  size := rfl
  reads h off len hs := by
    have : h = n := by rcases hs with rfl | rfl <;> rfl
    subst this
    exact ⟨_, rfl⟩

theorem digitContent (n : Nat) : ContentIs counting false (digit n) := ContentIs.flag.2 ⟨_, _, rfl, by decide +kernel⟩

theorem counted : Evaluations counting (.tokenUsage none ["/f".toList]) [digit 1]
    (.tokenUsage (some (.json (utf8 "1".toList))) ["/f".toList]) :=
  .again (by with_unfolding_all rfl) (.none _)

end Feed

/-- Token counting, fed the body `12` in two chunks. -/
example : mapGet ((Core.tokenUsage (some (.json (utf8 "1".toList))) ["/f".toList]).apply Feed.counting (Feed.digit 2)).2.resp.values
    "/f".toList = some (.str "12".toList) := by
  have hall : ∀ (Q : Ctx Nat × Bytes → Prop), Q (Feed.digit 1, Feed.digits 1) → Q (Feed.digit 2, Feed.digits 2) →
      ∀ w ∈ [(Feed.digit 1, Feed.digits 1)] ++ [(Feed.digit 2, Feed.digits 2)], Q w := by
    intro Q h1 h2 w hw
    simp at hw
    rcases hw with rfl | rfl
    · exact h1
    · exact h2
  exact (C30_tokens Feed.counting false ["/f".toList] [(Feed.digit 1, Feed.digits 1)] _ Feed.counted (Feed.digit 2)
    (Feed.digits 2) rfl (hall _ (Feed.handedDigit 1) (Feed.handedDigit 2))
    (hall _ (Feed.digitContent 1) (Feed.digitContent 2)) (fun h => by cases h)).2 _ (by simp) (.str "12".toList) _ _
    (by with_unfolding_all rfl) rfl rfl

/-! ### Where the assumptions on the host are needed -/

/-- A JSON body that is handed over in chunks loses bytes: the second chunk is not longer than what has been read, so
it is taken for old, and `12` is kept of the body `123`. -/
theorem C30_json_in_chunks :
    Feed.kept (Filter.run (Feed.reader (fun n => if n ≤ 1 then utf8 "12".toList else utf8 "3".toList) "application/json")
      (Demo.factory (Demo.config [Feed.keep "body"])) 0 [.requestBody 1 2 false, .requestBody 2 1 true]).log =
      [.int 12] := by
  with_unfolding_all rfl

/-- An event stream that is accumulated is read again from the beginning with each callback, and the part that was cut
is glued to the beginning: the data of the second to last event is neither `1` nor `2`. -/
theorem C30_events_accumulated :
    Feed.kept (Filter.run (Feed.reader (fun _ => utf8 "data: 1\n\ndata: 2\n\n".toList) "text/event-stream")
      (Feed.factory [Feed.keep "tokens"]) 0
      [.responseHeaders 1, .responseBody 1 16 false, .responseBody 2 18 true]).log = [.str "2data: 1".toList] := by
  with_unfolding_all rfl

/-- A response to a call between two chunks makes the store action read the same chunk again. -/
theorem C30_events_reevaluated :
    Feed.kept (Filter.run Feed.streaming (Feed.factory [Demo.grpc "allow" (guard := false), Feed.keep "tokens"]) 0
      [.responseHeaders 1, .responseBody 1 16 false, .grpcResponse 1 0 0 0, .responseBody 2 2 true]).log =
      [.str "2data: 1".toList] := by
  with_unfolding_all rfl

end Verif.Props
