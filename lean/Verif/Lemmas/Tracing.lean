import Verif.Spec.Tracing
import Verif.Props.Attributes
/-! Lemmas about the trace context of requests. -/
set_option linter.unusedSectionVars false
set_option linter.unusedSimpArgs false
namespace Verif

open Spec

theorem mapGet_filter {α β : Type} [DecidableEq α] (m : List (α × β)) (k k' : α) :
    mapGet (m.filter (fun e => e.1 ≠ k)) k' = if k' = k then none else mapGet m k' := by
  unfold mapGet
  induction m with
  | nil => simp
  | cons e m ih =>
    by_cases h : e.1 = k <;> by_cases h' : e.1 = k' <;> simp_all [List.filter_cons, List.find?_cons]

theorem mapGet_lookup {α β : Type} [DecidableEq α] [BEq α] [LawfulBEq α] (m : List (α × β)) (k : α) : mapGet m k = m.lookup k := by
  unfold mapGet
  induction m with
  | nil => rfl
  | cons e m ih =>
    obtain ⟨a, b⟩ := e
    by_cases h : a = k
    · subst h; simp [List.find?_cons, List.lookup_cons]
    · have h2 : (k == a) = false := by simpa using fun h3 => h h3.symm
      simp [List.find?_cons, List.lookup_cons, h, h2, ih]

theorem extractor_value (hs : Headers) : headersExtractor hs = headerValue hs := by
  funext k
  unfold headersExtractor headerValue
  rw [mapGet_lookup]
  exact Props.C52_joined hs k

variable {R B : Type} (lib : Propagator R B) (f : SpanFilter)

/-- Spans are numbered. -/
structure TracerNumbered (t : Tracer R B) : Prop where
  stack : ∀ id ∈ t.stack, id < t.next
  keys : ∀ id c, mapGet t.contexts id = some c → id < t.next
  contexts : ∀ id c, mapGet t.contexts id = some c → ∀ k ∈ c.spans, k < t.next

theorem context_spans {t : Tracer R B} (h : TracerNumbered t) (id : Nat) : ∀ k ∈ (t.context id).spans, k < t.next := by
  intro k hk
  unfold Tracer.context at hk
  cases hc : mapGet t.contexts id with
  | none => rw [hc] at hk; simp at hk
  | some c => rw [hc] at hk; exact h.contexts id c hc k hk

theorem current_spans {t : Tracer R B} (h : TracerNumbered t) : ∀ k ∈ t.current.spans, k < t.next := by
  intro k hk
  unfold Tracer.current at hk
  split at hk
  · simp at hk
  · exact context_spans h _ k hk

theorem spanContext_spans {t : Tracer R B} (h : TracerNumbered t) : ∀ k ∈ t.spanContext.spans, k < t.next := by
  intro k hk
  unfold Tracer.spanContext at hk
  split at hk
  · simp at hk
  · exact context_spans h _ k hk

theorem TracerNumbered.put {t : Tracer R B} (h : TracerNumbered t) (id : Nat) (hid : id < t.next) (c : OtelCtx R B)
    (hc : ∀ k ∈ c.spans, k < t.next) : TracerNumbered { t with contexts := mapInsert t.contexts id c } := by
  refine ⟨h.stack, ?_, ?_⟩ <;> intro id' c' h'
  · rw [mapGet_mapInsert] at h'
    split at h'
    · rename_i e; subst e; exact hid
    · exact h.keys id' c' h'
  · rw [mapGet_mapInsert] at h'
    split at h'
    · cases h'; exact hc
    · exact h.contexts id' c' h'

theorem TracerNumbered.newSpan {t : Tracer R B} (h : TracerNumbered t) : TracerNumbered (t.newSpan f).2 := by
  unfold Tracer.newSpan
  have h1 : TracerNumbered { t with next := t.next + 1 } :=
    ⟨fun i hi => Nat.lt_succ_of_lt (h.stack i hi), fun i c hi => Nat.lt_succ_of_lt (h.keys i c hi),
      fun i c hi k hk => Nat.lt_succ_of_lt (h.contexts i c hi k hk)⟩
  by_cases he : f.enabled
  · by_cases hr : f.recorded
    · simp only [he, hr, if_true]
      refine h1.put t.next (Nat.lt_succ_self _) _ ?_
      intro k hk
      simp only [OtelCtx.child, List.mem_cons] at hk
      rcases hk with rfl | hk
      · exact Nat.lt_succ_self _
      · exact Nat.lt_succ_of_lt (current_spans h k hk)
    · simp only [he, hr, if_true]; exact h1
  · simp only [he]; exact h

theorem newSpan_next (t : Tracer R B) : t.next ≤ (t.newSpan f).2.next := by
  unfold Tracer.newSpan; split
  · exact Nat.le_succ _
  · exact Nat.le_refl _

theorem newSpan_stack (t : Tracer R B) : (t.newSpan f).2.stack = t.stack := by
  unfold Tracer.newSpan; split <;> rfl

theorem newSpan_id {t : Tracer R B} {id : Nat} (h : (t.newSpan f).1 = some id) :
    id = t.next ∧ id < (t.newSpan f).2.next := by
  unfold Tracer.newSpan at h ⊢
  split at h
  · rename_i he; simp only [he, if_true]; cases h; exact ⟨rfl, Nat.lt_succ_self _⟩
  · cases h

theorem TracerNumbered.setParent {t : Tracer R B} (h : TracerNumbered t) (id : Nat) (c : OtelCtx R B)
    (hc : ∀ k ∈ c.spans, k < t.next) : TracerNumbered (t.setParent id c) := by
  unfold Tracer.setParent
  split
  · rename_i hs
    obtain ⟨c', hc'⟩ := Option.isSome_iff_exists.mp hs
    have hid := h.keys id c' hc'
    refine h.put id hid _ ?_
    intro k hk
    simp only [OtelCtx.child, List.mem_cons] at hk
    rcases hk with rfl | hk
    · exact hid
    · exact hc k hk
  · exact h

theorem setParent_next (t : Tracer R B) (id : Nat) (c : OtelCtx R B) : (t.setParent id c).next = t.next := by
  unfold Tracer.setParent; split <;> rfl

theorem setParent_stack (t : Tracer R B) (id : Nat) (c : OtelCtx R B) : (t.setParent id c).stack = t.stack := by
  unfold Tracer.setParent; split <;> rfl

theorem TracerNumbered.enter {t : Tracer R B} (h : TracerNumbered t) (o : Option Nat) (ho : ∀ id, o = some id → id < t.next) :
    TracerNumbered (t.enter o) := by
  cases o with
  | none => exact h
  | some id =>
    refine ⟨?_, h.keys, h.contexts⟩
    intro k hk
    rcases List.mem_cons.mp hk with rfl | hk
    · exact ho _ rfl
    · exact h.stack k hk

theorem TracerNumbered.exit {t : Tracer R B} (h : TracerNumbered t) (o : Option Nat) : TracerNumbered (t.exit o) := by
  cases o with
  | none => exact h
  | some id => exact ⟨fun k hk => h.stack k (List.mem_of_mem_erase hk), h.keys, h.contexts⟩

theorem enter_exit (t : Tracer R B) (o : Option Nat) : (t.enter o).exit o = t := by
  cases o with
  | none => rfl
  | some id => simp [Tracer.enter, Tracer.exit]

theorem exit_next (t : Tracer R B) (o : Option Nat) : (t.exit o).next = t.next := by cases o <;> rfl

theorem enter_next (t : Tracer R B) (o : Option Nat) : (t.enter o).next = t.next := by cases o <;> rfl

theorem exit_contexts (t : Tracer R B) (o : Option Nat) : (t.exit o).contexts = t.contexts := by cases o <;> rfl

theorem enter_contexts (t : Tracer R B) (o : Option Nat) : (t.enter o).contexts = t.contexts := by cases o <;> rfl

/-- A request's spans are numbered. -/
structure ReqNumbered (q : ReqTrace R B) (n : Nat) : Prop where
  otel : ∀ k ∈ q.otel.spans, k < n
  slots : ∀ k id, mapGet q.spans k = some (some id) → id < n

theorem ReqNumbered.mono {q : ReqTrace R B} {n m : Nat} (h : ReqNumbered q n) (hm : n ≤ m) : ReqNumbered q m :=
  ⟨fun k hk => Nat.lt_of_lt_of_le (h.otel k hk) hm, fun k id hk => Nat.lt_of_lt_of_le (h.slots k id hk) hm⟩

theorem extract_spans (c : OtelCtx R B) (g : Text → Option Text) :
    ∀ k ∈ (ReqTrace.extract lib c g).spans, k ∈ c.spans := by
  intro k hk
  unfold ReqTrace.extract at hk
  cases h1 : lib.trace g <;> cases h2 : lib.baggage g <;> simp_all

theorem extract_numbered {t : Tracer R B} (h : TracerNumbered t) (hs : Option Headers) :
    ReqNumbered (({} : ReqTrace R B).extractTraceContext lib t hs) t.next := by
  cases hs with
  | none => exact ⟨fun k hk => by simp [ReqTrace.extractTraceContext] at hk,
      fun k id hk => by simp [ReqTrace.extractTraceContext, mapGet] at hk⟩
  | some hs => exact ⟨fun k hk => current_spans h k (extract_spans lib _ _ k hk),
      fun k id hk => by simp [ReqTrace.extractTraceContext, mapGet] at hk⟩

theorem enterRequestSpan_numbered {q : ReqTrace R B} {t : Tracer R B} (h : TracerNumbered t) (hq : ReqNumbered q t.next) :
    TracerNumbered (q.enterRequestSpan f t).2 ∧ ReqNumbered (q.enterRequestSpan f t).1 (q.enterRequestSpan f t).2.next ∧
      t.next ≤ (q.enterRequestSpan f t).2.next := by
  have h1 := h.newSpan f
  have h2 := newSpan_next f t
  have h3 := @newSpan_id _ _ f t
  unfold ReqTrace.enterRequestSpan
  generalize t.newSpan f = p at h1 h2 h3 ⊢
  obtain ⟨o, t1⟩ := p
  cases o with
  | none => exact ⟨h1, hq.mono h2, h2⟩
  | some id =>
    obtain ⟨_, h5⟩ := h3 rfl
    have hq' := hq.mono h2
    have h6 := h1.setParent id q.otel hq'.otel
    have e := setParent_next t1 id q.otel
    refine ⟨(h6.enter (some id) (fun _ hi => by cases hi; rw [e]; exact h5)).exit _, ?_, ?_⟩
    · simp only [exit_next, enter_next, e]; exact ⟨hq'.otel, hq'.slots⟩
    · simp only [exit_next, enter_next, e]; exact h2

theorem enterRequestSpans_numbered (n : Nat) : ∀ {q : ReqTrace R B} {t : Tracer R B}, TracerNumbered t →
    ReqNumbered q t.next → TracerNumbered (q.enterRequestSpans f t n).2 ∧
      ReqNumbered (q.enterRequestSpans f t n).1 (q.enterRequestSpans f t n).2.next ∧
      t.next ≤ (q.enterRequestSpans f t n).2.next := by
  induction n with
  | zero => intro q t h hq; exact ⟨h, hq, Nat.le_refl _⟩
  | succ n ih =>
    intro q t h hq
    obtain ⟨h1, h2, h3⟩ := enterRequestSpan_numbered f h hq
    obtain ⟨h4, h5, h6⟩ := ih h1 h2
    exact ⟨h4, h5, Nat.le_trans h3 h6⟩

theorem ensureSpan_numbered {q : ReqTrace R B} {t : Tracer R B} (h : TracerNumbered t) (hq : ReqNumbered q t.next)
    (task : Nat) : TracerNumbered (q.ensureSpan f t task).2.2 ∧
      ReqNumbered (q.ensureSpan f t task).2.1 (q.ensureSpan f t task).2.2.next ∧
      t.next ≤ (q.ensureSpan f t task).2.2.next ∧
      (∀ id, (q.ensureSpan f t task).1 = some id → id < (q.ensureSpan f t task).2.2.next) := by
  unfold ReqTrace.ensureSpan
  cases hs : mapGet q.spans task with
  | some span => exact ⟨h, hq, Nat.le_refl _, fun id hi => hq.slots task id (by rw [hs]; exact congrArg some hi)⟩
  | none =>
    have h1 := h.newSpan f
    have h2 := newSpan_next f t
    have h3 := @newSpan_id _ _ f t
    simp only
    generalize t.newSpan f = p at h1 h2 h3 ⊢
    obtain ⟨o, t1⟩ := p
    refine ⟨h1, ⟨(hq.mono h2).otel, ?_⟩, h2, fun id hi => (h3 hi).2⟩
    intro k id hk
    simp only [mapGet_mapInsert] at hk
    split at hk
    · injection hk with hk; exact (h3 hk).2
    · exact (hq.mono h2).slots k id hk

theorem sent_spans {q : ReqTrace R B} {t : Tracer R B} (h : TracerNumbered t) (hq : ReqNumbered q t.next) :
    ∀ k ∈ (q.sent t).spans, k < t.next := by
  unfold ReqTrace.sent
  split
  · exact spanContext_spans h
  · exact hq.otel

/-- All spans are numbered. -/
structure SpansNumbered (s : Traces R B) : Prop where
  tracer : TracerNumbered s.tracer
  requests : ∀ r q, mapGet s.requests r = some q → ReqNumbered q s.tracer.next
  calls : ∀ e ∈ s.calls, ∀ k ∈ e.2.1.spans, k < s.tracer.next

theorem SpansNumbered.put {s : Traces R B} (h : SpansNumbered s) {t : Tracer R B} {q : ReqTrace R B} (r : Nat)
    (ht : TracerNumbered t) (hq : ReqNumbered q t.next) (hn : s.tracer.next ≤ t.next) :
    SpansNumbered { s with tracer := t, requests := mapInsert s.requests r q } := by
  refine ⟨ht, ?_, fun e he k hk => Nat.lt_of_lt_of_le (h.calls e he k hk) hn⟩
  intro r' q' h'
  simp only [mapGet_mapInsert] at h'
  split at h'
  · cases h'; exact hq
  · exact (h.requests r' q' h').mono hn

theorem SpansNumbered.dispatch {s : Traces R B} (h : SpansNumbered s) (r : Nat) {q : ReqTrace R B}
    (hq : ReqNumbered q s.tracer.next) : SpansNumbered (s.dispatch lib r q) := by
  refine ⟨h.tracer, h.requests, ?_⟩
  intro e he
  rcases List.mem_append.mp he with he | he
  · exact h.calls e he
  · rw [List.mem_singleton] at he; subst he; exact sent_spans h.tracer hq

theorem SpansNumbered.exit {s : Traces R B} (h : SpansNumbered s) (o : Option Nat) :
    SpansNumbered { s with tracer := s.tracer.exit o } :=
  ⟨h.tracer.exit o, by simp only [exit_next]; exact h.requests, by simp only [exit_next]; exact h.calls⟩

theorem SpansNumbered.dropped {s : Traces R B} (h : SpansNumbered s) (r : Nat) : SpansNumbered (s.dropped r) := by
  unfold Traces.dropped
  split
  · exact h
  · refine ⟨h.tracer.exit _, ?_, by simp only [exit_next]; exact h.calls⟩
    intro r' q' h'
    simp only [mapGet_filter] at h'
    split at h'
    · cases h'
    · simp only [exit_next]; exact h.requests r' q' h'

/-- The call of a request. -/
def callEntry (r : Nat) (q : ReqTrace R B) (t : Tracer R B) : Nat × OtelCtx R B × List (Text × Bytes) :=
  (r, q.sent t, q.tracingHeaders lib t)

theorem step_start (s : Traces R B) (r : Nat) (hs : Option Headers) (n : Nat) :
    s.step lib f (.start r hs n) =
      { s.dropped r with
        tracer := ((({} : ReqTrace R B).extractTraceContext lib (s.dropped r).tracer hs).enterRequestSpans f (s.dropped r).tracer n).2,
        requests := mapInsert (s.dropped r).requests r
          ((({} : ReqTrace R B).extractTraceContext lib (s.dropped r).tracer hs).enterRequestSpans f (s.dropped r).tracer n).1 } := rfl

theorem step_apply {s : Traces R B} {r : Nat} {q : ReqTrace R B} (h : mapGet s.requests r = some q) (task : Nat) (calls : Bool) :
    s.step lib f (.apply r task calls) =
      { tracer := (q.ensureSpan f s.tracer task).2.2, requests := mapInsert s.requests r (q.ensureSpan f s.tracer task).2.1,
        calls := s.calls ++ if calls then [callEntry lib r (q.ensureSpan f s.tracer task).2.1
          ((q.ensureSpan f s.tracer task).2.2.enter (q.ensureSpan f s.tracer task).1)] else [] } := by
  simp only [Traces.step, h]
  cases calls <;> simp [Traces.dispatch, enter_exit, callEntry]

theorem step_call {s : Traces R B} {r : Nat} {q : ReqTrace R B} (h : mapGet s.requests r = some q) :
    s.step lib f (.call r) = { s with calls := s.calls ++ [callEntry lib r q s.tracer] } := by
  simp only [Traces.step, h]; rfl

theorem step_finish {s : Traces R B} {r : Nat} {q : ReqTrace R B} (h : mapGet s.requests r = some q) (exports : Bool) :
    s.step lib f (.finish r exports) =
      { tracer := s.tracer.exit q.guard, requests := mapInsert s.requests r { q with guard := none },
        calls := s.calls ++ if exports then [callEntry lib r { q with guard := none } (s.tracer.exit q.guard)] else [] } := by
  simp only [Traces.step, h]
  cases exports <;> simp [Traces.dispatch, callEntry, ReqTrace.endRequestSpan]

theorem step_gone {s : Traces R B} {r : Nat} (h : mapGet s.requests r = none) (task : Nat) (b : Bool) :
    s.step lib f (.apply r task b) = s ∧ s.step lib f (.call r) = s ∧ s.step lib f (.finish r b) = s := by
  simp only [Traces.step, h, and_self]

theorem SpansNumbered.more {s : Traces R B} (h : SpansNumbered s) (es : List (Nat × OtelCtx R B × List (Text × Bytes)))
    (he : ∀ e ∈ es, ∀ k ∈ e.2.1.spans, k < s.tracer.next) : SpansNumbered { s with calls := s.calls ++ es } :=
  ⟨h.tracer, h.requests, fun e h' => (List.mem_append.mp h').elim (h.calls e) (he e)⟩

theorem step_numbered {s : Traces R B} (h : SpansNumbered s) (op : TraceOp) : SpansNumbered (s.step lib f op) := by
  cases op with
  | start r hs n =>
    have h1 := h.dropped r
    have h2 := extract_numbered lib h1.tracer hs
    obtain ⟨h3, h4, h5⟩ := enterRequestSpans_numbered f n h1.tracer h2
    exact h1.put r h3 h4 h5
  | apply r task calls =>
    cases hr : mapGet s.requests r with
    | none => rw [(step_gone lib f hr task calls).1]; exact h
    | some q =>
      obtain ⟨h1, h2, h3, h4⟩ := ensureSpan_numbered f h.tracer (h.requests r q hr) task
      rw [step_apply lib f hr]
      refine (h.put r h1 h2 h3).more _ ?_
      intro e he
      split at he
      · rw [List.mem_singleton] at he; subst he
        have := sent_spans (h1.enter _ h4) (q := (q.ensureSpan f s.tracer task).2.1) (by rw [enter_next]; exact h2)
        rw [enter_next] at this; exact this
      · simp at he
  | call r =>
    cases hr : mapGet s.requests r with
    | none => rw [(step_gone lib f hr 0 true).2.1]; exact h
    | some q =>
      rw [step_call lib f hr]
      refine h.more _ ?_
      intro e he
      rw [List.mem_singleton] at he; subst he
      exact sent_spans h.tracer (h.requests r q hr)
  | finish r exports =>
    cases hr : mapGet s.requests r with
    | none => rw [(step_gone lib f hr 0 exports).2.2]; exact h
    | some q =>
      have hq := h.requests r q hr
      have hq' : ReqNumbered { q with guard := none } (s.tracer.exit q.guard).next := by
        rw [exit_next]; exact ⟨hq.otel, hq.slots⟩
      rw [step_finish lib f hr]
      refine (h.put r (h.tracer.exit q.guard) hq' (by rw [exit_next]; exact Nat.le_refl _)).more _ ?_
      intro e he
      split at he
      · rw [List.mem_singleton] at he; subst he
        exact sent_spans (h.tracer.exit q.guard) hq'
      · simp at he
  | drop r => exact h.dropped r

theorem run_numbered (ops : List TraceOp) : SpansNumbered (Traces.run lib f ops) := by
  induction ops using snoc_ind with
  | nil => exact ⟨⟨by simp [Traces.run], by simp [Traces.run, mapGet], by simp [Traces.run, mapGet]⟩,
      by simp [Traces.run, mapGet], by simp [Traces.run]⟩
  | snoc ops op ih =>
    unfold Traces.run at ih ⊢
    rw [List.foldl_append]
    exact step_numbered lib f ih op

/-- The requests hold what is on the stack, every request its own span. -/
structure SpansHeld (s : Traces R B) (l : List Nat) : Prop where
  nodup : s.tracer.stack.Nodup
  owned : ∀ id ∈ s.tracer.stack, ∃ r ∈ l, ∃ q, mapGet s.requests r = some q ∧ q.guard = some id
  held : ∀ r q id, mapGet s.requests r = some q → q.guard = some id → id ∈ s.tracer.stack
  apart : ∀ r r' q q' id, mapGet s.requests r = some q → mapGet s.requests r' = some q' → q.guard = some id →
    q'.guard = some id → r = r'

theorem SpansHeld.weaken {s : Traces R B} {l l' : List Nat} (h : SpansHeld s l) (hl : ∀ r ∈ l, r ∈ l') : SpansHeld s l' :=
  ⟨h.nodup, fun id hi => by obtain ⟨r, hr, q⟩ := h.owned id hi; exact ⟨r, hl r hr, q⟩, h.held, h.apart⟩

theorem SpansHeld.shrink {s : Traces R B} {l : List Nat} (h : SpansHeld s l) (r : Nat)
    (hr : ∀ q, mapGet s.requests r = some q → q.guard = none) : SpansHeld s (l.filter (· ≠ r)) := by
  refine ⟨h.nodup, ?_, h.held, h.apart⟩
  intro id hi
  obtain ⟨r', h1, q, h2, h3⟩ := h.owned id hi
  refine ⟨r', ?_, q, h2, h3⟩
  simp only [List.mem_filter, decide_eq_true_eq]
  refine ⟨h1, ?_⟩
  rintro rfl
  rw [hr q h2] at h3; cases h3

/-- A request is put in place of what was there. -/
theorem SpansHeld.put {s : Traces R B} {l : List Nat} (h : SpansHeld s l) (r : Nat) {q q' : ReqTrace R B} {t : Tracer R B}
    (hq : mapGet s.requests r = some q ∨ (mapGet s.requests r = none ∧ q.guard = none))
    (hg : q'.guard = q.guard) (ht : t.stack = s.tracer.stack) :
    SpansHeld { s with tracer := t, requests := mapInsert s.requests r q' } l := by
  have key : ∀ r' p id, mapGet (mapInsert s.requests r q') r' = some p → p.guard = some id →
      ∃ p', mapGet s.requests r' = some p' ∧ p'.guard = some id := by
    intro r' p id h1 h2
    rw [mapGet_mapInsert] at h1
    split at h1
    · rename_i e; subst e; cases h1
      rcases hq with hq | ⟨_, hq⟩
      · exact ⟨q, hq, hg ▸ h2⟩
      · rw [hg, hq] at h2; cases h2
    · exact ⟨p, h1, h2⟩
  refine ⟨by show t.stack.Nodup; rw [ht]; exact h.nodup, ?_, ?_, ?_⟩
  · intro id hi
    obtain ⟨r', h1, p, h2, h3⟩ := h.owned id (ht ▸ hi)
    by_cases e : r' = r
    · subst e
      rcases hq with hq | ⟨hq, _⟩
      · rw [hq] at h2; cases h2
        exact ⟨r', h1, q', by simp [mapGet_mapInsert], by rw [hg]; exact h3⟩
      · rw [hq] at h2; cases h2
    · exact ⟨r', h1, p, by simp only [mapGet_mapInsert, if_neg e]; exact h2, h3⟩
  · intro r' p id h1 h2
    obtain ⟨p', h3, h4⟩ := key r' p id h1 h2
    show id ∈ t.stack
    rw [ht]; exact h.held r' p' id h3 h4
  · intro r1 r2 p1 p2 id h1 h2 h3 h4
    obtain ⟨p1', a1, b1⟩ := key r1 p1 id h1 h3
    obtain ⟨p2', a2, b2⟩ := key r2 p2 id h2 h4
    exact h.apart r1 r2 p1' p2' id a1 a2 b1 b2

/-- A request gives up its span. -/
theorem SpansHeld.release {s : Traces R B} {l : List Nat} (h : SpansHeld s l) (r : Nat) {q : ReqTrace R B}
    (hq : mapGet s.requests r = some q) (m : List (Nat × ReqTrace R B))
    (hm : ∀ r', r' ≠ r → mapGet m r' = mapGet s.requests r') (hn : ∀ q', mapGet m r = some q' → q'.guard = none) :
    SpansHeld { s with tracer := s.tracer.exit q.guard, requests := m } (l.filter (· ≠ r)) := by
  have back : ∀ r' p id, mapGet m r' = some p → p.guard = some id → r' ≠ r ∧ mapGet s.requests r' = some p := by
    intro r' p id h1 h2
    have : r' ≠ r := by rintro rfl; rw [hn p h1] at h2; cases h2
    exact ⟨this, by rw [← hm r' this]; exact h1⟩
  have sub : ∀ id ∈ (s.tracer.exit q.guard).stack, id ∈ s.tracer.stack ∧ q.guard ≠ some id := by
    intro id hi
    cases hg : q.guard with
    | none => rw [hg] at hi; exact ⟨hi, fun h => nomatch h⟩
    | some g =>
      rw [hg] at hi
      have hi' : id ∈ s.tracer.stack.erase g := hi
      rw [h.nodup.mem_erase_iff] at hi'
      exact ⟨hi'.2, fun h => hi'.1 (by cases h; rfl)⟩
  refine ⟨?_, ?_, ?_, ?_⟩
  · show (s.tracer.exit q.guard).stack.Nodup
    cases q.guard with
    | none => exact h.nodup
    | some g => exact h.nodup.erase g
  · intro id hi
    obtain ⟨h1, h2⟩ := sub id hi
    obtain ⟨r', h3, p, h4, h5⟩ := h.owned id h1
    have hne : r' ≠ r := by rintro rfl; rw [hq] at h4; cases h4; exact h2 h5
    exact ⟨r', by simp [h3, hne], p, by show mapGet m r' = _; rw [hm r' hne]; exact h4, h5⟩
  · intro r' p id h1 h2
    obtain ⟨hne, h3⟩ := back r' p id h1 h2
    have h4 := h.held r' p id h3 h2
    show id ∈ (s.tracer.exit q.guard).stack
    cases hg : q.guard with
    | none => exact h4
    | some g =>
      show id ∈ s.tracer.stack.erase g
      rw [h.nodup.mem_erase_iff]
      refine ⟨?_, h4⟩
      rintro rfl
      exact hne (h.apart r' r p q _ h3 hq h2 hg)
  · intro r1 r2 p1 p2 id h1 h2 h3 h4
    exact h.apart r1 r2 p1 p2 id (back r1 p1 id h1 h3).2 (back r2 p2 id h2 h4).2 h3 h4

theorem SpansHeld.dropped {s : Traces R B} {l : List Nat} (h : SpansHeld s l) (r : Nat) :
    SpansHeld (s.dropped r) (l.filter (· ≠ r)) ∧ mapGet (s.dropped r).requests r = none := by
  unfold Traces.dropped
  cases hr : mapGet s.requests r with
  | none => exact ⟨h.shrink r (fun q hq => by rw [hr] at hq; cases hq), hr⟩
  | some q =>
    refine ⟨h.release r hr _ (fun r' hne => by rw [mapGet_filter, if_neg hne]) (fun q' hq' => ?_), ?_⟩
    · rw [mapGet_filter, if_pos rfl] at hq'; cases hq'
    · simp only [mapGet_filter, if_true]

theorem enterRequestSpan_held {s : Traces R B} {l : List Nat} (r : Nat) {q : ReqTrace R B} {t : Tracer R B}
    (h : SpansHeld { s with tracer := t, requests := mapInsert s.requests r q } l) (hr : r ∈ l)
    (hs : ∀ id ∈ t.stack, id < t.next) :
    SpansHeld { s with tracer := (q.enterRequestSpan f t).2, requests := mapInsert s.requests r (q.enterRequestSpan f t).1 } l := by
  have h2 := newSpan_stack f t
  have h3 := @newSpan_id _ _ f t
  unfold ReqTrace.enterRequestSpan
  generalize t.newSpan f = p at h2 h3 ⊢
  obtain ⟨o, t1⟩ := p
  simp only at h2
  have hget : mapGet (mapInsert s.requests r q) r = some q := by simp [mapGet_mapInsert]
  cases o with
  | none => exact ⟨by show t1.stack.Nodup; rw [h2]; exact h.nodup, fun id hi => h.owned id (h2 ▸ hi),
      fun r' p id h4 h5 => by show id ∈ t1.stack; rw [h2]; exact h.held r' p id h4 h5, h.apart⟩
  | some id =>
    obtain ⟨h4, _⟩ := h3 rfl
    have hfresh : id ∉ t.stack := fun hi => Nat.lt_irrefl _ (h4 ▸ hs id hi)
    have hstack : (((t1.setParent id q.otel).enter (some id)).exit q.guard).stack = id :: (t.exit q.guard).stack := by
      cases hg : q.guard with
      | none => simp [Tracer.exit, Tracer.enter, setParent_stack, h2]
      | some g =>
        have hgs : g ∈ t.stack := h.held r q g hget hg
        have hne : (id == g) = false := by
          simp only [beq_eq_false_iff_ne, ne_eq]; rintro rfl; exact hfresh hgs
        simp [Tracer.exit, Tracer.enter, setParent_stack, h2, List.erase_cons, hne]
    have hrel := h.release (s := { s with tracer := t, requests := mapInsert s.requests r q }) r hget
      (s.requests.filter (fun e => e.1 ≠ r))
      (fun r' hne => by simp only [mapGet_filter, mapGet_mapInsert, if_neg hne])
      (fun q' hq' => by rw [mapGet_filter, if_pos rfl] at hq'; cases hq')
    have hmem : ∀ k ∈ (t.exit q.guard).stack, k ∈ t.stack := by
      intro k hk
      cases hg : q.guard with
      | none => rw [hg] at hk; exact hk
      | some g => rw [hg] at hk; exact List.mem_of_mem_erase hk
    have old : ∀ r' p, r' ≠ r → mapGet (mapInsert s.requests r { q with guard := some id }) r' = some p →
        mapGet (s.requests.filter (fun e => e.1 ≠ r)) r' = some p := by
      intro r' p hne hp
      rw [mapGet_mapInsert, if_neg hne] at hp
      rw [mapGet_filter, if_neg hne]; exact hp
    have holds : ∀ r' p k, mapGet (mapInsert s.requests r { q with guard := some id }) r' = some p → p.guard = some k →
        (r' = r ∧ k = id) ∨ (r' ≠ r ∧ k ∈ (t.exit q.guard).stack) := by
      intro r' p k hp hk
      by_cases e : r' = r
      · subst e
        rw [mapGet_mapInsert, if_pos rfl] at hp; cases hp
        cases hk; exact Or.inl ⟨rfl, rfl⟩
      · exact Or.inr ⟨e, hrel.held r' p k (old r' p e hp) hk⟩
    refine ⟨?_, ?_, ?_, ?_⟩
    · simp only [hstack]
      exact List.nodup_cons.mpr ⟨fun hk => hfresh (hmem id hk), hrel.nodup⟩
    · intro k hk
      simp only [hstack] at hk
      rcases List.mem_cons.mp hk with rfl | hk
      · exact ⟨r, hr, { q with guard := some k }, by simp [mapGet_mapInsert], rfl⟩
      · obtain ⟨r', a, p, b, c⟩ := hrel.owned k hk
        have hne : r' ≠ r := by simp only [List.mem_filter, decide_eq_true_eq] at a; exact a.2
        refine ⟨r', (List.mem_filter.mp a).1, p, ?_, c⟩
        simp only [mapGet_filter, if_neg hne] at b
        simp only [mapGet_mapInsert, if_neg hne]; exact b
    · intro r' p k hp hk
      simp only [hstack]
      rcases holds r' p k hp hk with ⟨_, rfl⟩ | ⟨_, h⟩
      · exact List.mem_cons_self
      · exact List.mem_cons_of_mem _ h
    · intro r1 r2 p1 p2 k a1 a2 b1 b2
      rcases holds r1 p1 k a1 b1 with ⟨e1, k1⟩ | ⟨e1, k1⟩ <;> rcases holds r2 p2 k a2 b2 with ⟨e2, k2⟩ | ⟨e2, k2⟩
      · rw [e1, e2]
      · subst k1; exact absurd (hmem _ k2) hfresh
      · subst k2; exact absurd (hmem _ k1) hfresh
      · exact hrel.apart r1 r2 p1 p2 k (old r1 p1 e1 a1) (old r2 p2 e2 a2) b1 b2

theorem enterRequestSpans_held (n : Nat) : ∀ {s : Traces R B} {l : List Nat} (r : Nat) {q : ReqTrace R B} {t : Tracer R B},
    SpansHeld { s with tracer := t, requests := mapInsert s.requests r q } l → r ∈ l →
    TracerNumbered t → ReqNumbered q t.next →
    SpansHeld { s with tracer := (q.enterRequestSpans f t n).2, requests := mapInsert s.requests r (q.enterRequestSpans f t n).1 } l := by
  induction n with
  | zero => intro s l r q t h _ _ _; exact h
  | succ n ih =>
    intro s l r q t h hr ht hq
    obtain ⟨h1, h2, _⟩ := enterRequestSpan_numbered f ht hq
    exact ih r (enterRequestSpan_held f r h hr ht.stack) hr h1 h2

theorem step_held {s : Traces R B} {l : List Nat} (h : SpansHeld s l) (hn : SpansNumbered s) (op : TraceOp) :
    SpansHeld (s.step lib f op) (openStep l op) := by
  cases op with
  | start r hs n =>
    obtain ⟨h1, h2⟩ := h.dropped r
    have hn1 := hn.dropped r
    have h3 := extract_numbered lib hn1.tracer hs
    rw [step_start]
    have hg : (({} : ReqTrace R B).extractTraceContext lib (s.dropped r).tracer hs).guard = none := by
      cases hs <;> rfl
    have h4 := h1.put (t := (s.dropped r).tracer) r (q := {}) (Or.inr ⟨h2, rfl⟩) hg rfl
    unfold openStep
    by_cases e : n = 0
    · subst e; simp only [if_true]; exact h4
    · simp only [if_neg e]
      exact enterRequestSpans_held f n r (h4.weaken fun _ h => List.mem_cons_of_mem _ h) List.mem_cons_self hn1.tracer h3
  | apply r task calls =>
    cases hr : mapGet s.requests r with
    | none => rw [(step_gone lib f hr task calls).1]; exact h
    | some q =>
      rw [step_apply lib f hr]
      have hg : (q.ensureSpan f s.tracer task).2.1.guard = q.guard := by
        unfold ReqTrace.ensureSpan; split <;> rfl
      have hst : (q.ensureSpan f s.tracer task).2.2.stack = s.tracer.stack := by
        unfold ReqTrace.ensureSpan; split
        · rfl
        · exact newSpan_stack f s.tracer
      have := h.put r (Or.inl hr) hg hst
      exact ⟨this.nodup, this.owned, this.held, this.apart⟩
  | call r =>
    cases hr : mapGet s.requests r with
    | none => rw [(step_gone lib f hr 0 true).2.1]; exact h
    | some q => rw [step_call lib f hr]; exact ⟨h.nodup, h.owned, h.held, h.apart⟩
  | finish r exports =>
    cases hr : mapGet s.requests r with
    | none => rw [(step_gone lib f hr 0 exports).2.2]; exact h.shrink r (fun q hq => by rw [hr] at hq; cases hq)
    | some q =>
      rw [step_finish lib f hr]
      have := h.release r hr (mapInsert s.requests r { q with guard := none })
        (fun r' hne => by rw [mapGet_mapInsert, if_neg hne])
        (fun q' hq' => by rw [mapGet_mapInsert, if_pos rfl] at hq'; cases hq'; rfl)
      exact ⟨this.nodup, this.owned, this.held, this.apart⟩
  | drop r => exact (h.dropped r).1

theorem run_held (ops : List TraceOp) : SpansHeld (Traces.run lib f ops) (openTraced ops) := by
  induction ops using snoc_ind with
  | nil => exact ⟨by simp [Traces.run], by simp [Traces.run], by simp [Traces.run, mapGet], by simp [Traces.run, mapGet]⟩
  | snoc ops op ih =>
    have hn := run_numbered lib f ops
    unfold Traces.run openTraced at ih ⊢
    unfold Traces.run at hn
    rw [List.foldl_append, List.foldl_append]
    exact step_held lib f ih hn op

/-- No span is entered when no request with a span is open. -/
theorem closed_stack {ops : List TraceOp} (h : openTraced ops = []) :
    (Traces.run lib f ops).tracer.stack = [] ∧
      ∀ r q, mapGet (Traces.run lib f ops).requests r = some q → q.guard = none := by
  have hh := run_held lib f ops
  rw [h] at hh
  have hs : (Traces.run lib f ops).tracer.stack = [] := by
    apply List.eq_nil_iff_forall_not_mem.mpr
    intro id hi
    obtain ⟨r, hr, _⟩ := hh.owned id hi
    cases hr
  refine ⟨hs, ?_⟩
  intro r q hq
  cases hg : q.guard with
  | none => rfl
  | some id => have := hh.held r q id hq hg; rw [hs] at this; cases this

theorem dropped_closed {s : Traces R B}
    (h2 : ∀ r q, mapGet s.requests r = some q → q.guard = none) (r : Nat) :
    (s.dropped r).tracer = s.tracer ∧ (s.dropped r).calls = s.calls ∧
      ∀ r' q, mapGet (s.dropped r).requests r' = some q → q.guard = none := by
  unfold Traces.dropped
  cases hr : mapGet s.requests r with
  | none => exact ⟨rfl, rfl, h2⟩
  | some q =>
    refine ⟨by simp only [h2 r q hr, Tracer.exit], rfl, ?_⟩
    intro r' q' h'
    simp only [mapGet_filter] at h'
    split at h'
    · cases h'
    · exact h2 r' q' h'

theorem dropped_calls (s : Traces R B) (r : Nat) : (s.dropped r).calls = s.calls := by
  unfold Traces.dropped; split <;> rfl

theorem extract_own (hs : Option Headers) (t : Tracer R B) (h : t.stack = []) :
    ({} : ReqTrace R B).extractTraceContext lib t hs = { otel := ownContext lib hs } := by
  cases hs with
  | none => rfl
  | some hs =>
    have hc : t.current = {} := by simp [Tracer.current, h]
    simp only [ReqTrace.extractTraceContext, hc, extractor_value, ReqTrace.extract, ownContext]
    cases lib.trace (headerValue hs) <;> cases lib.baggage (headerValue hs) <;> rfl

/-- A context with the trace and the baggage of `own`, and spans not before `n`. -/
structure OwnFrom (own : OtelCtx R B) (n : Nat) (c : OtelCtx R B) : Prop where
  remote : c.remote = own.remote
  baggage : c.baggage = own.baggage
  spans : ∀ k ∈ c.spans, n ≤ k

theorem OwnFrom.child {own c : OtelCtx R B} {n : Nat} (h : OwnFrom own n c) {id : Nat} (hid : n ≤ id) :
    OwnFrom own n (c.child id) :=
  ⟨h.remote, h.baggage, fun k hk => (List.mem_cons.mp hk).elim (fun e => e ▸ hid) (h.spans k)⟩

/-- The request's own span is the only one that is entered, and it has the request's own context. -/
structure Guarding (own : OtelCtx R B) (n : Nat) (q : ReqTrace R B) (t : Tracer R B) (g : Nat) : Prop where
  stack : t.stack = [g]
  context : ∃ c, mapGet t.contexts g = some c ∧ OwnFrom own n c
  slots : ∀ k id, mapGet q.spans k = some (some id) → OwnFrom own n (t.context id)

theorem enterRequestSpan_own (hr : f.recorded = true) (he : f.enabled = true) {own : OtelCtx R B} {n : Nat}
    (ho : own.spans = []) {q : ReqTrace R B} {t : Tracer R B} (hq : q.otel = own) (hs : q.spans = [])
    (hn : n ≤ t.next) (ht : TracerNumbered t)
    (hg : (q.guard = none ∧ t.stack = []) ∨ ∃ g, q.guard = some g ∧ t.stack = [g]) :
    (q.enterRequestSpan f t).1.otel = own ∧ (q.enterRequestSpan f t).1.spans = [] ∧
      n ≤ (q.enterRequestSpan f t).2.next ∧
      ∃ g, (q.enterRequestSpan f t).1.guard = some g ∧
        Guarding own n (q.enterRequestSpan f t).1 (q.enterRequestSpan f t).2 g := by
  have e : t.newSpan f =
      (some t.next, ⟨t.stack, mapInsert t.contexts t.next (t.current.child t.next), t.next + 1⟩) := by
    simp [Tracer.newSpan, hr, he]
  unfold ReqTrace.enterRequestSpan
  rw [e]
  refine ⟨hq, hs, ?_, t.next, rfl, ?_⟩
  · simp only [exit_next, enter_next, setParent_next]; exact Nat.le_succ_of_le hn
  · refine ⟨?_, ⟨own.child t.next, ?_, ?_⟩, ?_⟩
    · rcases hg with ⟨h1, h2⟩ | ⟨g, h1, h2⟩
      · simp [h1, Tracer.exit, Tracer.enter, setParent_stack, h2]
      · have hlt := ht.stack g (by rw [h2]; exact List.mem_cons_self)
        have hne : (t.next == g) = false := by simp only [beq_eq_false_iff_ne, ne_eq]; omega
        simp [h1, Tracer.exit, Tracer.enter, setParent_stack, h2, List.erase_cons, hne]
    · simp [exit_contexts, enter_contexts, Tracer.setParent, mapGet_mapInsert, hq]
    · exact OwnFrom.child ⟨rfl, rfl, by rw [ho]; simp⟩ hn
    · intro k id hk; simp only [hs] at hk; simp [mapGet] at hk

theorem enterRequestSpans_own (hr : f.recorded = true) (he : f.enabled = true) {own : OtelCtx R B} {n : Nat}
    (ho : own.spans = []) (m : Nat) : ∀ {q : ReqTrace R B} {t : Tracer R B}, q.otel = own → q.spans = [] →
    n ≤ t.next → TracerNumbered t → ReqNumbered q t.next →
    ((q.guard = none ∧ t.stack = []) ∨ ∃ g, q.guard = some g ∧ Guarding own n q t g) →
    (q.enterRequestSpans f t m).1.otel = own ∧ n ≤ (q.enterRequestSpans f t m).2.next ∧
      ∀ g, (q.enterRequestSpans f t m).1.guard = some g →
        Guarding own n (q.enterRequestSpans f t m).1 (q.enterRequestSpans f t m).2 g := by
  induction m with
  | zero =>
    intro q t hq hs hn ht _ hg
    refine ⟨hq, hn, ?_⟩
    intro g hg'
    change q.guard = some g at hg'
    rcases hg with ⟨h1, _⟩ | ⟨g', h1, h2⟩
    · rw [h1] at hg'; cases hg'
    · rw [h1] at hg'; cases hg'; exact h2
  | succ m ih =>
    intro q t hq hs hn ht hqn hg
    obtain ⟨h1, h2, h3, g, h4, h5⟩ := enterRequestSpan_own f hr he ho hq hs hn ht
      (hg.imp id (fun ⟨g, a, b⟩ => ⟨g, a, b.stack⟩))
    obtain ⟨h6, h7, _⟩ := enterRequestSpan_numbered f ht hqn
    exact ih h1 h2 h3 h6 h7 (Or.inr ⟨g, h4, h5⟩)

/-- While request `r` is served and no other request with a span starts. -/
structure DuringOwn (own : OtelCtx R B) (n r : Nat) (s : Traces R B) : Prop where
  next : n ≤ s.tracer.next
  others : ∀ r' q, r' ≠ r → mapGet s.requests r' = some q → q.guard = none
  otel : ∀ q, mapGet s.requests r = some q → q.otel = own
  guarding : ∀ q g, mapGet s.requests r = some q → q.guard = some g → Guarding own n q s.tracer g

theorem newSpan_context {t : Tracer R B} {id : Nat} (h : id < t.next) :
    mapGet (t.newSpan f).2.contexts id = mapGet t.contexts id := by
  unfold Tracer.newSpan
  split
  · dsimp only
    split
    · rw [mapGet_mapInsert, if_neg (by omega)]
    · rfl
  · rfl

theorem Guarding.newSpan {own : OtelCtx R B} {n : Nat} {q : ReqTrace R B} {t : Tracer R B} {g : Nat}
    (h : Guarding own n q t g) (ht : TracerNumbered t) (hq : ReqNumbered q t.next) : Guarding own n q (t.newSpan f).2 g := by
  refine ⟨by rw [newSpan_stack]; exact h.stack, ?_, ?_⟩
  · rw [newSpan_context f (ht.stack g (by rw [h.stack]; exact List.mem_cons_self))]; exact h.context
  · intro k id hk
    unfold Tracer.context
    rw [newSpan_context f (hq.slots k id hk)]
    exact h.slots k id hk

theorem Guarding.ensureSpan (hr : f.recorded = true) {own : OtelCtx R B} {n : Nat} {q : ReqTrace R B} {t : Tracer R B}
    {g : Nat} (h : Guarding own n q t g) (ht : TracerNumbered t) (hq : ReqNumbered q t.next) (hn : n ≤ t.next) (task : Nat) :
    Guarding own n (q.ensureSpan f t task).2.1 (q.ensureSpan f t task).2.2 g ∧
      OwnFrom own n ((q.ensureSpan f t task).2.2.enter (q.ensureSpan f t task).1).spanContext := by
  obtain ⟨c, hc, hown⟩ := h.context
  unfold ReqTrace.ensureSpan
  cases hs : mapGet q.spans task with
  | some span =>
    refine ⟨h, ?_⟩
    cases span with
    | none => simp only [Tracer.enter, Tracer.spanContext, h.stack, Tracer.context, hc]; exact hown
    | some id => exact h.slots task id hs
  | none =>
    have h1 := h.newSpan f ht hq
    have hcur : t.current = c := by simp [Tracer.current, h.stack, hc, Tracer.context]
    have key : ∀ id, (t.newSpan f).1 = some id → OwnFrom own n ((t.newSpan f).2.context id) := by
      intro id hid
      unfold Tracer.newSpan at hid ⊢
      split at hid
      · rename_i he
        cases hid
        simp only [he, hr, if_true, Tracer.context, mapGet_mapInsert, Option.getD_some, hcur]
        exact hown.child hn
      · cases hid
    refine ⟨⟨h1.stack, h1.context, ?_⟩, ?_⟩
    · intro k id hk
      simp only [mapGet_mapInsert] at hk
      split at hk
      · injection hk with hk; exact key id hk
      · exact h1.slots k id hk
    · simp only
      cases hsp : (t.newSpan f).1 with
      | none =>
        obtain ⟨c', hc', hown'⟩ := h1.context
        simp only [Tracer.enter, Tracer.spanContext, h1.stack, Tracer.context, hc']; exact hown'
      | some id => exact key id hsp

/-- What a call of request `r` carries. -/
def CallOwn (own : OtelCtx R B) (n : Nat) (e : Nat × OtelCtx R B × List (Text × Bytes)) : Prop :=
  OwnFrom own n e.2.1 ∧ e.2.2 = headersInjector (lib.inject e.2.1.remote e.2.1.spans e.2.1.baggage)

theorem callEntry_own {own : OtelCtx R B} {n r : Nat} {q : ReqTrace R B} {t : Tracer R B} (ho : own.spans = [])
    (h1 : q.otel = own) (h2 : ∀ g, q.guard = some g → OwnFrom own n t.spanContext) : CallOwn lib own n (callEntry lib r q t) := by
  refine ⟨?_, rfl⟩
  show OwnFrom own n (q.sent t)
  unfold ReqTrace.sent
  cases hg : q.guard with
  | none => simp only [Option.isSome_none, h1]; exact ⟨rfl, rfl, by simp [ho]⟩
  | some g => simp only [Option.isSome_some, if_true]; exact h2 g hg

theorem Guarding.spanContext {own : OtelCtx R B} {n : Nat} {q : ReqTrace R B} {t : Tracer R B} {g : Nat}
    (h : Guarding own n q t g) : OwnFrom own n t.spanContext := by
  obtain ⟨c, hc, hown⟩ := h.context
  simp only [Tracer.spanContext, h.stack, Tracer.context, hc]; exact hown

theorem step_during (hr : f.recorded = true) {own : OtelCtx R B} (ho : own.spans = []) {n r : Nat} {s : Traces R B}
    (h : DuringOwn own n r s) (hn : SpansNumbered s) (op : TraceOp) (hop : ∀ q hs m, op = .start q hs m → q ≠ r ∧ m = 0) :
    DuringOwn own n r (s.step lib f op) ∧ ∃ es, (s.step lib f op).calls = s.calls ++ es ∧
      ∀ e ∈ es, e.1 = r → CallOwn lib own n e := by
  have drop : ∀ r', r' ≠ r → (s.dropped r').tracer = s.tracer ∧ ∀ k, k ≠ r' → mapGet (s.dropped r').requests k = mapGet s.requests k := by
    intro r' hne
    unfold Traces.dropped
    cases hq : mapGet s.requests r' with
    | none => exact ⟨rfl, fun _ _ => rfl⟩
    | some q => exact ⟨by simp only [h.others r' q hne hq, Tracer.exit], fun k hk => by simp only [mapGet_filter, if_neg hk]⟩
  cases op with
  | start r' hs m =>
    obtain ⟨hne, rfl⟩ := hop r' hs m rfl
    obtain ⟨d1, d2⟩ := drop r' hne
    rw [step_start]
    refine ⟨⟨by show n ≤ (s.dropped r').tracer.next; rw [d1]; exact h.next, ?_, ?_, ?_⟩, [], by simp [dropped_calls], by simp⟩
    · intro k q hk hq
      simp only [mapGet_mapInsert] at hq
      split at hq
      · cases hq; cases hs <;> rfl
      · rename_i e; rw [d2 k e] at hq; exact h.others k q hk hq
    · intro q hq
      simp only [mapGet_mapInsert, if_neg (Ne.symm hne)] at hq
      rw [d2 r (Ne.symm hne)] at hq; exact h.otel q hq
    · intro q g hq hg
      simp only [mapGet_mapInsert, if_neg (Ne.symm hne)] at hq
      rw [d2 r (Ne.symm hne)] at hq
      show Guarding own n q (s.dropped r').tracer g
      rw [d1]; exact h.guarding q g hq hg
  | apply r' task calls =>
    cases hq : mapGet s.requests r' with
    | none => rw [(step_gone lib f hq task calls).1]; exact ⟨h, [], by simp, by simp⟩
    | some q =>
      rw [step_apply lib f hq]
      have hg : (q.ensureSpan f s.tracer task).2.1.guard = q.guard := by
        unfold ReqTrace.ensureSpan; split <;> rfl
      have hot : (q.ensureSpan f s.tracer task).2.1.otel = q.otel := by
        unfold ReqTrace.ensureSpan; split <;> rfl
      have hnx := (ensureSpan_numbered f hn.tracer (hn.requests r' q hq) task).2.2.1
      refine ⟨⟨Nat.le_trans h.next hnx, ?_, ?_, ?_⟩, _, rfl, ?_⟩
      · intro k p hk hp
        simp only [mapGet_mapInsert] at hp
        split at hp
        · rename_i e; subst e; cases hp; rw [hg]; exact h.others k q hk hq
        · exact h.others k p hk hp
      · intro p hp
        simp only [mapGet_mapInsert] at hp
        split at hp
        · rename_i e; subst e; cases hp; rw [hot]; exact h.otel q hq
        · exact h.otel p hp
      · intro p g hp hg'
        simp only [mapGet_mapInsert] at hp
        split at hp
        · rename_i e; subst e; cases hp
          rw [hg] at hg'
          exact ((h.guarding q g hq hg').ensureSpan f hr hn.tracer (hn.requests _ q hq) h.next task).1
        · have := h.guarding p g hp hg'
          unfold ReqTrace.ensureSpan
          split
          · exact this
          · exact this.newSpan f hn.tracer (hn.requests _ p hp)
      · intro e he her
        split at he
        · rw [List.mem_singleton] at he; subst he
          have her' : r' = r := her
          subst her'
          refine callEntry_own lib ho (by rw [hot]; exact h.otel q hq) ?_
          intro g hg'
          rw [hg] at hg'
          exact ((h.guarding q g hq hg').ensureSpan f hr hn.tracer (hn.requests _ q hq) h.next task).2
        · simp at he
  | call r' =>
    cases hq : mapGet s.requests r' with
    | none => rw [(step_gone lib f hq 0 true).2.1]; exact ⟨h, [], by simp, by simp⟩
    | some q =>
      rw [step_call lib f hq]
      refine ⟨⟨h.next, h.others, h.otel, h.guarding⟩, _, rfl, ?_⟩
      intro e he her
      rw [List.mem_singleton] at he; subst he
      have her' : r' = r := her
      subst her'
      exact callEntry_own lib ho (h.otel q hq) (fun g hg => (h.guarding q g hq hg).spanContext)
  | finish r' exports =>
    cases hq : mapGet s.requests r' with
    | none => rw [(step_gone lib f hq 0 exports).2.2]; exact ⟨h, [], by simp, by simp⟩
    | some q =>
      rw [step_finish lib f hq]
      refine ⟨⟨by simp only [exit_next]; exact h.next, ?_, ?_, ?_⟩, _, rfl, ?_⟩
      · intro k p hk hp
        simp only [mapGet_mapInsert] at hp
        split at hp
        · cases hp; rfl
        · exact h.others k p hk hp
      · intro p hp
        simp only [mapGet_mapInsert] at hp
        split at hp
        · rename_i e; subst e; cases hp; exact h.otel q hq
        · exact h.otel p hp
      · intro p g hp hg'
        simp only [mapGet_mapInsert] at hp
        split at hp
        · cases hp; cases hg'
        · rename_i e
          simp only [h.others r' q (Ne.symm e) hq, Tracer.exit]
          exact h.guarding p g hp hg'
      · intro e he her
        split at he
        · rw [List.mem_singleton] at he; subst he
          have her' : r' = r := her
          subst her'
          exact callEntry_own lib ho (h.otel q hq) (fun g hg => nomatch hg)
        · simp at he
  | drop r' =>
    refine ⟨?_, [], by rw [List.append_nil]; exact dropped_calls s r', by simp⟩
    show DuringOwn own n r (s.dropped r')
    by_cases e : r' = r
    · subst e
      unfold Traces.dropped
      cases hq : mapGet s.requests r' with
      | none => exact h
      | some q =>
        refine ⟨by simp only [exit_next]; exact h.next, ?_, ?_, ?_⟩
        · intro k p hk hp
          simp only [mapGet_filter, if_neg hk] at hp; exact h.others k p hk hp
        · intro p hp; simp only [mapGet_filter, if_true] at hp; cases hp
        · intro p g hp; simp only [mapGet_filter, if_true] at hp; cases hp
    · obtain ⟨d1, d2⟩ := drop r' e
      refine ⟨by rw [d1]; exact h.next, ?_, ?_, ?_⟩
      · intro k p hk hp
        by_cases e' : k = r'
        · subst e'
          unfold Traces.dropped at hp
          cases hq : mapGet s.requests k with
          | none => rw [hq] at hp; exact h.others k p hk hp
          | some q => rw [hq] at hp; simp only [mapGet_filter, if_true] at hp; cases hp
        · rw [d2 k e'] at hp; exact h.others k p hk hp
      · intro p hp; rw [d2 r (Ne.symm e)] at hp; exact h.otel p hp
      · intro p g hp hg; rw [d2 r (Ne.symm e)] at hp; rw [d1]; exact h.guarding p g hp hg

/-- Steps that add calls only of a kind. -/
theorem run_calls {I : Traces R B → Prop} {P : Nat × OtelCtx R B × List (Text × Bytes) → Prop} (ops : List TraceOp)
    (hstep : ∀ s op, op ∈ ops → I s → SpansNumbered s → I (s.step lib f op) ∧
      ∃ es, (s.step lib f op).calls = s.calls ++ es ∧ ∀ e ∈ es, P e) :
    ∀ s, I s → SpansNumbered s → ∃ es, (ops.foldl (Traces.step lib f) s).calls = s.calls ++ es ∧ ∀ e ∈ es, P e := by
  induction ops with
  | nil => intro s _ _; exact ⟨[], by simp, by simp⟩
  | cons op ops ih =>
    intro s hi hn
    obtain ⟨h1, es, h2, h3⟩ := hstep s op List.mem_cons_self hi hn
    obtain ⟨es', h4, h5⟩ := ih (fun s' op' ho => hstep s' op' (List.mem_cons_of_mem _ ho)) _ h1 (step_numbered lib f hn op)
    refine ⟨es ++ es', ?_, ?_⟩
    · rw [List.foldl_cons, h4, h2, List.append_assoc]
    · intro e he; exact (List.mem_append.mp he).elim (h3 e) (h5 e)

theorem tracedCalls_of {before during : List TraceOp} {r : Nat}
    {P : Nat × OtelCtx R B × List (Text × Bytes) → Prop}
    (h : ∃ es, (Traces.run lib f (before ++ during)).calls = (Traces.run lib f before).calls ++ es ∧ ∀ e ∈ es, e.1 = r → P e) :
    ∀ c ∈ tracedCalls lib f before during r, P (r, c) := by
  obtain ⟨es, h1, h2⟩ := h
  intro c hc
  unfold tracedCalls at hc
  rw [h1, List.drop_left] at hc
  obtain ⟨e, he, rfl⟩ := List.mem_map.mp hc
  simp only [List.mem_filter, decide_eq_true_eq] at he
  have := h2 e he.1 he.2
  rw [← he.2]; exact this

end Verif
