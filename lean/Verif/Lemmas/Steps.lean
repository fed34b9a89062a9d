import Verif.Lemmas.Schedule
import Verif.Lemmas.Does
/-! Invariants of pipelines, proved from single steps. -/
set_option linter.unusedSimpArgs false
namespace Verif
open Spec

variable {H : Type} (o : Oracle H)

/-- Obligations of an invariant within callbacks: `X` while running (with the tasks still to be looked at), `Y` at
the moment of an early end, `Z` afterwards. -/
structure Within (X : Pipe H → List PTask → Prop) (Y Z : Pipe H → Prop) : Prop where
  opens : ∀ p, Live p [] → X p [] → X { p with queue := [] } p.queue
  skip : ∀ p t ts, Live p (t :: ts) → X p (t :: ts) → (∃ d ∈ t.deps, d ∉ p.completed) →
    X { p with queue := p.queue ++ [t] } ts
  go : ∀ p t ts out c es, Live p (t :: ts) → X p (t :: ts) → (∀ d ∈ t.deps, d ∈ p.completed) →
    t.apply o (p.ctx.push (.applied t.id)) = (out, c) → out.stops = false →
    c.log = p.ctx.log ++ [.applied t.id] ++ es → TDoes t out es →
    X (Pipe.after { p with ctx := c } t.id out) ts
  stop : ∀ p t ts t' c es, Live p (t :: ts) → X p (t :: ts) → (∀ d ∈ t.deps, d ∈ p.completed) →
    t.apply o (p.ctx.push (.applied t.id)) = (.terminate t', c) →
    c.log = p.ctx.log ++ [.applied t.id] ++ es → TDoes t (.terminate t') es →
    Y (Pipe.terminate o { p with ctx := c } t')
  tear : ∀ p, Live p [] → X p [] → p.queue = [] → p.deferred = [] → X (p.executeTeardown o) []
  bury : ∀ p, Dying p → Y p → Z (p.executeTeardown o)
  late : ∀ p token s z, Live p [] → X p [] → mapGet p.deferred token = none →
    X (p.push (.responded token s z)) []
  answer : ∀ p token s z t out c es, Live p [] → X p [] → mapGet p.deferred token = some t →
    t.apply o (p.answering token s z).ctx = (out, c) → out.stops = false →
    c.log = p.ctx.log ++ [.responded token s z] ++ es → TDoes t out es →
    X (Pipe.replied { p.answering token s z with ctx := c } t.id out) []
  answerStop : ∀ p token s z t t' c es, Live p [] → X p [] → mapGet p.deferred token = some t →
    t.apply o (p.answering token s z).ctx = (.terminate t', c) →
    c.log = p.ctx.log ++ [.responded token s z] ++ es → TDoes t (.terminate t') es →
    Y (Pipe.terminate o { p.answering token s z with ctx := c } t')
  lateD : ∀ p token s z, Dead p → Z p → mapGet p.deferred token = none →
    Z (p.push (.responded token s z))
  answerD : ∀ p token s z id guard, Dead p → Z p →
    mapGet p.deferred token = some (.core (.noop id guard)) → Z (p.dropped token s z id guard)

/-- Obligations of an invariant, also between callbacks. -/
structure Extra (X : Pipe H → List PTask → Prop) (Y Z : Pipe H → Prop) : Prop extends Within o X Y Z where
  frame : ∀ p c', Live p [] → X p [] → Frame p.ctx c' → X { p with ctx := c' } []
  frameD : ∀ p c', Dead p → Z p → Frame p.ctx c' → Z { p with ctx := c' }

/-- The invariant between callbacks. -/
def Holds (X : Pipe H → List PTask → Prop) (Z : Pipe H → Prop) (p : Pipe H) : Prop :=
  (Live p [] ∧ X p []) ∨ (Dead p ∧ Z p)

theorem Holds.sound {X : Pipe H → List PTask → Prop} {Z : Pipe H → Prop} {p : Pipe H}
    (h : Holds X Z p) : Sound p := by
  rcases h with h | h
  · exact .inl h.1
  · exact .inr h.1

variable {X : Pipe H → List PTask → Prop} {Y Z : Pipe H → Prop} {o}

theorem live_opens {p : Pipe H} (h : Live p []) : Live { p with queue := [] } p.queue where
  slot := h.slot
  ended := h.ended
  term := h.term
  queueW := by simpa using h.queueW
  deferW := h.deferW
  kids := by
    intro t ht
    refine h.kids t ?_
    simpa [Pipe.tasks] using ht
  calls := h.calls
  barrier := h.barrier

theorem Within.evalPipe (h : Within o X Y Z) (p : Pipe H) (hl : Live p []) (hx : X p []) :
    Holds X Z (p.evalPipe o) := by
  refine evalPipe_ind o (fun q ts => Live q ts ∧ X q ts) (fun q => Dying q ∧ Y q) (fun q => Dead q ∧ Z q)
    ?_ ?_ ?_ ?_ ?_ p ⟨live_opens hl, h.opens p hl hx⟩
  · rintro q t ts ⟨hl, hx⟩ hd
    exact ⟨live_skip q t ts hl, h.skip q t ts hl hx hd⟩
  · rintro q t ts out c ⟨hl, hx⟩ hd ha hs
    refine ⟨live_go o q t ts out c hl ha hs, ?_⟩
    obtain ⟨es, hlog, hdo⟩ := apply_does o (q.ctx.push (.applied t.id)) t
    rw [ha] at hlog hdo
    exact h.go q t ts out c es hl hx hd ha hs hlog hdo
  · rintro q t ts t' c ⟨hl, hx⟩ hd ha
    refine ⟨live_stop o q t ts t' c hl ha, ?_⟩
    obtain ⟨es, hlog, hdo⟩ := apply_does o (q.ctx.push (.applied t.id)) t
    rw [ha] at hlog hdo
    exact h.stop q t ts t' c es hl hx hd ha hlog hdo
  · rintro q ⟨hd, hy⟩
    exact ⟨dying_dead o q hd, h.bury q hd hy⟩
  · rintro q ⟨hl, hx⟩ hq hd
    exact ⟨live_teardown o q hl hd, h.tear q hl hx hq hd⟩

theorem Within.digestPipe (h : Within o X Y Z) (p : Pipe H) (token s z : Nat) (hl : Live p [])
    (hx : X p []) : Holds X Z (p.digestPipe o token s z) := by
  refine digestPipe_ind o (fun q => Live q [] ∧ X q []) (Holds X Z) p token s z hl.slot ?_ ?_ ?_ ?_
  · intro hg
    exact ⟨live_late p token s z hl hg, h.late p token s z hl hx hg⟩
  · intro t out c hg ha hs
    refine ⟨live_answer o p token s z hl t hg out c ha hs, ?_⟩
    obtain ⟨es, hlog, hdo⟩ := apply_does o (p.answering token s z).ctx t
    rw [ha] at hlog hdo
    exact h.answer p token s z t out c es hl hx hg ha hs hlog hdo
  · intro t t' c hg ha
    obtain ⟨es, hlog, hdo⟩ := apply_does o (p.answering token s z).ctx t
    rw [ha] at hlog hdo
    have hdy := live_answerStop o p token s z hl t hg t' c ha
    have hdead := dying_dead o _ hdy
    rw [dead_evalPipe o _ hdead]
    exact .inr ⟨hdead, h.bury _ hdy (h.answerStop p token s z t t' c es hl hx hg ha hlog hdo)⟩
  · rintro q ⟨hl, hx⟩
    exact h.evalPipe q hl hx

/-- The invariant across an evaluation. -/
theorem Within.eval (h : Within o X Y Z) (p : Pipe H) (hp : Holds X Z p) : Holds X Z (p.evalPipe o) := by
  rcases hp with ⟨hl, hx⟩ | ⟨hd, hz⟩
  · exact h.evalPipe p hl hx
  · rw [dead_evalPipe o p hd]; exact .inr ⟨hd, hz⟩

/-- The invariant across a response. -/
theorem Within.digest (h : Within o X Y Z) (p : Pipe H) (token s z : Nat) (hp : Holds X Z p) :
    Holds X Z (p.digestPipe o token s z) := by
  rcases hp with ⟨hl, hx⟩ | ⟨hd, hz⟩
  · exact h.digestPipe p token s z hl hx
  · rcases dead_digest_cases o p token s z hd with ⟨hg, heq⟩ | ⟨id, guard, hg, heq⟩
    · rw [heq]; exact .inr ⟨dead_late p token s z hd hg, h.lateD p token s z hd hz hg⟩
    · rw [heq]; exact .inr ⟨dead_dropped p token s z hd id guard, h.answerD p token s z id guard hd hz hg⟩

/-- The invariant across a response without a pipeline. -/
theorem Within.tardy (h : Within o X Y Z) (p : Pipe H) (token s z : Nat) (hp : Holds X Z p) (hd : p.deferred = []) :
    Holds X Z (p.push (.responded token s z)) := by
  have hg : mapGet p.deferred token = none := by rw [hd]; rfl
  rcases hp with ⟨hl, hx⟩ | ⟨hdd, hz⟩
  · exact .inl ⟨live_late p token s z hl hg, h.late p token s z hl hx hg⟩
  · exact .inr ⟨dead_late p token s z hdd hg, h.lateD p token s z hdd hz hg⟩

theorem Extra.stable (h : Extra o X Y Z) : Stable o (Holds X Z) where
  frame p c' hp hf := by
    have hs := (sound_stable (o := o)).frame p c' hp.sound hf
    rcases hp with ⟨hl, hx⟩ | ⟨hd, hz⟩
    · rcases hs with hs | hs
      · exact .inl ⟨hs, h.frame p c' hl hx hf⟩
      · exact absurd (hl.term.symm.trans hs.term) (by simp)
    · rcases hs with hs | hs
      · exact absurd (hd.term.symm.trans hs.term) (by simp)
      · exact .inr ⟨hs, h.frameD p c' hd hz hf⟩
  late p token s z hp _ hd := h.toWithin.tardy p token s z hp hd
  eval p hp := h.toWithin.eval p hp
  digest p token s z hp := h.toWithin.digest p token s z hp

/-- The log of a terminated pipeline. -/
theorem terminate_log (p : Pipe H) (t : PTask) :
    (p.terminate o t).ctx.log = (t.apply o p.ctx).2.log ++ [.ended] := rfl

/-- A task inside tracing decorators only. -/
inductive Traced (k : Core) : PTask → Prop
  | core : Traced k (.core k)
  | tracing {t} (h : Traced k t) : Traced k (.tracing t)

/-- The default reply without decorators. -/
def defaultCore : Core := match defaultReply with
  | .core k => k
  | _ => .noopTerminal

theorem defaultReply_core : defaultReply = .core defaultCore := rfl

/-- How an action ends the pipeline: with its own accepted reply, or asking for the default reply. -/
theorem does_terminate {t : PTask} {out : Outcome} {es : List Effect} (h : TDoes t out es) (t' : PTask)
    (hout : out = .terminate t') :
    (Traced .noopTerminal t' ∧ ∃ s hs b, es = [.denied, .reply s hs b true]) ∨
    (Traced defaultCore t' ∧ ∀ e ∈ es, isAcceptedReply e = false) := by
  have hfail : ∀ {t out es}, TDoes t out es → out = .failed → ∀ e ∈ es, isAcceptedReply e = false := by
    intro t out es h
    induction h with
    | core h =>
      intro hout
      cases h with
      | replied _ _ _ terminal => cases terminal <;> simp at hout
      | headers _ _ _ _ terminal => cases terminal <;> simp at hout
      | stored _ _ _ _ _ terminal => cases terminal <;> simp at hout
      | _ => simp_all [isAcceptedReply]
    | tracing h ih =>
      rename_i t out es
      cases out <;> simp [Outcome.traced] at ih ⊢
      exact ih
    | _ => simp
  induction h generalizing t' with
  | core h =>
    cases h with
    | replied _ _ _ terminal s hs b =>
      cases terminal with
      | false => simp at hout
      | true =>
        simp only [if_true, Outcome.terminate.injEq] at hout
        subst hout
        exact .inl ⟨.core, s, hs, b, rfl⟩
    | headers _ _ _ target terminal hs =>
      cases terminal with
      | false => simp at hout
      | true =>
        simp only [if_true, Outcome.terminate.injEq] at hout
        subst hout
        exact .inr ⟨.core, by simp [isAcceptedReply]⟩
    | stored _ _ _ path x terminal s v pre hp =>
      cases terminal with
      | false => simp at hout
      | true =>
        simp only [if_true, Outcome.terminate.injEq] at hout
        subst hout
        refine .inr ⟨.core, ?_⟩
        rcases hp with ⟨rfl, _⟩ | ⟨b, w, rfl, _⟩ <;> simp [isAcceptedReply]
    | fails =>
      simp only [Outcome.terminate.injEq] at hout
      subst hout
      exact .inr ⟨.core, by simp [isAcceptedReply]⟩
    | _ => simp at hout
  | abort h =>
    simp only [Outcome.terminate.injEq] at hout
    subst hout
    refine .inr ⟨.core, ?_⟩
    intro e he
    rcases List.mem_append.1 he with he | he
    · exact hfail h rfl e he
    · simp only [List.mem_singleton] at he; subst he; rfl
  | stop h ih => exact ih t' hout
  | tracing h ih =>
    rename_i t out es
    cases out <;> simp only [Outcome.traced, Outcome.terminate.injEq, reduceCtorEq] at hout
    rename_i x
    subst hout
    rcases ih x rfl with ⟨h1, h2⟩ | ⟨h1, h2⟩
    · exact .inl ⟨.tracing h1, h2⟩
    · exact .inr ⟨.tracing h1, h2⟩
  | _ => simp at hout

/-- Applying a traced task has the effects of the task. -/
theorem traced_log {k : Core} {t : PTask} (h : Traced k t) (c : Ctx H) :
    (t.apply o c).2 = (k.apply o c).2 := by
  induction h with
  | core => rfl
  | tracing h ih =>
    rename_i t
    rw [← ih]
    show (match t.apply o c with
      | (.deferred token p, c) => (Outcome.deferred token (.tracing p), c)
      | (.requeued ts, c) => (.requeued (ts.map .tracing), c)
      | (.terminate t, c) => (.terminate (.tracing t), c)
      | r => r).2 = _
    generalize t.apply o c = r
    obtain ⟨out, c'⟩ := r
    cases out <;> rfl

theorem defaultCore_apply (c : Ctx H) : ∃ hs accepted,
    (defaultCore.apply o c).2.log = c.log ++ [.denied, .reply 500 hs (some defaultBody) accepted] ∧
    hs = withTracker [] (tracker o c).1 := by
  have hlit : evalExpr o c "default".toList truePred = (.available (.bool true), c) := rfl
  have htest : testPred o c "default".toList truePred = (.available true, c) := by
    unfold testPred; rw [hlit]
  have hd : readDeny [("status".toList, .uint 500), ("headers".toList, .list []),
      ("body".toList, .str defaultBody)] = (500, [], some defaultBody) := by decide
  have ht : (tracker o c).2.log = c.log := by
    unfold tracker
    split
    · rfl
    · exact (requestId_quiet o c).log
  refine ⟨withTracker [] (tracker o c).1,
    (o.sendReply ((tracker o c).2.push .denied) 500 (withTracker [] (tracker o c).1) (some defaultBody)).1,
    ?_, rfl⟩
  show (applySendReply o c "default".toList truePred _ false).2.log = _
  unfold applySendReply
  rw [htest]
  show (finishReply o c [("status".toList, .uint 500), ("headers".toList, .list []),
      ("body".toList, .str defaultBody)] false).2.log = _
  unfold finishReply
  rw [hd]
  dsimp only
  split <;> simp [Ctx.push, Ctx.withHost, ht]

/-- The history of an ended pipeline: the action's own effects, then perhaps the default reply. -/
theorem terminate_cases {p : Pipe H} {t' : PTask}
    (h : Traced .noopTerminal t' ∨ Traced defaultCore t') :
    (p.terminate o t').ctx.log = p.ctx.log ++ [.ended] ∧ Traced .noopTerminal t' ∨
    ∃ hs accepted, (p.terminate o t').ctx.log =
      p.ctx.log ++ [.denied, .reply 500 hs (some defaultBody) accepted] ++ [.ended] ∧
      Traced defaultCore t' := by
  rcases h with h | h
  · left
    rw [terminate_log, traced_log h]
    exact ⟨rfl, h⟩
  · right
    obtain ⟨hs, a, hl, _⟩ := defaultCore_apply (o := o) p.ctx
    refine ⟨hs, a, ?_, h⟩
    rw [terminate_log, traced_log h, hl]

/-- Effects of callbacks without a pipeline. -/
def Effect.isIdle : Effect → Bool
  | .allowed => true
  | .returned _ pause => !pause
  | .responded .. => true
  | _ => false

theorem step_idle (f : Filter H) (e : Event H) (hp : f.pipeline = none) :
    (f.step o e).pipeline = none ∧ ∃ es, (f.step o e).log = f.log ++ es ∧ ∀ x ∈ es, x.isIdle = true := by
  unfold Filter.step
  split
  · exact ⟨hp, [], by simp⟩
  · cases e with
    | requestBody host size eos =>
      simp only [Filter.onRequestBody]
      rw [evalWith_none f host _ hp]
      exact ⟨hp, _, rfl, by simp [Effect.isIdle, Filter.shouldPause, hp]⟩
    | responseHeaders host =>
      simp only [Filter.onResponseHeaders]
      rw [evalWith_none _ host _ (by exact hp)]
      refine ⟨hp, [.allowed, .returned .responseHeaders false], ?_, by simp [Effect.isIdle]⟩
      simp [Filter.push, Filter.shouldPause, hp]
    | responseBody host size eos =>
      simp only [Filter.onResponseBody]
      rw [evalWith_none _ host _ hp]
      simp only [Filter.shouldPause, hp]
      exact ⟨hp, [.returned (.responseBody eos) false], by simp [Filter.push], by simp [Effect.isIdle]⟩
    | grpcResponse host token s z =>
      simp only [Filter.onGrpcResponse, hp]
      exact ⟨hp, _, rfl, by simp [Effect.isIdle]⟩

/-- Callbacks of a request without a pipeline. -/
theorem run_idle (factory : Factory) (host : H) (events : List (Event H))
    (h : ∀ p, factory.build o { host := host } ≠ .pipeline p) :
    (Filter.run o factory host events).pipeline = none ∧
    ∃ es, (Filter.run o factory host events).log = (Filter.start o factory host).log ++ es ∧
      ∀ x ∈ es, x.isIdle = true := by
  induction events using snoc_ind with
  | nil =>
    refine ⟨?_, [], by simp [Filter.run], by simp⟩
    show (Filter.start o factory host).pipeline = none
    unfold Filter.start
    dsimp only
    split
    · rfl
    · rename_i p hb; exact absurd hb (h p)
    · rfl
    · split <;> rfl
  | snoc events e ih =>
    rw [run_snoc]
    obtain ⟨hp, es, hl, hes⟩ := ih
    obtain ⟨hp', es', hl', hes'⟩ := step_idle (o := o) _ e hp
    refine ⟨hp', es ++ es', by rw [hl', hl, List.append_assoc], ?_⟩
    intro x hx
    rcases List.mem_append.1 hx with hx | hx
    · exact hes x hx
    · exact hes' x hx

/-- The history of a request without a pipeline. -/
theorem run_idle_log (factory : Factory) (host : H) (events : List (Event H))
    (h : ∀ p, factory.build o { host := host } ≠ .pipeline p) :
    ∃ a es, (Filter.run o factory host events).log = a ++ es ∧ (∀ x ∈ es, x.isIdle = true) ∧
      (a = [.misses, .returned .requestHeaders false] ∨
        (∃ accepted, a = [.errors, .reply 500 [] (some defaultBody) accepted]) ∨ a = []) := by
  obtain ⟨_, es, hl, hes⟩ := run_idle factory host events h
  have : ∃ a fs, (Filter.start o factory host).log = a ++ fs ∧ (∀ x ∈ fs, x.isIdle = true) ∧
      (a = [.misses, .returned .requestHeaders false] ∨
        (∃ accepted, a = [.errors, .reply 500 [] (some defaultBody) accepted]) ∨ a = []) := by
    have hbl := build_log o factory { host := host }
    unfold Filter.start
    dsimp only
    split
    · exact ⟨[], [], rfl, by simp, .inr (.inr rfl)⟩
    · rename_i p hb; exact absurd hb (h p)
    · rename_i c hb
      exact ⟨_, [], by rw [hbl.1 c hb]; rfl, by simp, .inl rfl⟩
    · rename_i c hb
      have := hbl.2 c hb
      split
      · exact ⟨_, [.returned .requestHeaders false], by simp only [Ctx.push, this]; rfl,
          by simp [Effect.isIdle], .inr (.inl ⟨_, rfl⟩)⟩
      · exact ⟨_, [], by simp only [Ctx.push, this]; rfl, by simp, .inr (.inl ⟨_, rfl⟩)⟩
  obtain ⟨a, fs, hs, hfs, ha⟩ := this
  refine ⟨a, fs ++ es, by rw [hl, hs, List.append_assoc], ?_, ha⟩
  intro x hx
  rcases List.mem_append.1 hx with hx | hx
  · exact hfs x hx
  · exact hes x hx

/-- Invariants of new pipelines hold throughout a request. -/
theorem Extra.run (h : Extra o X Y Z) (factory : Factory) (host : H) (p : Pipe H)
    (hb : factory.build o { host := host } = .pipeline p) (hx : X (p.push .hits) [])
    (events : List (Event H)) : Ghost (Holds X Z) (Filter.run o factory host events) := by
  obtain ⟨b, _, hbuilt⟩ := build_built o factory _ p hb
  refine run_ghost h.stable factory host p hb ?_ events
  refine .inl ⟨?_, hx⟩
  rcases sound_hits hbuilt with h | h
  · exact h
  · have := h.term
    have h2 := hbuilt.term
    simp [Pipe.push] at this
    rw [h2] at this
    simp at this

/-- Reading off a property of the history. -/
theorem Ghost.log {I : Pipe H → Prop} {f : Filter H} (h : Ghost I f) {Q : List Effect → Prop}
    (hQ : ∀ p, I p → Q p.ctx.log) : Q f.log := by
  cases h with
  | running q hp h => exact hQ _ h
  | finished g hp hq hd hl h => rw [← hl]; exact hQ _ h

/-- Effects of a teardown. -/
def Effect.isTear : Effect → Bool
  | .teardown => true
  | .exported _ => true
  | _ => false

/-- What a teardown changes. -/
structure TornDown (p q : Pipe H) : Prop where
  log : ∃ es, q.ctx.log = p.ctx.log ++ es ∧ (∀ e ∈ es, e.isTear = true) ∧
    es.countP (fun e => match e with | .teardown => true | _ => false) = p.teardown.length
  queue : q.queue = p.queue
  completed : q.completed = p.completed
  terminated : q.terminated = p.terminated
  teardown : q.teardown = []
  bindings : q.ctx.bindings = p.ctx.bindings
  rid : q.ctx.requestId = p.ctx.requestId
  tracker : q.ctx.trackerId = p.ctx.trackerId
  req : q.ctx.req = p.ctx.req
  resp : q.ctx.resp = p.ctx.resp
  values : q.ctx.values = p.ctx.values
  noops : ∀ e ∈ q.deferred, ∃ id guard, e.2 = .core (.noop id guard)

theorem tornDown (p : Pipe H) : TornDown p (p.executeTeardown o) := by
  unfold Pipe.executeTeardown
  dsimp only
  have step : ∀ (q : Pipe H) (u : Text), q.teardown = [] →
      (∀ e ∈ q.deferred, ∃ id guard, e.2 = .core (.noop id guard)) →
      (q.runTeardownAction o u).teardown = [] ∧
      (∀ e ∈ (q.runTeardownAction o u).deferred, ∃ id guard, e.2 = .core (.noop id guard)) ∧
      (∃ es, (q.runTeardownAction o u).ctx.log = q.ctx.log ++ es ∧ (∀ e ∈ es, e.isTear = true) ∧
        es.countP (fun e => match e with | .teardown => true | _ => false) = 1) ∧
      (q.runTeardownAction o u).queue = q.queue ∧
      (q.runTeardownAction o u).completed = q.completed ∧
      (q.runTeardownAction o u).terminated = q.terminated ∧
      (q.runTeardownAction o u).ctx.bindings = q.ctx.bindings ∧
      (q.runTeardownAction o u).ctx.requestId = q.ctx.requestId ∧
      (q.runTeardownAction o u).ctx.trackerId = q.ctx.trackerId ∧
      (q.runTeardownAction o u).ctx.req = q.ctx.req ∧
      (q.runTeardownAction o u).ctx.resp = q.ctx.resp ∧
      (q.runTeardownAction o u).ctx.values = q.ctx.values := by
    intro q u ht hn
    unfold Pipe.runTeardownAction
    dsimp only
    split
    · exact ⟨ht, hn, ⟨[.teardown], rfl, by simp [Effect.isTear], rfl⟩, rfl, rfl, rfl, rfl, rfl, rfl, rfl,
        rfl, rfl⟩
    · rename_i token h hx
      refine ⟨ht, ?_, ⟨[.teardown, .exported token], ?_, by simp [Effect.isTear], rfl⟩, rfl, rfl, rfl, rfl,
        rfl, rfl, rfl, rfl, rfl⟩
      · intro e he
        rcases mem_mapInsert he with rfl | he
        · exact ⟨_, _, rfl⟩
        · exact hn e he
      · simp [Pipe.push, Ctx.push, Ctx.withHost, Pipe.defer]
  have fold : ∀ (us : List Text) (q : Pipe H), q.teardown = [] →
      (∀ e ∈ q.deferred, ∃ id guard, e.2 = .core (.noop id guard)) →
      TornDown { q with teardown := us } (us.foldl (Pipe.runTeardownAction o) q) := by
    intro us
    induction us with
    | nil =>
      intro q ht hn
      exact ⟨⟨[], by simp, by simp, rfl⟩, rfl, rfl, rfl, ht, rfl, rfl, rfl, rfl, rfl, rfl, hn⟩
    | cons u us ih =>
      intro q ht hn
      obtain ⟨h1, h2, ⟨es, h3, h4, h5⟩, h6, h7, h8, h9, h10, h11, h12, h13, h14⟩ := step q u ht hn
      have := ih (q.runTeardownAction o u) h1 h2
      obtain ⟨fs, g1, g2, g3⟩ := this.log
      refine ⟨⟨es ++ fs, ?_, ?_, ?_⟩, this.queue.trans h6, this.completed.trans h7, this.terminated.trans h8,
        this.teardown, this.bindings.trans h9, this.rid.trans h10, this.tracker.trans h11,
        this.req.trans h12, this.resp.trans h13, this.values.trans h14, this.noops⟩
      · show (us.foldl (Pipe.runTeardownAction o) (q.runTeardownAction o u)).ctx.log = _
        rw [g1]
        show (q.runTeardownAction o u).ctx.log ++ fs = _
        rw [h3, List.append_assoc]
      · intro e he
        rcases List.mem_append.1 he with he | he
        · exact h4 e he
        · exact g2 e he
      · rw [List.countP_append, h5, g3]
        simp [Nat.add_comm]
  have := fold p.teardown { p.replaceNoop with teardown := [] } rfl (by
    intro e he
    simp only [Pipe.replaceNoop, List.mem_map] at he
    obtain ⟨e', _, rfl⟩ := he
    exact ⟨_, _, rfl⟩)
  exact ⟨this.log, this.queue, this.completed, this.terminated, this.teardown, this.bindings, this.rid,
    this.tracker, this.req, this.resp, this.values, this.noops⟩

end Verif
