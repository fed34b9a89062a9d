import Verif.Lemmas.Build
import Verif.Model.Filter
/-! Invariants of the filter over all callbacks. -/
set_option linter.unusedSimpArgs false
namespace Verif
open Spec

variable {H : Type} (o : Oracle H)

/-- Effects that come from the HTTP filter itself. -/
def Effect.isFilter : Effect → Bool
  | .returned .. => true
  | .resumeRequest => true
  | .resumeResponse => true
  | .allowed => true
  | _ => false

/-- Changes of a context between evaluations. -/
structure Frame (c c' : Ctx H) : Prop where
  log : ∃ es, c'.log = c.log ++ es ∧ ∀ e ∈ es, e.isFilter = true
  barrier : c'.barrier = c.barrier
  grpc : c'.grpc = c.grpc
  bindings : c'.bindings = c.bindings
  values : c'.values = c.values
  tracker : c'.trackerId = c.trackerId
  rid : c'.requestId = c.requestId
  req : c'.req.values = c.req.values
  resp : c'.resp.values = c.resp.values

/-- A property of pipelines that all callbacks keep. -/
structure Stable (I : Pipe H → Prop) : Prop where
  frame : ∀ p c', I p → Frame p.ctx c' → I { p with ctx := c' }
  late : ∀ p token s z, I p → p.queue = [] → p.deferred = [] → I (p.push (.responded token s z))
  eval : ∀ p, I p → I (p.evalPipe o)
  digest : ∀ p token s z, I p → I (p.digestPipe o token s z)

namespace Filter

/-- The pipeline with the history of the filter. -/
def «at» (f : Filter H) (p : Pipe H) : Pipe H := { p with ctx := { p.ctx with log := f.log } }

end Filter

/-- `I` holds of the pipeline in progress, or held of it when it was finished and dropped. -/
inductive Ghost (I : Pipe H → Prop) (f : Filter H) : Prop
  | running (q : Pipe H) (hp : f.pipeline = some q) (h : I (f.at q))
  | finished (g : Pipe H) (hp : f.pipeline = none) (hq : g.queue = []) (hd : g.deferred = [])
      (hl : g.ctx.log = f.log) (h : I g)

variable {o}

theorem Stable.and {I J : Pipe H → Prop} (hI : Stable o I) (hJ : Stable o J) :
    Stable o (fun p => I p ∧ J p) where
  frame p c' h hf := ⟨hI.frame p c' h.1 hf, hJ.frame p c' h.2 hf⟩
  late p t s z h hq hd := ⟨hI.late p t s z h.1 hq hd, hJ.late p t s z h.2 hq hd⟩
  eval p h := ⟨hI.eval p h.1, hJ.eval p h.2⟩
  digest p t s z h := ⟨hI.digest p t s z h.1, hJ.digest p t s z h.2⟩

theorem Ghost.imp {I J : Pipe H → Prop} (hIJ : ∀ p, I p → J p) {f : Filter H} (h : Ghost I f) :
    Ghost J f := by
  cases h with
  | running q hp h => exact .running q hp (hIJ _ h)
  | finished g hp hq hd hl h => exact .finished g hp hq hd hl (hIJ _ h)

theorem ghost_push {I : Pipe H → Prop} (hI : Stable o I) {f : Filter H} (h : Ghost I f) {e : Effect}
    (he : e.isFilter = true) : Ghost I (f.push e) := by
  have frame : ∀ c : Ctx H, Frame c { c with log := c.log ++ [e] } := fun c =>
    ⟨⟨[e], rfl, by simpa using he⟩, rfl, rfl, rfl, rfl, rfl, rfl, rfl, rfl⟩
  cases h with
  | running q hp h => exact .running q hp (hI.frame (f.at q) _ h (frame _))
  | finished g hp hq hd hl h =>
    refine .finished { g with ctx := { g.ctx with log := g.ctx.log ++ [e] } } hp hq hd ?_
      (hI.frame _ _ h (frame _))
    show g.ctx.log ++ [e] = f.log ++ [e]
    rw [hl]

theorem ghost_store {I : Pipe H → Prop} (f : Filter H) (p : Pipe H) (h : I p) :
    Ghost I (f.store p.state) := by
  unfold Pipe.state
  split
  · rename_i he
    simp only [Bool.and_eq_true, List.isEmpty_iff] at he
    exact .finished p rfl he.1 he.2 rfl h
  · exact .running p rfl h

theorem store_log (f : Filter H) (p : Pipe H) : (f.store p.state).log = p.ctx.log := by
  unfold Pipe.state
  split <;> rfl

theorem store_inResponse (f : Filter H) (s : PState H) : (f.store s).inResponse = f.inResponse := by
  cases s <;> rfl

theorem store_force (f : Filter H) (s : PState H) : (f.store s).forceResume = f.forceResume := by
  cases s <;> rfl

theorem store_crashed (f : Filter H) (s : PState H) : (f.store s).crashed = f.crashed := by
  cases s <;> rfl

/-- Updates of the body sizes. -/
def Harmless (update : Ctx H → Ctx H) : Prop :=
  ∀ c, (update c).log = c.log ∧ (update c).barrier = c.barrier ∧ (update c).grpc = c.grpc ∧
    (update c).bindings = c.bindings ∧ (update c).values = c.values ∧
    (update c).trackerId = c.trackerId ∧ (update c).requestId = c.requestId ∧
    (update c).req.values = c.req.values ∧ (update c).resp.values = c.resp.values

theorem harmless_req (s e) : Harmless (Filter.setReq s e : Ctx H → Ctx H) := by
  intro c; simp [Filter.setReq]

theorem harmless_resp (s e) : Harmless (Filter.setResp s e : Ctx H → Ctx H) := by
  intro c; simp [Filter.setResp]

theorem harmless_id : Harmless (id : Ctx H → Ctx H) := by
  intro c; simp

/-- The pipeline that is evaluated in a callback. -/
def entered (f : Filter H) (host : H) (update : Ctx H → Ctx H) (q : Pipe H) : Pipe H :=
  { f.enter host q with ctx := update (f.enter host q).ctx }

theorem entered_log (f : Filter H) (host : H) {update : Ctx H → Ctx H} (hu : Harmless update)
    (q : Pipe H) : (entered f host update q).ctx.log = f.log := by
  obtain ⟨h, _⟩ := hu (f.enter host q).ctx
  exact h

theorem entered_frame {I : Pipe H → Prop} (hI : Stable o I) (f : Filter H) (host : H)
    {update : Ctx H → Ctx H} (hu : Harmless update) (q : Pipe H) (h : I (f.at q)) :
    I (entered f host update q) := by
  obtain ⟨h1, h2, h3, h4, h5, h6, h7, h8, h9⟩ := hu (f.enter host q).ctx
  refine hI.frame (f.at q) (update (f.enter host q).ctx) h ?_
  exact ⟨⟨[], by rw [h1]; simp [Filter.enter, Filter.at], by simp⟩, h2, h3, h4, h5, h6, h7, h8, h9⟩

theorem evalWith_none (f : Filter H) (host : H) (update : Ctx H → Ctx H) (h : f.pipeline = none) :
    f.evalWith o host update = f := by
  unfold Filter.evalWith; rw [h]

theorem evalWith_some (f : Filter H) (host : H) (update : Ctx H → Ctx H) (q : Pipe H)
    (h : f.pipeline = some q) :
    f.evalWith o host update = f.store ((entered f host update q).evalPipe o).state := by
  unfold Filter.evalWith; rw [h]; rfl

theorem ghost_evalWith {I : Pipe H → Prop} (hI : Stable o I) {f : Filter H} (h : Ghost I f) (host : H)
    {update : Ctx H → Ctx H} (hu : Harmless update) : Ghost I (f.evalWith o host update) := by
  cases h with
  | running q hp h =>
    rw [evalWith_some f host update q hp]
    exact ghost_store _ _ (hI.eval _ (entered_frame hI f host hu q h))
  | finished g hp hq hd hl h =>
    rw [evalWith_none f host update hp]
    exact .finished g hp hq hd hl h

theorem evalWith_grew (f : Filter H) (host : H) {update : Ctx H → Ctx H} (hu : Harmless update) :
    Grew f.log (f.evalWith o host update).log := by
  cases hp : f.pipeline with
  | none => rw [evalWith_none f host update hp]; exact .refl _
  | some q =>
    rw [evalWith_some f host update q hp, store_log]
    have := evalPipe_grew o (entered f host update q)
    rwa [entered_log f host hu] at this

theorem evalWith_inResponse (f : Filter H) (host : H) (update : Ctx H → Ctx H) :
    (f.evalWith o host update).inResponse = f.inResponse := by
  cases hp : f.pipeline with
  | none => rw [evalWith_none f host update hp]
  | some q => rw [evalWith_some f host update q hp, store_inResponse]

theorem evalWith_force (f : Filter H) (host : H) (update : Ctx H → Ctx H) :
    (f.evalWith o host update).forceResume = f.forceResume := by
  cases hp : f.pipeline with
  | none => rw [evalWith_none f host update hp]
  | some q => rw [evalWith_some f host update q hp, store_force]

theorem ghost_of_pipeline {I : Pipe H → Prop} {f g : Filter H} (h : Ghost I f)
    (hp : g.pipeline = f.pipeline) (hl : g.log = f.log) : Ghost I g := by
  cases h with
  | running q hq h =>
    refine .running q (hp.trans hq) ?_
    simpa [Filter.at, hl] using h
  | finished x hx hq hd hlog h => exact .finished x (hp.trans hx) hq hd (hlog.trans hl.symm) h

theorem ghost_resume {I : Pipe H → Prop} (hI : Stable o I) {f : Filter H} (h : Ghost I f) :
    Ghost I f.resume := by
  unfold Filter.resume
  refine ghost_push hI h ?_
  split <;> rfl

/-- Does a response resume the stream? -/
def resumes (f : Filter H) (p : Pipe H) : Bool :=
  if p.queue.isEmpty && p.deferred.isEmpty then !p.terminated || f.forceResume || f.inResponse
  else if p.terminated && f.inResponse then !p.requiresPause else !p.terminated && !p.requiresPause

theorem onGrpcResponse_some (f : Filter H) (host : H) (token s z : Nat) (q : Pipe H)
    (h : f.pipeline = some q) :
    f.onGrpcResponse o host token s z =
      (if resumes f ((entered f host id q).digestPipe o token s z) then
        (f.store ((entered f host id q).digestPipe o token s z).state).resume
      else f.store ((entered f host id q).digestPipe o token s z).state) := by
  unfold Filter.onGrpcResponse
  rw [h]
  have he : entered f host id q = f.enter host q := rfl
  rw [he]
  unfold Pipe.digest
  dsimp only
  generalize Pipe.digestPipe o (f.enter host q) token s z = p
  unfold resumes Pipe.state
  by_cases hc : (p.queue.isEmpty && p.deferred.isEmpty) = true
  · simp only [hc, if_true]
  · simp only [hc, Bool.false_eq_true, if_false, Filter.shouldResume, store_inResponse]

theorem ghost_step {I : Pipe H → Prop} (hI : Stable o I) {f : Filter H} (h : Ghost I f) (e : Event H) :
    Ghost I (f.step o e) := by
  unfold Filter.step
  split
  · exact h
  · cases e with
    | requestBody host size eos =>
      exact ghost_push hI (ghost_evalWith hI h host (harmless_req _ _)) rfl
    | responseHeaders host =>
      refine ghost_push hI (ghost_evalWith hI ?_ host harmless_id) rfl
      exact ghost_of_pipeline (ghost_push hI h (e := .allowed) rfl) rfl rfl
    | responseBody host size eos =>
      have h1 := ghost_evalWith hI h host (harmless_resp size eos)
      simp only [Filter.onResponseBody]
      split
      · exact ghost_push hI h1 rfl
      · split
        · exact ghost_of_pipeline (ghost_push hI h1 (e := .returned (.responseBody eos) true) rfl) rfl rfl
        · exact ghost_push hI h1 rfl
    | grpcResponse host token s z =>
      cases h with
      | running q hp h =>
        dsimp only
        rw [onGrpcResponse_some f host token s z q hp]
        have h1 : Ghost I (f.store ((entered f host id q).digestPipe o token s z).state) :=
          ghost_store _ _ (hI.digest _ token s z (entered_frame hI f host harmless_id q h))
        split
        · exact ghost_resume hI h1
        · exact h1
      | finished g hp hq hd hl h =>
        dsimp only
        unfold Filter.onGrpcResponse
        rw [hp]
        exact .finished (g.push (.responded token s z)) hp hq hd
          (by simp [Pipe.push, Ctx.push, hl, Filter.push]) (hI.late _ _ _ _ h hq hd)

theorem ghost_foldl {I : Pipe H → Prop} (hI : Stable o I) {f : Filter H} (h : Ghost I f)
    (events : List (Event H)) : Ghost I (events.foldl (Filter.step o) f) :=
  foldl_ind (Ghost I) _ (fun _ e hg => ghost_step hI hg e) events f h

theorem start_pipeline (factory : Factory) (host : H) (p : Pipe H)
    (h : factory.build o { host := host } = .pipeline p) :
    Filter.start o factory host =
      (Filter.store {} ((p.push .hits).evalPipe o).state).push
        (.returned .requestHeaders (Filter.store {} ((p.push .hits).evalPipe o).state).shouldPause) := by
  unfold Filter.start
  dsimp only
  rw [h]
  rfl

/-- Every property that callbacks keep and new pipelines have holds throughout a request. -/
theorem run_ghost {I : Pipe H → Prop} (hI : Stable o I) (factory : Factory) (host : H) (p : Pipe H)
    (hb : factory.build o { host := host } = .pipeline p) (h : I (p.push .hits))
    (events : List (Event H)) : Ghost I (Filter.run o factory host events) := by
  refine ghost_foldl hI ?_ events
  rw [start_pipeline factory host p hb]
  exact ghost_push hI (ghost_store _ _ (hI.eval _ h)) rfl

/-- Running or ended. -/
def Sound (p : Pipe H) : Prop := Live p [] ∨ Dead p

theorem isFilter_neutral {e : Effect} (h : e.isFilter = true) : e.neutral = true := by
  cases e <;> simp_all [Effect.isFilter, Effect.neutral]

theorem isFilter_late {e : Effect} (h : e.isFilter = true) : e.isLate = true := by
  cases e <;> simp_all [Effect.isFilter, Effect.isLate]

theorem filter_list {es : List Effect} (hl : ∀ e ∈ es, e.isFilter = true) :
    (∀ e ∈ es, e.neutral = true) ∧ Effect.ended ∉ es := by
  refine ⟨fun e he => isFilter_neutral (hl e he), fun h => ?_⟩
  have := hl _ h
  simp [Effect.isFilter] at this

theorem sound_stable : Stable o (Sound (H := H)) where
  frame p c' h hf := by
    obtain ⟨es, hlog, he⟩ := hf.log
    have hn := filter_list he
    rcases h with h | h
    · left
      refine live_of_neutral h es hlog hn.1 hn.2 (hf.grpc.trans h.slot) hf.barrier h.term rfl h.queueW ?_
      exact h.kids
    · right
      exact {
        slot := hf.grpc.trans h.slot
        ended := by show _ ∈ c'.log; rw [hlog]; simp [h.ended]
        term := h.term
        queue := h.queue
        tokens := by
          show Fresh c'.log → _ = (inFlight c'.log).map _
          rw [hlog, fresh_neutral hn.1, inFlight_neutral _ hn.1]; exact h.tokens
        teardown := h.teardown
        noops := h.noops
        tail := by
          show EndedLate c'.log
          rw [hlog]
          exact h.tail.append fun e hm => isFilter_late (he e hm) }
  late p token s z h hq hd := by
    rcases h with h | h
    · left
      have hin : Fresh p.ctx.log → inFlight (p.ctx.log ++ [.responded token s z]) = inFlight p.ctx.log := by
        intro hf
        have := h.calls hf
        rw [hd] at this
        rw [inFlight_snoc, ← this]; rfl
      exact {
        slot := h.slot
        ended := by show _ ∉ p.ctx.log ++ [_]; simpa using h.ended
        term := h.term
        queueW := h.queueW
        deferW := h.deferW
        kids := h.kids
        calls := by
          show Fresh (p.ctx.log ++ [_]) → _ = inFlight (p.ctx.log ++ [_])
          intro hf
          rw [hin (Fresh.prefix hf)]; exact h.calls (Fresh.prefix hf)
        barrier := by
          show Fresh (p.ctx.log ++ [_]) → _ = (inFlight (p.ctx.log ++ [_])).countP _
          intro hf
          rw [hin (Fresh.prefix hf)]; exact h.barrier (Fresh.prefix hf) }
    · right
      exact {
        slot := h.slot
        ended := by show _ ∈ p.ctx.log ++ [_]; simp [h.ended]
        term := h.term
        queue := h.queue
        tokens := by
          show Fresh (p.ctx.log ++ [_]) → p.deferred.map _ = (inFlight (p.ctx.log ++ [_])).map _
          intro hf
          have := h.tokens (Fresh.prefix hf)
          rw [hd] at this
          have h0 : inFlight p.ctx.log = [] := by
            simpa using this.symm
          rw [inFlight_snoc, h0, hd]; rfl
        teardown := h.teardown
        noops := h.noops
        tail := h.tail.append (es := [.responded token s z]) (by simp [Effect.isLate]) }
  eval p h := by
    rcases h with h | h
    · exact live_evalPipe o p h
    · rw [dead_evalPipe o p h]; exact .inr h
  digest p token s z h := by
    rcases h with h | h
    · exact live_digestPipe o p token s z h
    · exact .inr (dead_digestPipe o p token s z h).1

theorem sound_hits {host : H} {b : Blueprint} {p : Pipe H} (h : Built ({ host := host } : Ctx H) b p) :
    Sound (p.push .hits) := by
  left
  have hl := built_live h
  exact live_of_neutral hl [.hits] rfl (by simp [Effect.neutral]) (by simp) hl.slot rfl hl.term rfl
    hl.queueW hl.kids

/-- Task predicates as stable properties. -/
theorem tasks_stable {P : Core → Prop} (hP : Closed P) : Stable o (fun p : Pipe H => Tasks P p []) where
  frame _ _ h _ := h
  late _ _ _ _ h _ _ := h
  eval p h := tasks_evalPipe o hP p h
  digest p token s z h := tasks_digestPipe o hP p token s z h

/-- The ghost of a filter says whether traffic must pause. -/
theorem ghost_pause {f : Filter H} (h : Ghost Sound f) (hf : Fresh f.log) (he : Effect.ended ∉ f.log) :
    f.shouldPause = guardOutstanding f.log := by
  cases h with
  | running q hp h =>
    rcases h with h | h
    · have h1 := h.barrier hf
      change q.ctx.barrier = (inFlight f.log).countP _ at h1
      simp only [Filter.shouldPause, hp, Pipe.requiresPause, h1, guardOutstanding]
      rw [Bool.eq_iff_iff]
      simp [List.countP_pos_iff]
    · exact absurd h.ended he
  | finished g hp hq hd hl h =>
    rcases h with h | h
    · have h1 := h.calls (by rw [hl]; exact hf)
      rw [hl, hd] at h1
      simp only [Filter.shouldPause, hp, guardOutstanding, ← h1]
      rfl
    · have := h.ended
      rw [hl] at this
      exact absurd this he

theorem ghost_inFlight_none {f : Filter H} (h : Ghost Sound f) (hf : Fresh f.log) (hp : f.pipeline = none) :
    inFlight f.log = [] := by
  cases h with
  | running q hq h => rw [hp] at hq; simp at hq
  | finished g _ hq hd hl h =>
    rcases h with h | h
    · have h1 := h.calls (by rw [hl]; exact hf)
      rw [hl, hd] at h1
      exact h1.symm
    · have h1 := h.tokens (by rw [hl]; exact hf)
      rw [hl, hd] at h1
      simpa using h1.symm

/-- A pipeline without tasks and calls is sound if its history has neither calls nor an early end. -/
theorem sound_empty (c : Ctx H) (hg : c.grpc = none) (hb : c.barrier = 0)
    (hl : ∀ e ∈ c.log, e.neutral = true) (he : Effect.ended ∉ c.log) : Sound ({ ctx := c } : Pipe H) := by
  left
  have hin : inFlight c.log = [] := by
    have := inFlight_neutral [] hl
    simpa using this
  exact {
    slot := hg
    ended := he
    term := rfl
    queueW := by simp
    deferW := by simp
    kids := by intro t ht; simp [Pipe.tasks] at ht
    calls := by intro _; rw [hin]; rfl
    barrier := by intro _; rw [hin]; exact hb }

/-- Pipelines that were not built behave like an empty one. -/
theorem start_sound (factory : Factory) (host : H) : Ghost Sound (Filter.start o factory host) := by
  have idle : ∀ log : List Effect, (∀ e ∈ log, e.neutral = true) → Effect.ended ∉ log →
      ∀ crashed, Ghost Sound ({ log, crashed } : Filter H) := by
    intro log hn he crashed
    exact .finished ({ ctx := { host := host, log := log } } : Pipe H) rfl rfl rfl rfl
      (sound_empty _ rfl rfl hn he)
  cases hb : factory.build o { host := host } with
  | pipeline p =>
    obtain ⟨b, _, hbuilt⟩ := build_built o factory _ p hb
    exact run_ghost sound_stable factory host p hb (sound_hits hbuilt) []
  | noMatch c =>
    have hl := (build_log o factory { host := host }).1 c hb
    unfold Filter.start
    dsimp only
    rw [hb]
    refine idle _ ?_ ?_ _
    · rw [hl]; simp [Effect.neutral]
    · rw [hl]; simp
  | error c =>
    have hl := (build_log o factory { host := host }).2 c hb
    unfold Filter.start
    dsimp only
    rw [hb]
    dsimp only
    split
    · refine idle _ ?_ ?_ _
      · simp [Ctx.push, hl, Effect.neutral]
      · simp [Ctx.push, hl]
    · refine idle _ ?_ ?_ _
      · simp [Ctx.push, hl, Effect.neutral]
      · simp [Ctx.push, hl]
  | panic =>
    unfold Filter.start
    dsimp only
    rw [hb]
    exact idle [] (by simp) (by simp) _

theorem run_sound (factory : Factory) (host : H) (events : List (Event H)) :
    Ghost Sound (Filter.run o factory host events) :=
  ghost_foldl sound_stable (start_sound factory host) events

theorem run_snoc (factory : Factory) (host : H) (events : List (Event H)) (e : Event H) :
    Filter.run o factory host (events ++ [e]) = (Filter.run o factory host events).step o e := by
  simp [Filter.run]

end Verif
