import Verif.Lemmas.Filter
/-! How each callback changes the history. -/
set_option linter.unusedSimpArgs false
namespace Verif
open Spec

variable {H : Type} {o : Oracle H}

theorem inResponse_append (a b : List Effect) : inResponse (a ++ b) = (inResponse a || inResponse b) := by
  simp [inResponse]

theorem inResponse_pipe {es : List Effect} (h : ∀ e ∈ es, e.isPipe = true) : inResponse es = false := by
  simp only [inResponse, List.any_eq_false]
  intro e he
  have := h e he
  cases e <;> simp_all [Effect.isPipe]

theorem inResponse_grew {a b : List Effect} (h : Grew a b) : inResponse b = inResponse a := by
  obtain ⟨es, rfl, he⟩ := h
  rw [inResponse_append, inResponse_pipe he, Bool.or_false]

/-- The filter knows the phase. -/
theorem step_phase (f : Filter H) (e : Event H) (hc : f.crashed = false)
    (h : f.inResponse = inResponse f.log) :
    (f.step o e).inResponse = inResponse (f.step o e).log := by
  unfold Filter.step
  rw [hc]
  simp only [Bool.false_eq_true, if_false]
  cases e with
  | requestBody host size eos =>
    have hg := evalWith_grew (o := o) f host (harmless_req size eos)
    simp only [Filter.onRequestBody, Filter.push]
    rw [evalWith_inResponse, inResponse_append, inResponse_grew hg, h]
    simp [inResponse]
  | responseHeaders host =>
    have hg := evalWith_grew (o := o) { f.push .allowed with inResponse := true } host harmless_id
    simp only [Filter.onResponseHeaders, Filter.push] at hg ⊢
    rw [evalWith_inResponse, inResponse_append, inResponse_grew hg, inResponse_append]
    simp [inResponse]
  | responseBody host size eos =>
    have hg := evalWith_grew (o := o) f host (harmless_resp size eos)
    have hi := evalWith_inResponse (o := o) f host (Filter.setResp size eos)
    simp only [Filter.onResponseBody]
    split
    · simp only [Filter.push]
      rw [hi, inResponse_append, inResponse_grew hg, h]; simp [inResponse]
    · split
      · simp only [Filter.push]
        rw [hi, inResponse_append, inResponse_grew hg, h]; simp [inResponse]
      · simp only [Filter.push]
        rw [hi, inResponse_append, inResponse_grew hg, h]; simp [inResponse]
  | grpcResponse host token s z =>
    cases hp : f.pipeline with
    | none =>
      simp only [Filter.onGrpcResponse, hp, Filter.push]
      rw [inResponse_append, h]; simp [inResponse]
    | some q =>
      dsimp only
      rw [onGrpcResponse_some f host token s z q hp]
      have hg := digestPipe_grew o (entered f host id q) token s z
      rw [entered_log f host harmless_id] at hg
      have hl : inResponse ((entered f host id q).digestPipe o token s z).ctx.log = f.inResponse := by
        rw [inResponse_grew hg, inResponse_append, h]; simp [inResponse]
      split
      · simp only [Filter.resume, Filter.push, store_log, store_inResponse]
        rw [inResponse_append, hl]
        cases f.inResponse <;> simp [inResponse]
      · rw [store_log, store_inResponse, hl]

theorem start_phase (factory : Factory) (host : H) :
    (Filter.start o factory host).inResponse = inResponse (Filter.start o factory host).log := by
  cases hb : factory.build o { host := host } with
  | pipeline p =>
    obtain ⟨b, _, hbuilt⟩ := build_built o factory _ p hb
    rw [start_pipeline factory host p hb]
    have hg := evalPipe_grew o (p.push .hits)
    simp only [Filter.push, store_inResponse, store_log]
    rw [inResponse_append, inResponse_grew hg]
    simp [Pipe.push, Ctx.push, hbuilt.quiet.log, inResponse]
  | noMatch c =>
    have hl := (build_log o factory { host := host }).1 c hb
    unfold Filter.start
    dsimp only
    rw [hb]
    simp [hl, inResponse]
  | error c =>
    have hl := (build_log o factory { host := host }).2 c hb
    unfold Filter.start
    dsimp only
    rw [hb]
    dsimp only
    split <;> simp [Ctx.push, hl, inResponse]
  | panic =>
    unfold Filter.start
    dsimp only
    rw [hb]
    rfl

/-- Induction over the callbacks of a request that did not crash. -/
theorem run_ind (factory : Factory) (host : H) (P : List (Event H) → Filter H → Prop)
    (h0 : P [] (Filter.start o factory host))
    (hc : ∀ es f e, P es f → f.crashed = true → P (es ++ [e]) f)
    (hs : ∀ es f e, P es f → f.crashed = false → f = Filter.run o factory host es →
      P (es ++ [e]) (f.step o e))
    (events : List (Event H)) : P events (Filter.run o factory host events) := by
  induction events using snoc_ind with
  | nil => exact h0
  | snoc es e ih =>
    rw [run_snoc]
    cases hcr : (Filter.run o factory host es).crashed with
    | true =>
      have : (Filter.run o factory host es).step o e = Filter.run o factory host es := by
        unfold Filter.step; rw [hcr]; rfl
      rw [this]
      exact hc _ _ _ ih hcr
    | false => exact hs _ _ _ ih hcr rfl

theorem run_phase (factory : Factory) (host : H) (events : List (Event H)) :
    (Filter.run o factory host events).inResponse
      = inResponse (Filter.run o factory host events).log :=
  run_ind factory host (fun _ f => f.inResponse = inResponse f.log) (start_phase factory host)
    (fun _ _ _ h _ => h) (fun _ f e h hc _ => step_phase f e hc h) events

/-- The shapes of a callback's effects. -/
inductive StepShape (f : Filter H) : Event H → Filter H → Prop
  | requestBody (host size eos es pause f') (hes : ∀ e ∈ es, e.isPipe = true)
      (hlog : f'.log = f.log ++ es ++ [.returned .requestBody pause])
      (hp : Ghost Sound (f.evalWith o host (Filter.setReq size eos)))
      (hl : (f.evalWith o host (Filter.setReq size eos)).log = f.log ++ es)
      (hpause : pause = (f.evalWith o host (Filter.setReq size eos)).shouldPause) :
      StepShape f (.requestBody host size eos) f'
  | responseHeaders (host) (g : Filter H) (es pause f') (hes : ∀ e ∈ es, e.isPipe = true)
      (hlog : f'.log = f.log ++ [.allowed] ++ es ++ [.returned .responseHeaders pause])
      (hp : Ghost Sound g) (hl : g.log = f.log ++ [.allowed] ++ es) (hpause : pause = g.shouldPause) :
      StepShape f (.responseHeaders host) f'
  | responseBody (host size eos) (g : Filter H) (es pause f') (hes : ∀ e ∈ es, e.isPipe = true)
      (hlog : f'.log = f.log ++ es ++ [.returned (.responseBody eos) pause])
      (hp : Ghost Sound g) (hl : g.log = f.log ++ es)
      (hpause : pause = (g.shouldPause || (g.pipeline.isSome && eos)))
      (hpipe : f'.pipeline = g.pipeline) :
      StepShape f (.responseBody host size eos) f'
  | late (host token s z f') (hn : f.pipeline = none) (hlog : f'.log = f.log ++ [.responded token s z])
      (hpipe : f'.pipeline = none) : StepShape f (.grpcResponse host token s z) f'
  | response (host token s z q) (p' : Pipe H) (es f') (hq : f.pipeline = some q) (hes : ∀ e ∈ es, e.isPipe = true)
      (hl : p'.ctx.log = f.log ++ [.responded token s z] ++ es)
      (hs : Sound p')
      (hlog : f'.log = f.log ++ [.responded token s z] ++ es ++
        (if resumes f p' then [if f.inResponse then .resumeResponse else .resumeRequest] else []))
      (hpipe : f'.pipeline = if p'.queue.isEmpty && p'.deferred.isEmpty then none else some p') :
      StepShape f (.grpcResponse host token s z) f'

theorem store_pipeline (f : Filter H) (p : Pipe H) : (f.store p.state).pipeline
    = if p.queue.isEmpty && p.deferred.isEmpty then none else some p := by
  unfold Pipe.state
  split <;> rfl

theorem step_shape (f : Filter H) (e : Event H) (hc : f.crashed = false) (h : Ghost Sound f) :
    StepShape (o := o) f e (f.step o e) := by
  unfold Filter.step
  rw [hc]
  simp only [Bool.false_eq_true, if_false]
  cases e with
  | requestBody host size eos =>
    obtain ⟨es, hl, hes⟩ := evalWith_grew (o := o) f host (harmless_req size eos)
    exact .requestBody host size eos es _ _ hes (by simp [Filter.onRequestBody, Filter.push, hl])
      (ghost_evalWith sound_stable h host (harmless_req size eos)) hl rfl
  | responseHeaders host =>
    obtain ⟨es, hl, hes⟩ := evalWith_grew (o := o) { f.push .allowed with inResponse := true } host harmless_id
    refine .responseHeaders host _ es _ _ hes ?_ ?_ hl rfl
    · simp only [Filter.onResponseHeaders, Filter.push] at hl ⊢
      rw [hl]
    · refine ghost_evalWith sound_stable ?_ host harmless_id
      exact ghost_of_pipeline (ghost_push (sound_stable (o := o)) h (e := .allowed) rfl) rfl rfl
  | responseBody host size eos =>
    obtain ⟨es, hl, hes⟩ := evalWith_grew (o := o) f host (harmless_resp size eos)
    refine .responseBody host size eos (f.evalWith o host (Filter.setResp size eos)) es
      ((f.evalWith o host (Filter.setResp size eos)).shouldPause ||
        ((f.evalWith o host (Filter.setResp size eos)).pipeline.isSome && eos)) _ hes ?_
      (ghost_evalWith sound_stable h host (harmless_resp size eos)) hl rfl ?_
    · simp only [Filter.onResponseBody]
      generalize f.evalWith o host (Filter.setResp size eos) = g at hl ⊢
      cases h1 : g.shouldPause with
      | true => simp [Filter.push, hl]
      | false =>
        cases h2 : (g.pipeline.isSome && eos) with
        | true => simp [Filter.push, hl]
        | false => simp [Filter.push, hl]
    · simp only [Filter.onResponseBody]
      generalize f.evalWith o host (Filter.setResp size eos) = g
      split
      · rfl
      · split <;> rfl
  | grpcResponse host token s z =>
    cases h with
    | finished g hp hq hd hl h =>
      refine .late host token s z _ hp ?_ ?_
      · simp [Filter.onGrpcResponse, hp, Filter.push]
      · simp [Filter.onGrpcResponse, hp, Filter.push]
    | running q hp h =>
      dsimp only
      rw [onGrpcResponse_some f host token s z q hp]
      have hs : Sound ((entered f host id q).digestPipe o token s z) :=
        (sound_stable (o := o)).digest _ token s z (entered_frame (sound_stable (o := o)) f host harmless_id q h)
      obtain ⟨es, hl, hes⟩ := digestPipe_grew o (entered f host id q) token s z
      rw [entered_log f host harmless_id] at hl
      generalize (entered f host id q).digestPipe o token s z = p' at hs hl ⊢
      refine .response host token s z q p' es _ hp hes hl hs ?_ ?_
      · cases resumes f p' with
        | true => simp [Filter.resume, Filter.push, store_log, store_inResponse, hl]
        | false => simp [store_log, hl]
      · cases resumes f p' with
        | true => simp only [Filter.resume, Filter.push, if_true]; exact store_pipeline f p'
        | false => simp only [Bool.false_eq_true, if_false]; exact store_pipeline f p'

/-- A property of effects that the pipeline's own effects trivially have. -/
theorem everywhere_pipe {Q : List Effect → Effect → Prop} {a es : List Effect} (h : Everywhere Q a)
    (hq : ∀ e, e.isPipe = true → ∀ pre, Q pre e) (hes : ∀ e ∈ es, e.isPipe = true) :
    Everywhere Q (a ++ es) :=
  h.append_all fun e he pre => hq e (hes e he) pre

/-- The history of a new request. -/
inductive StartShape (f : Filter H) : Prop
  | pipeline (g : Filter H) (es pause) (hes : ∀ e ∈ es, e.isPipe = true)
      (hlog : f.log = [.hits] ++ es ++ [.returned .requestHeaders pause])
      (hp : Ghost Sound g) (hl : g.log = [.hits] ++ es) (hpause : pause = g.shouldPause)
  | miss (hlog : f.log = [.misses, .returned .requestHeaders false])
  | error (hlog : f.log = [.errors, .reply 500 [] (some defaultBody) true, .returned .requestHeaders false])
  | refused (hlog : f.log = [.errors, .reply 500 [] (some defaultBody) false]) (hc : f.crashed = true)
  | panic (hlog : f.log = []) (hc : f.crashed = true)

theorem start_shape (factory : Factory) (host : H) : StartShape (Filter.start o factory host) := by
  cases hb : factory.build o { host := host } with
  | pipeline p =>
    obtain ⟨b, _, hbuilt⟩ := build_built o factory _ p hb
    rw [start_pipeline factory host p hb]
    obtain ⟨es, hl, hes⟩ := evalPipe_grew o (p.push .hits)
    have hl : ((p.push .hits).evalPipe o).ctx.log = [.hits] ++ es := by
      rw [hl]; simp [Pipe.push, Ctx.push, hbuilt.quiet.log]
    refine .pipeline (Filter.store {} ((p.push .hits).evalPipe o).state) es _ hes ?_ ?_ ?_ rfl
    · simp only [Filter.push, store_log, hl]
    · exact ghost_store _ _ ((sound_stable (o := o)).eval _ (sound_hits hbuilt))
    · rw [store_log, hl]
  | noMatch c =>
    have hl := (build_log o factory { host := host }).1 c hb
    refine .miss ?_
    unfold Filter.start
    dsimp only
    rw [hb]
    simp [hl]
  | error c =>
    have hl := (build_log o factory { host := host }).2 c hb
    unfold Filter.start
    dsimp only
    rw [hb]
    dsimp only
    cases ha : (o.sendReply (c.push .errors) 500 [] (some defaultBody)).1 with
    | true => exact .error (by simp [Ctx.push, hl])
    | false => exact .refused (by simp [Ctx.push, hl]) (by simp)
  | panic =>
    refine .panic ?_ ?_ <;>
    · unfold Filter.start
      dsimp only
      rw [hb]

theorem step_crashed (f : Filter H) (e : Event H) : (f.step o e).crashed = f.crashed := by
  have ev : ∀ (f : Filter H) host update, (f.evalWith o host update).crashed = f.crashed := by
    intro f host update
    cases hp : f.pipeline with
    | none => rw [evalWith_none f host update hp]
    | some q => rw [evalWith_some f host update q hp, store_crashed]
  unfold Filter.step
  split
  · rfl
  · cases e with
    | requestBody host size eos => exact ev f _ _
    | responseHeaders host => exact ev _ _ _
    | responseBody host size eos =>
      simp only [Filter.onResponseBody]
      split
      · exact ev f _ _
      · split
        · exact ev f _ _
        · exact ev f _ _
    | grpcResponse host token s z =>
      cases hp : f.pipeline with
      | none => simp [Filter.onGrpcResponse, hp, Filter.push]
      | some q =>
        dsimp only
        rw [onGrpcResponse_some f host token s z q hp]
        split
        · simp [Filter.resume, Filter.push, store_crashed]
        · rw [store_crashed]

theorem run_crashed (factory : Factory) (host : H) (events : List (Event H)) :
    (Filter.run o factory host events).crashed = true →
    Filter.run o factory host events = Filter.start o factory host := by
  refine run_ind (o := o) factory host
    (fun _ f => f.crashed = true → f = Filter.start o factory host) ?_ ?_ ?_ events
  · intro _; rfl
  · intro _ _ _ h hc _; exact h hc
  · intro _ f e h hc _ hc'
    rw [step_crashed, hc] at hc'
    simp at hc'

theorem start_crashed_inFlight (factory : Factory) (host : H)
    (h : (Filter.start o factory host).crashed = true) :
    inFlight (Filter.start o factory host).log = [] := by
  have hn : ∀ e ∈ (Filter.start o factory host).log, e.neutral = true := by
    cases start_shape (o := o) factory host with
    | pipeline g es pause hes hlog hp hl hpause =>
      exfalso
      cases hb : factory.build o { host := host } with
      | pipeline p =>
        rw [start_pipeline factory host p hb] at h
        simp [Filter.push, store_crashed] at h
      | noMatch c =>
        unfold Filter.start at h; dsimp only at h; rw [hb] at h; simp at h
      | error c =>
        have h1 := (build_log o factory { host := host }).2 c hb
        unfold Filter.start at hlog; dsimp only at hlog; rw [hb] at hlog; dsimp only at hlog
        split at hlog <;> simp [Ctx.push, h1] at hlog
      | panic =>
        unfold Filter.start at hlog; dsimp only at hlog; rw [hb] at hlog; simp at hlog
    | miss hlog => rw [hlog]; simp [Effect.neutral]
    | error hlog => rw [hlog]; simp [Effect.neutral]
    | refused hlog => rw [hlog]; simp [Effect.neutral]
    | panic hlog => rw [hlog]; simp
  have := inFlight_neutral [] hn
  simpa using this

theorem crashed_inFlight (factory : Factory) (host : H) (events : List (Event H))
    (h : (Filter.run o factory host events).crashed = true) :
    inFlight (Filter.run o factory host events).log = [] := by
  have hs := run_crashed factory host events h
  rw [hs] at h ⊢
  exact start_crashed_inFlight factory host h

theorem pipe_not_resume {es : List Effect} (h : ∀ e ∈ es, e.isPipe = true) :
    ∀ e ∈ es, isResume e = false := by
  intro e he
  have := h e he
  cases e <;> simp_all [Effect.isPipe, isResume]

/-- The history of a request ends early at most once, and only late effects follow. -/
theorem ghost_tail {f : Filter H} (h : Ghost Sound f) :
    Effect.ended ∉ f.log ∨ EndedLate f.log := by
  cases h with
  | running q hp h =>
    rcases h with h | h
    · exact .inl h.ended
    · exact .inr h.tail
  | finished g hp hq hd hl h =>
    rw [← hl]
    rcases h with h | h
    · exact .inl h.ended
    · exact .inr h.tail

theorem endedLate_after {log : List Effect} (h : EndedLate log) :
    Everywhere (fun pre e => Effect.ended ∈ pre → e.isLate = true) log := by
  obtain ⟨l, es, rfl, hl, he⟩ := h
  intro pre e post heq hm
  rw [List.append_eq_append_iff] at heq
  rcases heq with ⟨m, h1, h2⟩ | ⟨m, h1, h2⟩
  · cases m with
    | nil =>
      rw [List.append_nil] at h1
      rw [h1] at hm
      exact absurd hm hl
    | cons x m =>
      rw [List.cons_append, List.cons.injEq] at h2
      exact he e (by rw [h2.2]; simp)
  · exfalso
    apply hl
    rw [h1]
    simp [hm]

/-- The pipeline in progress of an ended request is dead. -/
theorem ghost_dead {f : Filter H} (h : Ghost Sound f) (he : Effect.ended ∈ f.log) {q : Pipe H}
    (hp : f.pipeline = some q) : Dead (f.at q) := by
  cases h with
  | running q' hp' h =>
    rw [hp] at hp'
    cases hp'
    rcases h with h | h
    · exact absurd he h.ended
    · exact h
  | finished g hp' => rw [hp] at hp'; simp at hp'

theorem dead_entered {f : Filter H} {q : Pipe H} (h : Dead (f.at q)) (host : H)
    {update : Ctx H → Ctx H} (hu : Harmless update) : Dead (entered f host update q) := by
  obtain ⟨h1, h2, h3, h4, h5, h6, h7, h8, h9⟩ := hu (f.enter host q).ctx
  have hl : (entered f host update q).ctx.log = f.log := entered_log f host hu q
  exact {
    slot := h3.trans h.slot
    ended := by rw [hl]; exact h.ended
    term := h.term
    queue := h.queue
    tokens := by rw [hl]; exact h.tokens
    teardown := h.teardown
    noops := h.noops
    tail := by rw [hl]; exact h.tail }

theorem dead_evalWith {f : Filter H} (h : Ghost Sound f) (he : Effect.ended ∈ f.log) (host : H)
    {update : Ctx H → Ctx H} (hu : Harmless update) : (f.evalWith o host update).log = f.log := by
  cases hp : f.pipeline with
  | none => rw [evalWith_none f host update hp]
  | some q =>
    rw [evalWith_some f host update q hp, store_log,
      dead_evalPipe o _ (dead_entered (ghost_dead h he hp) host hu), entered_log f host hu]

/-- Callbacks after an early end. -/
theorem step_dead {f : Filter H} (h : Ghost Sound f) (he : Effect.ended ∈ f.log) (e : Event H) :
    ∃ es, (f.step o e).log = f.log ++ es ∧ ∀ x ∈ es, afterEnd x = true := by
  unfold Filter.step
  split
  · exact ⟨[], by simp⟩
  · cases e with
    | requestBody host size eos =>
      exact ⟨_, by
        simp only [Filter.onRequestBody, Filter.push]
        rw [dead_evalWith h he host (harmless_req size eos)], by simp [afterEnd]⟩
    | responseHeaders host =>
      have hg : Ghost Sound ({ f.push .allowed with inResponse := true } : Filter H) :=
        ghost_of_pipeline (ghost_push (sound_stable (o := o)) h (e := .allowed) rfl) rfl rfl
      have hev := dead_evalWith (o := o) hg (by simp [Filter.push, he]) host harmless_id
      refine ⟨[.allowed] ++ [.returned .responseHeaders
        (Filter.evalWith o { f.push .allowed with inResponse := true } host id).shouldPause], ?_,
        by simp [afterEnd]⟩
      simp only [Filter.onResponseHeaders, Filter.push] at hev ⊢
      rw [hev, List.append_assoc]
    | responseBody host size eos =>
      have hev := dead_evalWith (o := o) h he host (harmless_resp size eos)
      simp only [Filter.onResponseBody]
      split
      · exact ⟨_, by simp only [Filter.push]; rw [hev], by simp [afterEnd]⟩
      · split
        · exact ⟨_, by simp only [Filter.push]; rw [hev], by simp [afterEnd]⟩
        · exact ⟨_, by simp only [Filter.push]; rw [hev], by simp [afterEnd]⟩
    | grpcResponse host token s z =>
      cases hp : f.pipeline with
      | none => exact ⟨_, by simp only [Filter.onGrpcResponse, hp, Filter.push]; rfl, by simp [afterEnd]⟩
      | some q =>
        dsimp only
        rw [onGrpcResponse_some f host token s z q hp]
        obtain ⟨_, es, hl, hes⟩ := dead_digestPipe o _ token s z
          (dead_entered (ghost_dead h he hp) host harmless_id)
        rw [entered_log f host harmless_id] at hl
        have hes' : ∀ x ∈ es, afterEnd x = true := by
          intro x hx
          obtain ⟨id, rfl⟩ := hes x hx
          rfl
        split
        · refine ⟨.responded token s z :: es ++ [if f.inResponse then .resumeResponse else .resumeRequest], ?_, ?_⟩
          · simp [Filter.resume, Filter.push, store_log, store_inResponse, hl]
          · intro x hx
            simp only [List.cons_append, List.mem_cons, List.mem_append, List.mem_singleton] at hx
            rcases hx with rfl | hx | hx
            · rfl
            · exact hes' x hx
            · rcases hx with rfl | hx
              · split <;> rfl
              · simp at hx
        · refine ⟨.responded token s z :: es, by simp [store_log, hl], ?_⟩
          intro x hx
          rcases List.mem_cons.1 hx with rfl | hx
          · rfl
          · exact hes' x hx

theorem step_extends (f : Filter H) (e : Event H) (h : Ghost Sound f) :
    ∃ es, (f.step o e).log = f.log ++ es := by
  cases hc : f.crashed with
  | true =>
    refine ⟨[], ?_⟩
    unfold Filter.step
    rw [hc]; simp
  | false =>
    cases step_shape (o := o) f e hc h with
    | requestBody host size eos es pause f' hes hlog => exact ⟨_, by rw [hlog, List.append_assoc]⟩
    | responseHeaders host g es pause f' hes hlog => exact ⟨_, by rw [hlog]; simp; rfl⟩
    | responseBody host size eos g es pause f' hes hlog => exact ⟨_, by rw [hlog, List.append_assoc]⟩
    | late host token s z f' hn hlog => exact ⟨_, hlog⟩
    | response host token s z q p' es f' hq hes hl hs hlog => exact ⟨_, by rw [hlog]; simp; rfl⟩

end Verif
