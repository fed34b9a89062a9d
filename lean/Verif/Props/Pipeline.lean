import Verif.Lemmas.Schedule
import Verif.Props.Demo
/-!
Pausing, resuming and early ends: C01 to C04.

A request is `Filter.run o factory host events`: the request headers and then any sequence of later
callbacks, each with the host state in which it runs. `o` is the arbitrary outside world. Its history
`.log` has every effect in order, also the answers of the HTTP callbacks.
-/
set_option linter.unusedSimpArgs false
namespace Verif.Props
open Verif Spec

variable {H : Type} (o : Oracle H)

/-- The condition of C01 on one effect. -/
def HoldsExactly (pre : List Effect) (e : Effect) : Prop :=
  ∀ cb pause, e = .returned cb pause → Fresh pre → ¬ Ended pre → cb ≠ .responseBody true →
    pause = guardOutstanding pre

/-- C01: every HTTP callback answers `Pause` exactly if a guard call is in flight at that moment, as
long as nothing ended the request early and the host does not reuse the token of a call in flight.
(The end of the response body is property C15.) -/
theorem C01_pause_iff_guard (factory : Factory) (host : H) (events : List (Event H)) :
    Everywhere HoldsExactly (Filter.run o factory host events).log := by
  have pipe : ∀ e : Effect, e.isPipe = true → ∀ pre, HoldsExactly pre e := by
    intro e he pre cb pause h
    subst h
    simp [Effect.isPipe] at he
  refine run_ind (o := o) factory host (fun _ f => Everywhere HoldsExactly f.log) ?_ ?_ ?_ events
  · cases start_shape (o := o) factory host with
    | pipeline g es pause hes hlog hp hl hpause =>
      rw [hlog]
      refine everywhere_snoc.mpr ⟨everywhere_pipe ?_ pipe hes, ?_⟩
      · refine (everywhere_snoc (a := [])).mpr ⟨everywhere_nil _, ?_⟩
        intro cb pause h; cases h
      · intro cb pause' h hf he _
        cases h
        rw [hpause, ← hl]
        exact ghost_pause hp (by rw [hl]; exact hf) (by rw [hl]; exact he)
    | miss hlog =>
      rw [hlog]
      refine (everywhere_snoc (a := [_])).mpr ⟨(everywhere_snoc (a := [])).mpr ⟨everywhere_nil _, ?_⟩, ?_⟩
      · intro cb pause h; cases h
      · intro cb pause h; cases h; intros; rfl
    | error hlog =>
      rw [hlog]
      refine (everywhere_snoc (a := [_, _])).mpr ⟨(everywhere_snoc (a := [_])).mpr
        ⟨(everywhere_snoc (a := [])).mpr ⟨everywhere_nil _, ?_⟩, ?_⟩, ?_⟩
      · intro cb pause h; cases h
      · intro cb pause h; cases h
      · intro cb pause h; cases h; intros; rfl
    | refused hlog =>
      rw [hlog]
      refine (everywhere_snoc (a := [_])).mpr ⟨(everywhere_snoc (a := [])).mpr ⟨everywhere_nil _, ?_⟩, ?_⟩
      · intro cb pause h; cases h
      · intro cb pause h; cases h
    | panic hlog => rw [hlog]; exact everywhere_nil _
  · intro _ _ _ h _; exact h
  · intro es f e h hc hf
    have hs : Ghost Sound f := by rw [hf]; exact run_sound factory host es
    cases step_shape (o := o) f e hc hs with
    | requestBody host size eos es pause f' hes hlog hp hl hpause =>
      rw [hlog]
      refine everywhere_snoc.mpr ⟨everywhere_pipe h pipe hes, ?_⟩
      intro cb pause' heq hf he _
      cases heq
      rw [hpause, ← hl]
      exact ghost_pause hp (by rw [hl]; exact hf) (by rw [hl]; exact he)
    | responseHeaders host g es pause f' hes hlog hp hl hpause =>
      rw [hlog]
      refine everywhere_snoc.mpr ⟨everywhere_pipe (everywhere_snoc.mpr ⟨h, ?_⟩) pipe hes, ?_⟩
      · intro cb pause h; cases h
      · intro cb pause' heq hf he _
        cases heq
        rw [hpause, ← hl]
        exact ghost_pause hp (by rw [hl]; exact hf) (by rw [hl]; exact he)
    | responseBody host size eos g es pause f' hes hlog hp hl hpause =>
      rw [hlog]
      refine everywhere_snoc.mpr ⟨everywhere_pipe h pipe hes, ?_⟩
      intro cb pause' heq hf he hne
      cases heq
      have : eos = false := by
        cases eos
        · rfl
        · exact absurd rfl hne
      rw [hpause, this, Bool.and_false, Bool.or_false, ← hl]
      exact ghost_pause hp (by rw [hl]; exact hf) (by rw [hl]; exact he)
    | late host token s z f' hn hlog =>
      rw [hlog]
      refine everywhere_snoc.mpr ⟨h, ?_⟩
      intro cb pause h; cases h
    | response host token s z q p' es f' hq hes hl hs hlog =>
      rw [hlog]
      have h1 : Everywhere HoldsExactly (f.log ++ [.responded token s z] ++ es) :=
        everywhere_pipe (everywhere_snoc.mpr ⟨h, by intro cb pause h; cases h⟩) pipe hes
      split
      · refine everywhere_snoc.mpr ⟨h1, ?_⟩
        intro cb pause heq
        split at heq <;> cases heq
      · rw [List.append_nil]; exact h1

/-- Two guard calls: the first response leaves one of them in flight. -/
def twoGuards : List ActionConfig := [Demo.grpc "deny", Demo.grpc "allow", .typed Demo.headers]

/-- C01 is about something: the request headers and the body are held while calls are in flight, and not
afterwards. -/
example : Demo.view (Demo.request twoGuards
    [.requestBody 2 0 false, .grpcResponse 2 0 0 0, .grpcResponse 2 1 0 0, .requestBody 2 5 true]) =
    ["hits", "start 0", "call 0 guard token 0", "start 1", "call 1 guard token 1", "start 2",
      "headers x=1", "completed 2", "pause", "pause", "response 0 status 0", "completed 0",
      "response 1 status 0", "completed 1", "resume request", "continue"] ∧
    freshFrom [] (Demo.request twoGuards [.requestBody 2 0 false, .grpcResponse 2 0 0 0]) = true := by
  decide +kernel

/-- C02: when the response to a call in flight has been processed and nothing ended the request early,
the callback's last effect is to resume the stream if no guard call is in flight any more, and otherwise
it does not resume. The request is resumed before the response headers arrived, the response after. -/
theorem C02_resume_iff_no_guard (factory : Factory) (host : H) (events : List (Event H))
    (host' : H) (token status size : Nat)
    (hcall : token ∈ (inFlight (Filter.run o factory host events).log).map Prod.fst)
    (hfresh : Fresh (Filter.run o factory host (events ++ [.grpcResponse host' token status size])).log)
    (hend : ¬ Ended (Filter.run o factory host (events ++ [.grpcResponse host' token status size])).log) :
    ∃ work, (∀ e ∈ work, isResume e = false) ∧
      (Filter.run o factory host (events ++ [.grpcResponse host' token status size])).log =
        (Filter.run o factory host events).log ++ [.responded token status size] ++ work ++
          (if guardOutstanding ((Filter.run o factory host events).log ++
              [.responded token status size] ++ work) then []
            else [resumeEffect (Filter.run o factory host events).log]) := by
  rw [run_snoc] at hfresh hend ⊢
  have hs := run_sound (o := o) factory host events
  have hph := run_phase (o := o) factory host events
  cases hc : (Filter.run o factory host events).crashed with
  | true => rw [crashed_inFlight factory host events hc] at hcall; simp at hcall
  | false =>
    have hsh := step_shape (o := o) _ (.grpcResponse host' token status size) hc hs
    generalize (Filter.run o factory host events) = f at *
    generalize hf' : f.step o (.grpcResponse host' token status size) = f' at *
    cases hsh with
    | late _ _ _ _ _ hn hlog =>
      have hf : Fresh f.log := by rw [hlog] at hfresh; exact Fresh.prefix hfresh
      rw [ghost_inFlight_none hs hf hn] at hcall
      simp at hcall
    | response _ _ _ _ q p' es _ hq hes hl hsp hlog =>
      refine ⟨es, pipe_not_resume hes, ?_⟩
      have hfr : Fresh p'.ctx.log := by rw [hlog, ← hl] at hfresh; exact Fresh.prefix hfresh
      have hne : Effect.ended ∉ p'.ctx.log := by
        intro hm
        apply hend
        rw [Ended, hlog, ← hl]
        simp [hm]
      have hlive : Live p' [] := by
        rcases hsp with h | h
        · exact h
        · exact absurd h.ended hne
      have hres : resumes f p' = !guardOutstanding p'.ctx.log := by
        unfold resumes
        rw [hlive.term]
        split
        · rename_i hemp
          simp only [Bool.and_eq_true, List.isEmpty_iff] at hemp
          have := hlive.calls hfr
          rw [hemp.2] at this
          simp [guardOutstanding, ← this]
        · have := hlive.barrier hfr
          simp only [Bool.false_and, Bool.false_eq_true, if_false, Bool.not_false, Bool.true_and,
            Pipe.requiresPause, this, guardOutstanding]
          congr 1
          rw [Bool.eq_iff_iff]
          simp [List.countP_pos_iff]
      rw [hlog, hres, hl]
      cases guardOutstanding (f.log ++ [.responded token status size] ++ es) with
      | true => simp
      | false => simp [resumeEffect, ← hph]

/-- The hypotheses of C02 are met, both with and without a guard call left in flight. -/
example :
    (0 ∈ (inFlight (Demo.request twoGuards [])).map Prod.fst ∧
      freshFrom [] (Demo.request twoGuards [.grpcResponse 2 0 0 0]) = true ∧
      endedCheck (Demo.request twoGuards [.grpcResponse 2 0 0 0]) = false ∧
      guardOutstanding (Demo.request twoGuards [.grpcResponse 2 0 0 0]) = true) ∧
    (1 ∈ (inFlight (Demo.request twoGuards [.grpcResponse 2 0 0 0])).map Prod.fst ∧
      endedCheck (Demo.request twoGuards [.grpcResponse 2 0 0 0, .grpcResponse 2 1 0 0]) = false ∧
      guardOutstanding (Demo.request twoGuards [.grpcResponse 2 0 0 0, .grpcResponse 2 1 0 0]) = false) := by
  decide +kernel

/-- C02, second sentence: the stream is never resumed while a guard call is in flight. -/
theorem C02_never_with_guard (factory : Factory) (host : H) (events : List (Event H)) :
    Everywhere (fun pre e => isResume e = true → Fresh pre → ¬ Ended pre →
      guardOutstanding pre = false) (Filter.run o factory host events).log := by
  have pipe : ∀ e : Effect, e.isPipe = true → ∀ pre, (isResume e = true → Fresh pre → ¬ Ended pre →
      guardOutstanding pre = false) := by
    intro e he pre h
    cases e <;> simp_all [Effect.isPipe, isResume]
  refine run_ind (o := o) factory host (fun _ f => Everywhere _ f.log) ?_ ?_ ?_ events
  · cases start_shape (o := o) factory host with
    | pipeline g es pause hes hlog hp hl hpause =>
      rw [hlog]
      refine everywhere_snoc.mpr ⟨everywhere_pipe ?_ pipe hes, by simp [isResume]⟩
      exact (everywhere_snoc (a := [])).mpr ⟨everywhere_nil _, by simp [isResume]⟩
    | miss hlog =>
      rw [hlog]
      exact (everywhere_snoc (a := [_])).mpr ⟨(everywhere_snoc (a := [])).mpr
        ⟨everywhere_nil _, by simp [isResume]⟩, by simp [isResume]⟩
    | error hlog =>
      rw [hlog]
      exact (everywhere_snoc (a := [_, _])).mpr ⟨(everywhere_snoc (a := [_])).mpr
        ⟨(everywhere_snoc (a := [])).mpr ⟨everywhere_nil _, by simp [isResume]⟩, by simp [isResume]⟩,
        by simp [isResume]⟩
    | refused hlog =>
      rw [hlog]
      exact (everywhere_snoc (a := [_])).mpr ⟨(everywhere_snoc (a := [])).mpr
        ⟨everywhere_nil _, by simp [isResume]⟩, by simp [isResume]⟩
    | panic hlog => rw [hlog]; exact everywhere_nil _
  · intro _ _ _ h _; exact h
  · intro es f e h hc hf
    have hs : Ghost Sound f := by rw [hf]; exact run_sound factory host es
    cases step_shape (o := o) f e hc hs with
    | requestBody host size eos es pause f' hes hlog =>
      rw [hlog]
      exact everywhere_snoc.mpr ⟨everywhere_pipe h pipe hes, by simp [isResume]⟩
    | responseHeaders host g es pause f' hes hlog =>
      rw [hlog]
      exact everywhere_snoc.mpr ⟨everywhere_pipe (everywhere_snoc.mpr ⟨h, by simp [isResume]⟩) pipe hes,
        by simp [isResume]⟩
    | responseBody host size eos g es pause f' hes hlog =>
      rw [hlog]
      exact everywhere_snoc.mpr ⟨everywhere_pipe h pipe hes, by simp [isResume]⟩
    | late host token s z f' hn hlog =>
      rw [hlog]
      exact everywhere_snoc.mpr ⟨h, by simp [isResume]⟩
    | response host token s z q p' es f' hq hes hl hs hlog =>
      rw [hlog]
      have h1 := everywhere_pipe (everywhere_snoc (e := .responded token s z).mpr
        ⟨h, by simp [isResume]⟩) pipe hes
      split
      · rename_i hres
        refine everywhere_snoc.mpr ⟨h1, ?_⟩
        intro _ hfr hne
        rw [← hl] at hfr hne ⊢
        have hlive : Live p' [] := by
          rcases hs with h | h
          · exact h
          · exact absurd h.ended hne
        unfold resumes at hres
        rw [hlive.term] at hres
        split at hres
        · rename_i hemp
          simp only [Bool.and_eq_true, List.isEmpty_iff] at hemp
          have := hlive.calls hfr
          rw [hemp.2] at this
          simp [guardOutstanding, ← this]
        · have := hlive.barrier hfr
          simp only [Bool.false_and, Bool.false_eq_true, if_false, Bool.not_false, Bool.true_and,
            Pipe.requiresPause, this, Bool.not_eq_true', decide_eq_false_iff_not, Nat.not_lt,
            Nat.le_zero, List.countP_eq_zero] at hres
          rw [guardOutstanding, List.any_eq_false]
          exact hres
      · rw [List.append_nil]; exact h1

/-- A callback other than a gRPC response never resumes the stream. -/
theorem C02_only_responses (factory : Factory) (host : H) (events : List (Event H)) (e : Event H)
    (he : ∀ h t s z, e ≠ .grpcResponse h t s z) :
    ∃ es, (Filter.run o factory host (events ++ [e])).log
      = (Filter.run o factory host events).log ++ es ∧ ∀ x ∈ es, isResume x = false := by
  rw [run_snoc]
  have hs := run_sound (o := o) factory host events
  cases hc : (Filter.run o factory host events).crashed with
  | true => exact ⟨[], by unfold Filter.step; rw [hc]; simp⟩
  | false =>
    have hsh := step_shape (o := o) _ e hc hs
    generalize (Filter.run o factory host events) = f at *
    generalize f.step o e = f' at *
    have fin : ∀ {es : List Effect} {x : Effect}, (∀ e ∈ es, e.isPipe = true) → isResume x = false →
        ∀ e ∈ es ++ [x], isResume e = false := by
      intro es x h hx e he
      rcases List.mem_append.1 he with he | he
      · exact pipe_not_resume h e he
      · rw [List.mem_singleton] at he; rw [he]; exact hx
    cases hsh with
    | requestBody host size eos es pause f' hes hlog =>
      exact ⟨_, by rw [hlog, List.append_assoc], fin hes rfl⟩
    | responseHeaders host g es pause f' hes hlog =>
      refine ⟨.allowed :: (es ++ [.returned .responseHeaders pause]), by rw [hlog]; simp, ?_⟩
      intro e he
      rcases List.mem_cons.1 he with rfl | he
      · rfl
      · exact fin hes rfl e he
    | responseBody host size eos g es pause f' hes hlog =>
      exact ⟨_, by rw [hlog, List.append_assoc], fin hes rfl⟩
    | late => exact absurd rfl (he _ _ _ _)
    | response => exact absurd rfl (he _ _ _ _)

theorem BodyAfterHeaders.init {es : List (Event H)} {e : Event H} (h : BodyAfterHeaders (es ++ [e])) :
    BodyAfterHeaders es := by
  intro pre host size eos post heq
  exact h pre host size eos (post ++ [e]) (by rw [heq]; simp)

/-- The phase and the forced resumption, for hosts that respect the order of the response. -/
theorem force_phase (factory : Factory) (host : H) (events : List (Event H)) :
    (Filter.run o factory host events).crashed = false → BodyAfterHeaders events →
    ((∃ h, .responseHeaders h ∈ events) → (Filter.run o factory host events).inResponse = true) ∧
    ((Filter.run o factory host events).forceResume = true →
      (Filter.run o factory host events).inResponse = true) := by
  refine run_ind (o := o) factory host (fun es f => f.crashed = false → BodyAfterHeaders es →
    ((∃ h, .responseHeaders h ∈ es) → f.inResponse = true) ∧
    (f.forceResume = true → f.inResponse = true)) ?_ ?_ ?_ events
  · intro _ _
    refine ⟨by simp, ?_⟩
    intro h
    exfalso
    unfold Filter.start at h
    dsimp only at h
    split at h
    · simp at h
    · simp [Filter.push, store_force] at h
    · simp at h
    · split at h <;> simp at h
  · intro _ _ _ _ hc h; rw [hc] at h; simp at h
  · intro es f e h hc _ hc' hb
    obtain ⟨h1, h2⟩ := h hc (BodyAfterHeaders.init hb)
    unfold Filter.step
    rw [hc]
    simp only [Bool.false_eq_true, if_false]
    cases e with
    | requestBody host' size eos =>
      simp only [Filter.onRequestBody, Filter.push]
      rw [evalWith_inResponse, evalWith_force]
      refine ⟨?_, h2⟩
      rintro ⟨x, hx⟩
      simp at hx
      exact h1 ⟨x, hx⟩
    | responseHeaders host' =>
      simp only [Filter.onResponseHeaders, Filter.push]
      rw [evalWith_inResponse, evalWith_force]
      exact ⟨fun _ => rfl, fun _ => rfl⟩
    | responseBody host' size eos =>
      have hin : (f.evalWith o host' (Filter.setResp size eos)).inResponse = true := by
        rw [evalWith_inResponse]
        exact h1 (hb es host' size eos [] rfl)
      simp only [Filter.onResponseBody]
      split
      · exact ⟨fun _ => hin, fun _ => hin⟩
      · split
        · exact ⟨fun _ => hin, fun _ => hin⟩
        · exact ⟨fun _ => hin, fun _ => hin⟩
    | grpcResponse host' token s z =>
      have h1' : (∃ h, .responseHeaders h ∈ es ++ [.grpcResponse host' token s z]) → f.inResponse = true := by
        rintro ⟨x, hx⟩
        simp at hx
        exact h1 ⟨x, hx⟩
      cases hp : f.pipeline with
      | none =>
        simp only [Filter.onGrpcResponse, hp, Filter.push]
        exact ⟨h1', h2⟩
      | some q =>
        dsimp only
        rw [onGrpcResponse_some f host' token s z q hp]
        split
        · simp only [Filter.resume, Filter.push, store_inResponse, store_force]
          exact ⟨h1', h2⟩
        · rw [store_inResponse, store_force]
          exact ⟨h1', h2⟩

/-- C03: once the request was ended early, it is never resumed. (`resumeRequest` is only used in the
request phase; the host delivers response bodies only after response headers.) -/
theorem C03_denied_not_forwarded (factory : Factory) (host : H) (events : List (Event H))
    (hord : BodyAfterHeaders events) :
    Everywhere (fun pre e => e = .resumeRequest → ¬ Ended pre)
      (Filter.run o factory host events).log := by
  have pipe : ∀ e : Effect, e.isPipe = true → ∀ pre, (e = .resumeRequest → ¬ Ended pre) := by
    intro e he pre h
    subst h
    simp [Effect.isPipe] at he
  revert hord
  refine run_ind (o := o) factory host (fun es f => BodyAfterHeaders es → Everywhere _ f.log) ?_ ?_ ?_ events
  · intro _
    cases start_shape (o := o) factory host with
    | pipeline g es pause hes hlog hp hl hpause =>
      rw [hlog]
      refine everywhere_snoc.mpr ⟨everywhere_pipe ?_ pipe hes, by simp⟩
      exact (everywhere_snoc (a := [])).mpr ⟨everywhere_nil _, by simp⟩
    | miss hlog =>
      rw [hlog]
      exact (everywhere_snoc (a := [_])).mpr ⟨(everywhere_snoc (a := [])).mpr
        ⟨everywhere_nil _, by simp⟩, by simp⟩
    | error hlog =>
      rw [hlog]
      exact (everywhere_snoc (a := [_, _])).mpr ⟨(everywhere_snoc (a := [_])).mpr
        ⟨(everywhere_snoc (a := [])).mpr ⟨everywhere_nil _, by simp⟩, by simp⟩, by simp⟩
    | refused hlog =>
      rw [hlog]
      exact (everywhere_snoc (a := [_])).mpr ⟨(everywhere_snoc (a := [])).mpr
        ⟨everywhere_nil _, by simp⟩, by simp⟩
    | panic hlog => rw [hlog]; exact everywhere_nil _
  · intro _ _ _ h _ hb; exact h (BodyAfterHeaders.init hb)
  · intro es f e h hc hf hb
    replace h := h (BodyAfterHeaders.init hb)
    have hs : Ghost Sound f := by rw [hf]; exact run_sound factory host es
    have hforce : f.forceResume = true → f.inResponse = true := by
      rw [hf] at hc ⊢
      exact (force_phase o factory host es hc (BodyAfterHeaders.init hb)).2
    cases step_shape (o := o) f e hc hs with
    | requestBody host size eos es pause f' hes hlog =>
      rw [hlog]
      exact everywhere_snoc.mpr ⟨everywhere_pipe h pipe hes, by simp⟩
    | responseHeaders host g es pause f' hes hlog =>
      rw [hlog]
      exact everywhere_snoc.mpr ⟨everywhere_pipe (everywhere_snoc.mpr ⟨h, by simp⟩) pipe hes, by simp⟩
    | responseBody host size eos g es pause f' hes hlog =>
      rw [hlog]
      exact everywhere_snoc.mpr ⟨everywhere_pipe h pipe hes, by simp⟩
    | late host token s z f' hn hlog =>
      rw [hlog]
      exact everywhere_snoc.mpr ⟨h, by simp⟩
    | response host token s z q p' es f' hq hes hl hs hlog =>
      rw [hlog]
      have h1 := everywhere_pipe (everywhere_snoc (e := .responded token s z).mpr
        ⟨h, by simp⟩) pipe hes
      split
      · rename_i hres
        refine everywhere_snoc.mpr ⟨h1, ?_⟩
        intro heq hne
        split at heq
        · simp at heq
        · rename_i hir
          rw [← hl] at hne
          have hir : f.inResponse = false := by simpa using hir
          have hfo : f.forceResume = false := by
            cases hx : f.forceResume
            · rfl
            · rw [hforce hx] at hir; simp at hir
          rcases hs with hlive | hdead
          · exact hlive.ended hne
          · unfold resumes at hres
            rw [hdead.term, hir, hfo] at hres
            simp at hres
      · rw [List.append_nil]; exact h1

/-- A denied request with a call still in flight: its response resumes nothing. -/
example : Demo.view (Demo.request [Demo.grpc "deny" [Demo.deny], Demo.grpc "allow"]
    [.grpcResponse 2 0 0 0, .grpcResponse 2 1 0 0]) =
    ["hits", "start 0", "call 0 guard token 0", "start 1", "call 1 guard token 1", "pause",
      "response 0 status 0", "completed 0", "start 0.0", "denied", "reply 403", "ended",
      "response 1 status 0", "completed 1"] := by
  decide +kernel

/-- C04: nothing a policy does follows an early end. -/
theorem C04_no_policy_after_end (factory : Factory) (host : H) (events : List (Event H)) :
    Everywhere (fun pre e => Ended pre → isPolicy e = false)
      (Filter.run o factory host events).log := by
  rcases ghost_tail (run_sound (o := o) factory host events) with h | h
  · intro pre e post heq hm
    exact absurd (by rw [heq]; exact List.mem_append_left _ hm) h
  · intro pre e post heq hm
    have := endedLate_after h pre e post heq hm
    cases e <;> simp_all [Effect.isLate, isPolicy]

/-- C04: in callbacks after the one that ended the request, there is not even a teardown; only late
responses are ticked off and the callbacks are answered. -/
theorem C04_later_callbacks (factory : Factory) (host : H) (events more : List (Event H))
    (hend : Ended (Filter.run o factory host events).log) :
    ∃ es, (Filter.run o factory host (events ++ more)).log
      = (Filter.run o factory host events).log ++ es ∧ ∀ e ∈ es, afterEnd e = true := by
  induction more using snoc_ind with
  | nil => exact ⟨[], by simp⟩
  | snoc more e ih =>
    obtain ⟨es, hl, hes⟩ := ih
    rw [← List.append_assoc, run_snoc]
    have hs := run_sound (o := o) factory host (events ++ more)
    obtain ⟨fs, hl', hfs⟩ := step_dead (o := o) hs (by rw [hl]; exact List.mem_append_left _ hend) e
    refine ⟨es ++ fs, by rw [hl', hl]; simp, ?_⟩
    intro x hx
    rcases List.mem_append.1 hx with hx | hx
    · exact hes x hx
    · exact hfs x hx

end Verif.Props
