import Verif.Lemmas.Tokens
/-! Counters and replies. -/
set_option linter.unusedSimpArgs false
namespace Verif
open Spec

variable {H : Type} {o : Oracle H}

/-- Each reply was counted. -/
def Balanced (log : List Effect) : Prop := denials log = replies log

theorem denials_append (a b : List Effect) : denials (a ++ b) = denials a + denials b := by simp [denials]
theorem replies_append (a b : List Effect) : replies (a ++ b) = replies a + replies b := by simp [replies]

theorem Balanced.append {a b : List Effect} (h : Balanced a) (g : Balanced b) : Balanced (a ++ b) := by
  unfold Balanced at *
  rw [denials_append, replies_append, h, g]

/-- Effects without denials and replies. -/
def Effect.uncounted : Effect → Bool
  | .denied => false
  | .reply .. => false
  | _ => true

theorem balanced_uncounted {es : List Effect} (h : ∀ e ∈ es, e.uncounted = true) : Balanced es := by
  unfold Balanced denials replies
  rw [List.countP_eq_zero.2, List.countP_eq_zero.2]
  · intro e he; have := h e he; cases e <;> simp_all [Effect.uncounted]
  · intro e he; have := h e he; cases e <;> simp_all [Effect.uncounted]

theorem does_balanced {t : PTask} {out : Outcome} {es : List Effect} (h : TDoes t out es) : Balanced es := by
  induction h with
  | core h =>
    cases h with
    | replied => rfl
    | refused => rfl
    | stored _ _ _ _ _ _ _ _ _ hp =>
      refine balanced_uncounted ?_
      intro e he
      rcases hp with ⟨rfl, _⟩ | ⟨b, w, rfl, _⟩ <;> simp at he
      · subst he; rfl
      · rcases he with rfl | rfl <;> rfl
    | _ => rfl
  | abort _ ih => exact ih.append (b := [.errors]) rfl
  | allow _ ih => exact ih.append (b := [.errors]) rfl
  | _ => assumption

theorem terminate_balanced {p : Pipe H} {t : PTask} {es : List Effect} {t' : PTask}
    (h : TDoes t (.terminate t') es) (hp : Balanced p.ctx.log) : Balanced (p.terminate o t').ctx.log := by
  rcases terminate_cases (o := o) (p := p)
    ((does_terminate h t' rfl).imp (·.1) (·.1)) with ⟨h1, _⟩ | ⟨hs, a, h1, _⟩
  · rw [h1]; exact hp.append rfl
  · rw [h1, List.append_assoc]; exact hp.append rfl

theorem inert_list {p : Pipe H} {q : Pipe H} (h : TornDown p q) (hp : Balanced p.ctx.log) : Balanced q.ctx.log := by
  obtain ⟨es, h1, h2, _⟩ := h.log
  rw [h1]
  refine hp.append (balanced_uncounted ?_)
  intro e he
  have := h2 e he
  cases e <;> simp_all [Effect.isTear, Effect.uncounted]

theorem balanced_extra : Extra o (fun (p : Pipe H) _ => Balanced p.ctx.log) (fun p => Balanced p.ctx.log)
    (fun p => Balanced p.ctx.log) where
  opens p hl h := h
  skip p t ts hl h hd := h
  go p t ts out c es hl h hd ha hs hlog hdo := by
    have key : ∀ fs, Balanced fs → Balanced (c.log ++ fs) := by
      intro fs hfs
      rw [hlog]
      exact ((h.append (b := [.applied t.id]) rfl).append (does_balanced hdo)).append hfs
    cases out with
    | done => exact key [.completed t.id] rfl
    | failed => exact key [.failed t.id] rfl
    | requeued new => simpa [Pipe.after] using key [] rfl
    | deferred tok t' => simpa [Pipe.after, Pipe.defer] using key [] rfl
    | terminate t' => simp [Outcome.stops] at hs
  stop p t ts t' c es hl h hd ha hlog hdo := by
    refine terminate_balanced hdo ?_
    show Balanced c.log
    rw [hlog]
    exact (h.append (b := [.applied t.id]) rfl).append (does_balanced hdo)
  tear p hl h hq hd := inert_list (tornDown p) h
  bury p hd h := inert_list (tornDown p) h
  late p token s z hl h hg := h.append (b := [.responded token s z]) rfl
  answer p token s z t out c es hl h hg ha hs hlog hdo := by
    have key : ∀ fs, Balanced fs → Balanced (c.log ++ fs) := by
      intro fs hfs
      rw [hlog]
      exact ((h.append (b := [.responded token s z]) rfl).append (does_balanced hdo)).append hfs
    cases out with
    | done => exact key [.completed t.id] rfl
    | failed => exact key [.failed t.id] rfl
    | requeued new => exact key [.completed t.id] rfl
    | deferred tok t' => simpa [Pipe.replied, Pipe.defer] using key [] rfl
    | terminate t' => simp [Outcome.stops] at hs
  answerStop p token s z t t' c es hl h hg ha hlog hdo := by
    refine terminate_balanced hdo ?_
    show Balanced c.log
    rw [hlog]
    exact (h.append (b := [.responded token s z]) rfl).append (does_balanced hdo)
  frame p c' hl h hf := by
    obtain ⟨es, h1, h2⟩ := hf.log
    show Balanced c'.log
    rw [h1]
    refine h.append (balanced_uncounted ?_)
    intro e he
    have := h2 e he
    cases e <;> simp_all [Effect.isFilter, Effect.uncounted]
  frameD p c' hd h hf := by
    obtain ⟨es, h1, h2⟩ := hf.log
    show Balanced c'.log
    rw [h1]
    refine h.append (balanced_uncounted ?_)
    intro e he
    have := h2 e he
    cases e <;> simp_all [Effect.isFilter, Effect.uncounted]
  lateD p token s z hd h hg := h.append (b := [.responded token s z]) rfl
  answerD p token s z id guard hd h hg := by
    rw [dropped_log, List.append_assoc]
    exact h.append rfl

/-- Effects other than the counters of the start of a request. -/
def Effect.later : Effect → Bool
  | .hits => false
  | .misses => false
  | _ => true

theorem pipe_later {es : List Effect} (h : ∀ e ∈ es, e.isPipe = true) : ∀ e ∈ es, e.later = true := by
  intro e he
  have := h e he
  cases e <;> simp_all [Effect.isPipe, Effect.later]

theorem step_later (f : Filter H) (e : Event H) (h : Ghost Sound f) :
    ∃ es, (f.step o e).log = f.log ++ es ∧ ∀ x ∈ es, x.later = true := by
  cases hc : f.crashed with
  | true =>
    refine ⟨[], ?_, by simp⟩
    unfold Filter.step
    rw [hc]; simp
  | false =>
    cases step_shape (o := o) f e hc h with
    | requestBody host size eos es pause f' hes hlog =>
      refine ⟨es ++ [_], by rw [hlog, List.append_assoc], ?_⟩
      simp only [List.mem_append, List.mem_singleton]
      rintro x (hx | rfl)
      · exact pipe_later hes x hx
      · rfl
    | responseHeaders host g es pause f' hes hlog =>
      refine ⟨.allowed :: (es ++ [_]), by rw [hlog]; simp; rfl, ?_⟩
      simp only [List.mem_cons, List.mem_append, List.not_mem_nil, or_false]
      rintro x (rfl | hx | rfl)
      · rfl
      · exact pipe_later hes x hx
      · rfl
    | responseBody host size eos g es pause f' hes hlog =>
      refine ⟨es ++ [_], by rw [hlog, List.append_assoc], ?_⟩
      simp only [List.mem_append, List.mem_singleton]
      rintro x (hx | rfl)
      · exact pipe_later hes x hx
      · rfl
    | late host token s z f' hn hlog => exact ⟨_, hlog, by simp [Effect.later]⟩
    | response host token s z q p' es f' hq hes hl hs hlog =>
      refine ⟨.responded token s z :: (es ++ _), by rw [hlog]; simp; rfl, ?_⟩
      simp only [List.mem_cons, List.mem_append]
      rintro x (rfl | hx | hx)
      · rfl
      · exact pipe_later hes x hx
      · split at hx
        · simp only [List.mem_singleton] at hx
          subst hx
          split <;> rfl
        · simp at hx

theorem run_later (factory : Factory) (host : H) (events : List (Event H)) :
    ∃ es, (Filter.run o factory host events).log = (Filter.start o factory host).log ++ es ∧
      ∀ x ∈ es, x.later = true := by
  induction events using snoc_ind with
  | nil => exact ⟨[], by simp [Filter.run], by simp⟩
  | snoc events e ih =>
    rw [run_snoc]
    obtain ⟨es, hl, hes⟩ := ih
    obtain ⟨fs, hl', hfs⟩ := step_later (o := o) _ e (run_sound factory host events)
    refine ⟨es ++ fs, by rw [hl', hl, List.append_assoc], ?_⟩
    intro x hx
    rcases List.mem_append.1 hx with hx | hx
    · exact hes x hx
    · exact hfs x hx

theorem tops_nonempty {as : List Action} {ts : List PTask} (h : Tops as ts) : ts = [] → as = [] := by
  cases h with
  | nil => simp
  | cons a as ts ts' h hs =>
    intro he
    cases h <;> simp at he

/-- How the choice of the action set determines the build. -/
theorem build_select (f : Factory) (c : Ctx H) :
    ((f.select o c).1 = .none → ∃ c', f.build o c = .noMatch c') ∧
    ((f.select o c).1 = .error → ∃ c', f.build o c = .error c') ∧
    (∀ b, (f.select o c).1 = .found b → b.actions ≠ [] →
      f.build o c = .panic ∨ ∃ p, f.build o c = .pipeline p) ∧
    (∀ b, (f.select o c).1 = .found b → b.actions = [] → ∃ c', f.build o c = .noMatch c') := by
  unfold Factory.build
  generalize f.select o c = r
  obtain ⟨ch, c1⟩ := r
  cases ch with
  | none => simp
  | error => simp
  | found b =>
    refine ⟨by simp, by simp, ?_, ?_⟩
    · intro b' hb' hne
      simp only [Choice.found.injEq] at hb'
      subst hb'
      dsimp only
      cases ht : Blueprint.toTasks o b (c1.withHost (o.getHeaders c1 .request).2) f.requestData with
      | none => exact .inl rfl
      | some r =>
        obtain ⟨ts, td, c2⟩ := r
        right
        have := tops_nonempty (tasksLoop_tops o _ _ _ _ _ _ _ ht).1
        have hts : ts ≠ [] := fun h => hne (this h)
        dsimp only
        rw [if_neg (by simpa using hts)]
        exact ⟨_, rfl⟩
    · intro b' hb' hne
      simp only [Choice.found.injEq] at hb'
      subst hb'
      dsimp only
      simp only [Blueprint.toTasks, hne, tasksLoop, List.isEmpty_nil, if_true]
      exact ⟨_, rfl⟩

end Verif
