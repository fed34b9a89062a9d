import Verif.Lemmas.Fail
import Verif.Lemmas.Compile
import Verif.Lemmas.Deps
import Verif.Spec.Config
/-! The teardown of a pipeline. -/
set_option linter.unusedSimpArgs false
namespace Verif
open Spec

variable {H : Type} {o : Oracle H}

theorem torn_append (a b : List Effect) : torn (a ++ b) = torn a + torn b := by simp [torn]

theorem torn_zero {es : List Effect} (h : Effect.teardown ∉ es) : torn es = 0 := by
  rw [torn, List.countP_eq_zero]
  intro e he
  cases e <;> simp_all

/-- An evaluation that leaves no work leaves no teardown actions. -/
theorem evalPipe_teardown (p : Pipe H) (hq : (p.evalPipe o).queue = []) (hd : (p.evalPipe o).deferred = []) :
    (p.evalPipe o).teardown = [] := by
  unfold Pipe.evalPipe at hq hd ⊢
  generalize Pipe.processTasks o { p with queue := [] } p.queue = r at hq hd ⊢
  obtain ⟨q, b⟩ := r
  cases b with
  | true => exact (tornDown (o := o) q).teardown
  | false =>
    dsimp only at hq hd ⊢
    split
    · exact (tornDown (o := o) q).teardown
    · rename_i hc
      rw [if_neg hc] at hq hd
      rw [hq, hd] at hc
      simpa using hc

theorem digestPipe_teardown (p : Pipe H) (token s z : Nat) (hq : (p.digestPipe o token s z).queue = [])
    (hd : (p.digestPipe o token s z).deferred = []) : (p.digestPipe o token s z).teardown = [] := by
  have : ∃ q : Pipe H, p.digestPipe o token s z = q.evalPipe o := by
    unfold Pipe.digestPipe
    dsimp only
    split
    · exact ⟨_, rfl⟩
    · generalize PTask.apply o _ _ = r
      obtain ⟨out, c⟩ := r
      cases out <;> exact ⟨_, rfl⟩
  obtain ⟨q, hq'⟩ := this
  rw [hq'] at hq hd ⊢
  exact evalPipe_teardown q hq hd

theorem teardown_stable : Stable o (fun p : Pipe H => p.queue = [] → p.deferred = [] → p.teardown = []) where
  frame p c' h hf := h
  late p token s z h _ _ := h
  eval p _ := evalPipe_teardown p
  digest p token s z _ := digestPipe_teardown p token s z

/-- Teardown actions are run when no call of an action is in flight or the request was ended. -/
def TearsLast (pre : List Effect) (e : Effect) : Prop :=
  (e = .teardown → .ended ∈ pre ∨ ∀ tok x, ¬InFlightFor pre tok x) ∧
  (isPolicy e = true ∨ (∃ id, e = .applied id) → .teardown ∉ pre)

/-- The teardown actions of a pipeline with `n` of them. -/
structure Torn (n : Nat) (p : Pipe H) (todo : List PTask) : Prop where
  count : torn p.ctx.log + p.teardown.length = n
  evs : Everywhere TearsLast p.ctx.log
  quiet : Effect.teardown ∈ p.ctx.log →
    p.queue ++ todo = [] ∧ ∀ e ∈ p.deferred, ∃ id guard, e.2 = .core (.noop id guard)

theorem tearsLast_append {a es : List Effect} (h : Everywhere TearsLast a) (ha : Effect.teardown ∉ a)
    (hes : Effect.teardown ∉ es) : Everywhere TearsLast (a ++ es) := by
  refine h.append ?_
  intro u e v hx
  refine ⟨fun he => absurd (by rw [hx, ← he]; simp) hes, fun _ hm => ?_⟩
  rcases List.mem_append.1 hm with hm | hm
  · exact ha hm
  · exact hes (by rw [hx]; exact List.mem_append_left _ hm)

theorem does_untorn {t : PTask} {out : Outcome} {es : List Effect} (h : TDoes t out es) :
    Effect.teardown ∉ es := by
  intro hm
  rcases does_effects h with hloc | ⟨_, _, _, _, _, _, rfl, _⟩
  · simpa [Effect.isLocal] using hloc _ hm
  · simp at hm

/-- Effects that are neither policy effects nor starts nor teardowns. -/
def Effect.inert : Effect → Bool
  | .teardown => false
  | .applied _ => false
  | e => !isPolicy e

theorem tearsLast_inert {a es : List Effect} (h : Everywhere TearsLast a) (hes : ∀ e ∈ es, e.inert = true) :
    Everywhere TearsLast (a ++ es) := by
  refine h.append_all ?_
  intro e he pre
  have := hes e he
  refine ⟨?_, ?_⟩
  · rintro rfl; simp [Effect.inert] at this
  · rintro (h | ⟨id, rfl⟩)
    · cases e <;> simp_all [Effect.inert, isPolicy]
    · simp [Effect.inert] at this

theorem tear_evs {p q : Pipe H} (ht : TornDown p q)
    (h : Everywhere TearsLast p.ctx.log)
    (ho : Effect.ended ∈ p.ctx.log ∨ ∀ tok x, ¬InFlightFor p.ctx.log tok x) : Everywhere TearsLast q.ctx.log := by
  obtain ⟨es, h1, h2, _⟩ := ht.log
  rw [h1]
  refine h.append ?_
  intro u e v hx
  have hu : ∀ y ∈ u, y.isTear = true := fun y hy => h2 y (by rw [hx]; exact List.mem_append_left _ hy)
  have he : e.isTear = true := h2 e (by rw [hx]; simp)
  refine ⟨fun _ => ?_, ?_⟩
  · rcases ho with ho | ho
    · exact .inl (List.mem_append_left _ ho)
    · refine .inr fun tok x hi => ho tok x (inFlightFor_calm (fun y hy => ?_) hi)
      have := hu y hy
      cases y <;> simp_all [Effect.isTear, Effect.calm]
  · rintro (h | ⟨id, rfl⟩)
    · cases e <;> simp_all [Effect.isTear, isPolicy]
    · simp [Effect.isTear] at he

theorem noop_does {id : Text} {guard : Bool} {out : Outcome} {es : List Effect}
    (h : TDoes (.core (.noop id guard)) out es) : out = .done ∧ es = [] := by
  cases h with
  | core h => cases h <;> simp_all [Core.waits, Core.isCall]

theorem torn_tear {p q : Pipe H} (ht : TornDown p q) :
    torn q.ctx.log + q.teardown.length = torn p.ctx.log + p.teardown.length := by
  obtain ⟨es, h1, _, h3⟩ := ht.log
  rw [h1, torn_append, ht.teardown]
  show torn p.ctx.log + es.countP _ + 0 = _
  rw [← h3]
  rfl

/-- A response is held for every call in flight. -/
def heldExtra : Extra o (fun (p : Pipe H) todo => (Held p ∧ Reacts (fun _ _ _ _ _ => False) (fun _ _ => True) p.ctx.log) ∧
    Tasks (fun _ => True) p todo) (fun p => Reacts (fun _ _ _ _ _ => False) (fun _ _ => True) p.ctx.log ∧ Effect.ended ∈ p.ctx.log)
    (fun p => Reacts (fun _ _ _ _ _ => False) (fun _ _ => True) p.ctx.log ∧ Effect.ended ∈ p.ctx.log) :=
  (held_extra ⟨by simp, by simp, by simp⟩ (by simp) (by intro t c pre tok s z _ _ _ _ _ _ h; exact h.elim)).extra

abbrev HeldX (p : Pipe H) (todo : List PTask) : Prop :=
  (Held p ∧ Reacts (fun _ _ _ _ _ => False) (fun _ _ => True) p.ctx.log) ∧ Tasks (fun _ => True) p todo

/-- What holds of teardowns after an early end. -/
structure TornEnd (n : Nat) (p : Pipe H) : Prop where
  count : torn p.ctx.log + p.teardown.length = n
  evs : Everywhere TearsLast p.ctx.log
  ended : Effect.ended ∈ p.ctx.log

theorem after_teardown (p : Pipe H) (id : Text) (out : Outcome) : (Pipe.after p id out).teardown = p.teardown := by
  cases out <;> rfl

theorem replied_teardown (p : Pipe H) (id : Text) (out : Outcome) :
    (Pipe.replied p id out).teardown = p.teardown := by
  cases out <;> rfl

theorem after_log' (p : Pipe H) (id : Text) (out : Outcome) :
    ∃ es, (Pipe.after p id out).ctx.log = p.ctx.log ++ es ∧ ∀ e ∈ es, e.inert = true := by
  cases out with
  | done => exact ⟨[.completed id], rfl, by simp [Effect.inert, isPolicy]⟩
  | failed => exact ⟨[.failed id], rfl, by simp [Effect.inert, isPolicy]⟩
  | _ => exact ⟨[], by simp [Pipe.after, Pipe.defer], by simp⟩

theorem replied_log' (p : Pipe H) (id : Text) (out : Outcome) :
    ∃ es, (Pipe.replied p id out).ctx.log = p.ctx.log ++ es ∧ ∀ e ∈ es, e.inert = true := by
  cases out with
  | done => exact ⟨[.completed id], rfl, by simp [Effect.inert, isPolicy]⟩
  | requeued new => exact ⟨[.completed id], rfl, by simp [Effect.inert, isPolicy]⟩
  | failed => exact ⟨[.failed id], rfl, by simp [Effect.inert, isPolicy]⟩
  | _ => exact ⟨[], by simp [Pipe.replied, Pipe.defer], by simp⟩

theorem inert_untorn {es : List Effect} (h : ∀ e ∈ es, e.inert = true) : Effect.teardown ∉ es := by
  intro hm; simpa [Effect.inert] using h _ hm

theorem terminate_untorn {p : Pipe H} {t : PTask} {out : Outcome} {es : List Effect} (h : TDoes t out es)
    {t' : PTask} (ho : out = .terminate t') :
    ∃ fs, (p.terminate o t').ctx.log = p.ctx.log ++ fs ∧ Effect.teardown ∉ fs ∧ Effect.ended ∈ fs := by
  rcases terminate_cases (o := o) (p := p)
    ((does_terminate h t' ho).imp (·.1) (·.1)) with ⟨h1, _⟩ | ⟨hs, a, h1, _⟩
  · exact ⟨_, h1, by simp, by simp⟩
  · exact ⟨_, by rw [h1, List.append_assoc], by simp, by simp⟩

theorem torn_extra (n : Nat) : Extra o (fun (p : Pipe H) todo => HeldX p todo ∧ Torn n p todo)
    (TornEnd n) (TornEnd n) where
  opens p hl h := ⟨(heldExtra (o := o)).opens p hl h.1, h.2.count, h.2.evs, by simpa using h.2.quiet⟩
  skip p t ts hl h hd := ⟨(heldExtra (o := o)).skip p t ts hl h.1 hd, h.2.count, h.2.evs, by
    intro hm; have := (h.2.quiet hm).1; simp at this⟩
  go p t ts out c es hl h hd ha hs hlog hdo := by
    refine ⟨heldExtra.go p t ts out c es hl h.1 hd ha hs hlog hdo, ?_⟩
    have hn : Effect.teardown ∉ p.ctx.log := by
      intro hm; have := (h.2.quiet hm).1; simp at this
    obtain ⟨fs, h1, h2⟩ := after_log' { p with ctx := c } t.id out
    have hes : Effect.teardown ∉ [.applied t.id] ++ es ++ fs := by
      simp [does_untorn hdo, inert_untorn h2]
    have hl' : (Pipe.after { p with ctx := c } t.id out).ctx.log = p.ctx.log ++ ([.applied t.id] ++ es ++ fs) := by
      rw [h1]; show c.log ++ fs = _; rw [hlog]; simp
    refine ⟨?_, ?_, ?_⟩
    · rw [hl', after_teardown, torn_append, torn_zero hes]; simpa using h.2.count
    · rw [hl']; exact tearsLast_append h.2.evs hn hes
    · intro hm
      rw [hl'] at hm
      rcases List.mem_append.1 hm with hm | hm
      · exact absurd hm hn
      · exact absurd hm hes
  stop p t ts t' c es hl h hd ha hlog hdo := by
    have hn : Effect.teardown ∉ p.ctx.log := by
      intro hm; have := (h.2.quiet hm).1; simp at this
    obtain ⟨fs, h1, h2, h3⟩ := terminate_untorn (o := o) (p := { p with ctx := c }) hdo rfl
    have hes : Effect.teardown ∉ [.applied t.id] ++ es ++ fs := by
      simp [does_untorn hdo, h2]
    have hl' : (Pipe.terminate o { p with ctx := c } t').ctx.log = p.ctx.log ++ ([.applied t.id] ++ es ++ fs) := by
      rw [h1]; show c.log ++ fs = _; rw [hlog]; simp
    refine ⟨?_, ?_, ?_⟩
    · rw [hl', torn_append, torn_zero hes]; exact h.2.count
    · rw [hl']; exact tearsLast_append h.2.evs hn hes
    · rw [h1]; exact List.mem_append_right _ h3
  tear p hl h hq hd := by
    have ht := tornDown (o := o) p
    refine ⟨heldExtra.tear p hl h.1 hq hd, ?_, ?_, ?_⟩
    · rw [torn_tear ht]; exact h.2.count
    · refine tear_evs ht h.2.evs (.inr ?_)
      intro tok x hi
      obtain ⟨t, ht, _⟩ := h.1.1.1 tok x hi
      rw [hd] at ht
      simp [mapGet] at ht
    · intro _
      exact ⟨by rw [ht.queue, hq]; rfl, ht.noops⟩
  bury p hd h := by
    have ht := tornDown (o := o) p
    refine ⟨by rw [torn_tear ht]; exact h.count, tear_evs ht h.evs (.inl h.ended), ?_⟩
    obtain ⟨es, h1, _⟩ := ht.log
    rw [h1]; exact List.mem_append_left _ h.ended
  late p token s z hl h hg := by
    refine ⟨(heldExtra (o := o)).late p token s z hl h.1 hg, ?_, ?_, ?_⟩
    · show torn (p.ctx.log ++ [_]) + _ = n
      rw [torn_append]; exact h.2.count
    · exact tearsLast_inert (es := [_]) h.2.evs (by simp [Effect.inert, isPolicy])
    · intro hm
      refine h.2.quiet ?_
      rcases List.mem_append.1 hm with hm | hm
      · exact hm
      · simp at hm
  answer p token s z t out c es hl h hg ha hs hlog hdo := by
    refine ⟨heldExtra.answer p token s z t out c es hl h.1 hg ha hs hlog hdo, ?_⟩
    obtain ⟨fs, h1, h2⟩ := replied_log' { p.answering token s z with ctx := c } t.id out
    have hes : Effect.teardown ∉ [.responded token s z] ++ es ++ fs := by
      simp [does_untorn hdo, inert_untorn h2]
    have hl' : (Pipe.replied { p.answering token s z with ctx := c } t.id out).ctx.log
        = p.ctx.log ++ ([.responded token s z] ++ es ++ fs) := by
      rw [h1]; show c.log ++ fs = _; rw [hlog]; simp
    have hcount : torn (Pipe.replied { p.answering token s z with ctx := c } t.id out).ctx.log +
        (Pipe.replied { p.answering token s z with ctx := c } t.id out).teardown.length = n := by
      rw [hl', replied_teardown, torn_append, torn_zero hes]; exact h.2.count
    by_cases hn : Effect.teardown ∈ p.ctx.log
    · obtain ⟨hq, hnoop⟩ := h.2.quiet hn
      obtain ⟨id, guard, hid⟩ := hnoop _ (mapGet_mem hg)
      replace hid : t = _ := hid
      subst hid
      obtain ⟨rfl, rfl⟩ := noop_does hdo
      refine ⟨hcount, ?_, ?_⟩
      · rw [hl']
        refine tearsLast_inert h.2.evs ?_
        intro e he
        simp only [List.append_nil, List.singleton_append, List.mem_cons] at he
        rcases he with rfl | he
        · rfl
        · exact h2 e he
      · intro _
        refine ⟨hq, ?_⟩
        intro e he
        exact hnoop e (List.mem_filter.1 he).1
    · refine ⟨hcount, ?_, ?_⟩
      · rw [hl']; exact tearsLast_append h.2.evs hn hes
      · intro hm
        rw [hl'] at hm
        rcases List.mem_append.1 hm with hm | hm
        · exact absurd hm hn
        · exact absurd hm hes
  answerStop p token s z t t' c es hl h hg ha hlog hdo := by
    obtain ⟨fs, h1, h2, h3⟩ := terminate_untorn (o := o) (p := { p.answering token s z with ctx := c }) hdo rfl
    have hes : Effect.teardown ∉ [.responded token s z] ++ es ++ fs := by
      simp [does_untorn hdo, h2]
    have hl' : (Pipe.terminate o { p.answering token s z with ctx := c } t').ctx.log
        = p.ctx.log ++ ([.responded token s z] ++ es ++ fs) := by
      rw [h1]; show c.log ++ fs = _; rw [hlog]; simp
    have hn : Effect.teardown ∉ p.ctx.log := by
      intro hn
      obtain ⟨hq, hnoop⟩ := h.2.quiet hn
      obtain ⟨id, guard, hid⟩ := hnoop _ (mapGet_mem hg)
      replace hid : t = _ := hid
      subst hid
      have := (noop_does hdo).1
      simp at this
    refine ⟨?_, ?_, ?_⟩
    · rw [hl', torn_append, torn_zero hes]; exact h.2.count
    · rw [hl']; exact tearsLast_append h.2.evs hn hes
    · rw [h1]; exact List.mem_append_right _ h3
  frame p c' hl h hf := by
    obtain ⟨es, h1, h2⟩ := hf.log
    have h3 : ∀ e ∈ es, e.inert = true := fun e he => by
      have := h2 e he
      cases e <;> simp_all [Effect.isFilter, Effect.inert, isPolicy]
    refine ⟨(heldExtra (o := o)).frame p c' hl h.1 hf, ?_, ?_, ?_⟩
    · show torn c'.log + _ = n
      rw [h1, torn_append, torn_zero (inert_untorn h3)]; exact h.2.count
    · show Everywhere TearsLast c'.log
      rw [h1]; exact tearsLast_inert h.2.evs h3
    · intro hm
      replace hm : _ ∈ c'.log := hm
      rw [h1] at hm
      rcases List.mem_append.1 hm with hm | hm
      · exact h.2.quiet hm
      · exact absurd hm (inert_untorn h3)
  frameD p c' hd h hf := by
    obtain ⟨es, h1, h2⟩ := hf.log
    have h3 : ∀ e ∈ es, e.inert = true := fun e he => by
      have := h2 e he
      cases e <;> simp_all [Effect.isFilter, Effect.inert, isPolicy]
    refine ⟨?_, ?_, ?_⟩
    · show torn c'.log + _ = n
      rw [h1, torn_append, torn_zero (inert_untorn h3)]; exact h.count
    · show Everywhere TearsLast c'.log
      rw [h1]; exact tearsLast_inert h.evs h3
    · show _ ∈ c'.log
      rw [h1]; exact List.mem_append_left _ h.ended
  lateD p token s z hd h hg := by
    refine ⟨?_, ?_, List.mem_append_left _ h.ended⟩
    · show torn (p.ctx.log ++ [_]) + _ = n
      rw [torn_append]; exact h.count
    · exact tearsLast_inert (es := [_]) h.evs (by simp [Effect.inert, isPolicy])
  answerD p token s z id guard hd h hg := by
    refine ⟨?_, ?_, ?_⟩
    · rw [dropped_log, List.append_assoc, torn_append, torn_zero (es := _ ++ _) (by simp)]; exact h.count
    · rw [dropped_log, List.append_assoc]
      exact tearsLast_inert h.evs (by simp [Effect.inert, isPolicy])
    · rw [dropped_log, List.append_assoc]; exact List.mem_append_left _ h.ended

/-- The teardown actions of a blueprint. -/
def exports : List Action → List Text
  | [] => []
  | .grpc _ (.tracing upstream) .. :: as => upstream.toList ++ exports as
  | _ :: as => exports as

theorem tasksLoop_teardown (rd : List Expr) (w : Bool) (as : List Action) (c : Ctx H) (ts td c')
    (h : tasksLoop o c rd w as = some (ts, td, c')) : td = exports as := by
  induction as generalizing c ts td c' with
  | nil =>
    simp only [tasksLoop, Option.some.injEq, Prod.mk.injEq] at h
    exact h.2.1.symm
  | cons a as ih =>
    unfold tasksLoop at h
    split at h
    · simp at h
    · rename_i ts1 td1 c1 heq
      split at h
      · simp at h
      · rename_i ts2 td2 c2 heq2
        simp only [Option.some.injEq, Prod.mk.injEq] at h
        obtain ⟨_, rfl, _⟩ := h
        rw [ih _ _ _ _ heq2]
        unfold actionTasks at heq
        split at heq
        · simp at heq
        · split at heq <;> simp only [Option.some.injEq, Prod.mk.injEq] at heq <;> rw [← heq.2.1]
          · rfl
          · rfl
          · rename_i hx1 hx2
            cases a with
            | grpc head service var msg onReply =>
              cases service with
              | call kind svc deny => rfl
              | tracing up => exact absurd rfl (hx1 _ _ _ _ _)
            | _ => rfl

theorem build_teardown (f : Factory) (c : Ctx H) (p : Pipe H) (h : f.build o c = .pipeline p) :
    ∃ b, (f.select o c).1 = .found b ∧ p.teardown = exports b.actions := by
  unfold Factory.build at h
  split at h
  · simp at h
  · simp at h
  · rename_i b c1 heq
    rw [heq]
    dsimp only at h
    split at h
    · simp at h
    · rename_i ts td c2 heq2
      have h1 := tasksLoop_teardown _ _ _ _ _ _ _ heq2
      split at h
      · simp at h
      · simp only [Build.pipeline.injEq] at h
        subst h
        exact ⟨b, rfl, h1⟩

theorem build_nonempty (f : Factory) (c : Ctx H) (p : Pipe H) (h : f.build o c = .pipeline p) :
    p.queue ≠ [] := by
  unfold Factory.build at h
  split at h
  · simp at h
  · simp at h
  · dsimp only at h
    split at h
    · simp at h
    · split at h
      · simp at h
      · rename_i hne
        simp only [Build.pipeline.injEq] at h
        subst h
        simpa using hne

theorem exports_append (as bs : List Action) : exports (as ++ bs) = exports as ++ exports bs := by
  induction as with
  | nil => rfl
  | cons a as ih =>
    cases a with
    | grpc head service var msg onReply =>
      cases service with
      | call kind svc deny => exact ih
      | tracing up => show up.toList ++ exports (as ++ bs) = _; rw [ih, ← List.append_assoc]; rfl
    | _ => exact ih

theorem Compiled.exports {parse services id t x} (h : Compiled parse services id t x) (deps : List Text) :
    exports [x.withDeps deps] = [] := by
  cases h <;> rfl

theorem compileLoop_exports (parse : Text → Option Expr) (services : Text → Option SvcInst) (i : Nat)
    (as : List (ActionConfig × List Text)) (xs : List Action)
    (h : compileLoop parse services i as = some xs) : exports xs = [] := by
  induction as generalizing i xs with
  | nil => simp only [compileLoop, Option.some.injEq] at h; subst h; rfl
  | cons a as ih =>
    obtain ⟨a, deps⟩ := a
    unfold compileLoop at h
    split at h
    · rename_i x ys h1 h2
      simp only [Option.some.injEq] at h
      subst h
      obtain ⟨t, y, _, hc, rfl⟩ := compileAction_compiled parse services i deps a x h1
      rw [← List.singleton_append, exports_append, ih _ _ h2, hc.exports]; rfl
    · simp at h

theorem exports_dev (cfg : PluginConfig) :
    (exports (devModeAction cfg).toList).length = if exportsTraces cfg then 1 else 0 := by
  unfold devModeAction exportsTraces
  cases cfg.headerIdentifier with
  | none => rfl
  | some header =>
    cases hs : cfg.tracingService.bind cfg.services with
    | none => simp [exports]
    | some svc =>
      cases svc with
      | call kind svc deny => simp [exports]
      | tracing up => cases up <;> simp [exports]

/-- The number of teardown actions of a pipeline. -/
theorem built_teardown {parse : Text → Option Expr} {cfg : PluginConfig} {f : Factory}
    (hf : Factory.tryFrom parse cfg = some f) (host : H) (p : Pipe H)
    (h : f.build o { host := host } = .pipeline p) :
    p.teardown.length = if exportsTraces cfg then 1 else 0 := by
  obtain ⟨b, hb, ht⟩ := build_teardown f _ p h
  rw [ht, ← exports_dev]
  rcases servedBy_exists hf hb with ⟨s, _, b1, b2, h1, h2, h3⟩ | ⟨a, ha, hx⟩
  · rw [hb] at h1
    cases h1
    obtain ⟨xs, hxs, hc⟩ := (compile_fromSet parse cfg s b2 h2).actions
    rw [h3, hxs, exports_append, compileLoop_exports parse cfg.services 0 _ _ hc]; rfl
  · rw [hx, ha]; rfl

end Verif
