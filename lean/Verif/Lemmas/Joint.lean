import Verif.Lemmas.Context
/-! Invariants of tasks and context together, with assumptions on the callbacks. -/
set_option linter.unusedSimpArgs false
namespace Verif
open Spec

variable {H : Type} {o : Oracle H}

/-- Obligations of an invariant `P` of tasks and `I` of contexts. -/
structure Joint (o : Oracle H) (P : Core → Prop) (I : Ctx H → Prop) : Prop where
  noop : ∀ id guard, P (.noop id guard)
  start : ∀ k c, Core.All P k → k.waits = false → I c →
    I (k.apply o (c.push (.applied k.id))).2 ∧
    ∀ t ∈ (k.apply o (c.push (.applied k.id))).1.tasks, Core.All P t.strip
  respond : ∀ k c token s z, Core.All P k → k.waits = true → I c →
    I (k.apply o { c with grpc := some (s, z), log := c.log ++ [.responded token s z] }).2 ∧
    ∀ t ∈ (k.apply o { c with grpc := some (s, z), log := c.log ++ [.responded token s z] }).1.tasks,
      Core.All P t.strip
  last : ∀ c, I c → I (defaultCore.apply o c).2
  aside : ∀ c c', I c → Aside c c' → c'.req = c.req → c'.resp = c.resp → I c'

/-- The same, of the contexts that occur: actions are evaluated in contexts of which `S` holds, and responses are
looked at in contexts of which `R` holds. -/
structure JointAt (o : Oracle H) (S : Ctx H → Prop) (R : Nat → Nat → Nat → Ctx H → Prop) (P : Core → Prop)
    (I : Ctx H → Prop) : Prop where
  noop : ∀ id guard, P (.noop id guard)
  start : ∀ k c, Core.All P k → k.waits = false → I c → S (c.push (.applied k.id)) →
    I (k.apply o (c.push (.applied k.id))).2 ∧
    ∀ t ∈ (k.apply o (c.push (.applied k.id))).1.tasks, Core.All P t.strip
  respond : ∀ k c token s z, Core.All P k → k.waits = true → I c → R token s z (c.push (.responded token s z)) →
    I (k.apply o { c with grpc := some (s, z), log := c.log ++ [.responded token s z] }).2 ∧
    ∀ t ∈ (k.apply o { c with grpc := some (s, z), log := c.log ++ [.responded token s z] }).1.tasks,
      Core.All P t.strip
  last : ∀ c, I c → I (defaultCore.apply o c).2
  aside : ∀ c c', I c → Aside c c' → c'.req = c.req → c'.resp = c.resp → I c'

theorem Joint.at {S : Ctx H → Prop} {R : Nat → Nat → Nat → Ctx H → Prop} {P : Core → Prop} {I : Ctx H → Prop}
    (h : Joint o P I) : JointAt o S R P I :=
  ⟨h.noop, fun k c h1 h2 h3 _ => h.start k c h1 h2 h3, fun k c t s z h1 h2 h3 _ => h.respond k c t s z h1 h2 h3,
    h.last, h.aside⟩

/-- A decorated task leaves the bodies as its core does. -/
theorem apply_bodies (t : PTask) (c : Ctx H) :
    (t.apply o c).2.req = (t.strip.apply o c).2.req ∧ (t.apply o c).2.resp = (t.strip.apply o c).2.resp := by
  induction t with
  | core k => exact ⟨rfl, rfl⟩
  | failureMode t a ih =>
    show (match t.apply o c with
      | (.failed, c) => if a then (Outcome.terminate defaultReply, c.push .errors) else (.done, c.push .errors)
      | (.deferred token p, c) => (.deferred token (.failureMode p a), c)
      | r => r).2.req = (t.strip.apply o c).2.req ∧ (match t.apply o c with
      | (.failed, c) => if a then (Outcome.terminate defaultReply, c.push .errors) else (.done, c.push .errors)
      | (.deferred token p, c) => (.deferred token (.failureMode p a), c)
      | r => r).2.resp = (t.strip.apply o c).2.resp
    generalize t.apply o c = r at ih ⊢
    obtain ⟨out, c'⟩ := r
    cases out with
    | failed => cases a <;> exact ih
    | _ => exact ih
  | tracing t ih =>
    show (match t.apply o c with
      | (.deferred token p, c) => (Outcome.deferred token (.tracing p), c)
      | (.requeued ts, c) => (.requeued (ts.map .tracing), c)
      | (.terminate t, c) => (.terminate (.tracing t), c)
      | r => r).2.req = (t.strip.apply o c).2.req ∧ (match t.apply o c with
      | (.deferred token p, c) => (Outcome.deferred token (.tracing p), c)
      | (.requeued ts, c) => (.requeued (ts.map .tracing), c)
      | (.terminate t, c) => (.terminate (.tracing t), c)
      | r => r).2.resp = (t.strip.apply o c).2.resp
    generalize t.apply o c = r at ih ⊢
    obtain ⟨out, c'⟩ := r
    cases out <;> exact ih

/-- The new tasks of a decorated task are those of its core, decorated. -/
theorem apply_tasks (t : PTask) (c : Ctx H) :
    ∀ x ∈ (t.apply o c).1.tasks, ∃ y ∈ (t.strip.apply o c).1.tasks, x.strip = y.strip := by
  induction t with
  | core k => exact fun x hx => ⟨x, hx, rfl⟩
  | failureMode t a ih =>
    show ∀ x ∈ (match t.apply o c with
      | (.failed, c) => if a then (Outcome.terminate defaultReply, c.push .errors) else (.done, c.push .errors)
      | (.deferred token p, c) => (.deferred token (.failureMode p a), c)
      | r => r).1.tasks, ∃ y ∈ (t.strip.apply o c).1.tasks, x.strip = y.strip
    generalize t.apply o c = r at ih ⊢
    obtain ⟨out, c'⟩ := r
    cases out with
    | failed => cases a <;> simp [Outcome.tasks]
    | deferred token p =>
      intro x hx
      simp only [Outcome.tasks, List.mem_singleton] at hx
      subst hx
      exact ih p (by simp [Outcome.tasks])
    | _ => exact ih
  | tracing t ih =>
    show ∀ x ∈ (match t.apply o c with
      | (.deferred token p, c) => (Outcome.deferred token (.tracing p), c)
      | (.requeued ts, c) => (.requeued (ts.map .tracing), c)
      | (.terminate t, c) => (.terminate (.tracing t), c)
      | r => r).1.tasks, ∃ y ∈ (t.strip.apply o c).1.tasks, x.strip = y.strip
    generalize t.apply o c = r at ih ⊢
    obtain ⟨out, c'⟩ := r
    cases out with
    | deferred token p =>
      intro x hx
      simp only [Outcome.tasks, List.mem_singleton] at hx
      subst hx
      exact ih p (by simp [Outcome.tasks])
    | requeued ts =>
      intro x hx
      simp only [Outcome.tasks, List.mem_map] at hx
      obtain ⟨y, hy, rfl⟩ := hx
      exact ih y hy
    | _ => exact ih

variable {S : Ctx H → Prop} {R : Nat → Nat → Nat → Ctx H → Prop} {P : Core → Prop} {I : Ctx H → Prop}

theorem tasks_teardown (hn : ∀ id guard, P (.noop id guard)) (p : Pipe H) (h : Tasks P p []) :
    Tasks P (p.executeTeardown o) [] := by
  have hnoop : ∀ id guard, Core.All P (.noop id guard) := fun id guard =>
    .mk _ (hn id guard) (by simp [Core.children])
  refine executeTeardown_ind o (fun q => Tasks P q []) p ?_ ?_
  · intro x hx
    simp only [Pipe.replaceNoop, Pipe.tasks, List.mem_append, List.not_mem_nil, or_false, List.mem_map] at hx
    rcases hx with hx | ⟨e, ⟨e', he, rfl⟩, rfl⟩
    · exact h x (by simp only [Pipe.tasks, List.mem_append]; exact .inl (.inl hx))
    · exact hnoop _ _
  · intro q u hq
    unfold Pipe.runTeardownAction
    dsimp only
    split
    · exact hq
    · intro x hx
      simp only [Pipe.tasks, List.mem_append, List.not_mem_nil, or_false, List.mem_map] at hx
      rcases hx with hx | ⟨e, he, rfl⟩
      · exact hq x (by simp only [Pipe.tasks, List.mem_append]; exact .inl (.inl hx))
      · rcases mem_mapInsert he with rfl | he
        · exact hnoop _ _
        · exact hq e.2 (by simp only [Pipe.tasks, List.mem_append, List.mem_map]; exact .inr ⟨e, he, rfl⟩)

theorem JointAt.push (h : JointAt o S R P I) {c : Ctx H} (hc : I c) {e : Effect} (he : e.plain = true) : I (c.push e) :=
  h.aside c _ hc ((Aside.refl c).push he) rfl rfl

theorem JointAt.terminate (h : JointAt o S R P I) {p : Pipe H} {t t' : PTask} {es : List Effect}
    (ht : TDoes t (.terminate t') es) (hp : I p.ctx) : I (p.terminate o t').ctx := by
  show I ((t'.apply o p.ctx).2.push .ended)
  rcases does_terminate ht t' rfl with ⟨h1, _⟩ | ⟨h1, _⟩
  · rw [traced_log h1]; exact h.push hp rfl
  · rw [traced_log h1]; exact h.push (h.last _ hp) rfl

theorem JointAt.started (h : JointAt o S R P I) {c : Ctx H} {t : PTask} (ht : Core.All P t.strip)
    (hw : t.strip.waits = false) (hc : I c) (hS : S (c.push (.applied t.id))) : I (t.apply o (c.push (.applied t.id))).2 ∧
    ∀ x ∈ (t.apply o (c.push (.applied t.id))).1.tasks, Core.All P x.strip := by
  have h1 := h.start t.strip c ht hw hc (by rw [strip_id]; exact hS)
  rw [strip_id] at h1
  obtain ⟨hb1, hb2⟩ := apply_bodies (o := o) t (c.push (.applied t.id))
  refine ⟨h.aside _ _ h1.1 (apply_aside t _) hb1 hb2, ?_⟩
  intro x hx
  obtain ⟨y, hy, heq⟩ := apply_tasks t _ x hx
  rw [heq]
  exact h1.2 y hy

theorem JointAt.responded (h : JointAt o S R P I) {c : Ctx H} {t : PTask} (ht : Core.All P t.strip)
    (hw : t.strip.waits = true) (hc : I c) (token s z : Nat)
    (hR : R token s z (c.push (.responded token s z))) :
    I (t.apply o { c with grpc := some (s, z), log := c.log ++ [.responded token s z] }).2 ∧
    ∀ x ∈ (t.apply o { c with grpc := some (s, z), log := c.log ++ [.responded token s z] }).1.tasks,
      Core.All P x.strip := by
  have h1 := h.respond t.strip c token s z ht hw hc hR
  obtain ⟨hb1, hb2⟩ := apply_bodies (o := o) t { c with grpc := some (s, z), log := c.log ++ [.responded token s z] }
  refine ⟨h.aside _ _ h1.1 (apply_aside t _) hb1 hb2, ?_⟩
  intro x hx
  obtain ⟨y, hy, heq⟩ := apply_tasks t _ x hx
  rw [heq]
  exact h1.2 y hy

theorem tasks_replied (p : Pipe H) (token s z : Nat) (out : Outcome) (c : Ctx H) (id : Text) (h : Tasks P p [])
    (hall : ∀ t ∈ out.tasks, Core.All P t.strip) :
    Tasks P (Pipe.replied { p.answering token s z with ctx := c } id out) [] := by
  have hq : ∀ x ∈ p.queue, Core.All P x.strip := fun x hx => h x (by simp [Pipe.tasks, hx])
  have hd : ∀ e ∈ p.deferred, Core.All P e.2.strip := fun e he =>
    h e.2 (by simp only [Pipe.tasks, List.mem_append, List.mem_map]; exact .inr ⟨e, he, rfl⟩)
  have hd' : ∀ e ∈ (p.answering token s z).deferred, Core.All P e.2.strip := fun e he =>
    hd e (List.mem_filter.1 he).1
  intro x hx
  simp only [Pipe.tasks, List.append_nil, List.mem_append, List.mem_map] at hx
  cases out with
  | requeued ts =>
    rcases hx with hx | ⟨e, he, rfl⟩
    · rcases List.mem_append.1 hx with hx | hx
      · exact hall x hx
      · exact hq x hx
    · exact hd' e he
  | deferred tok t' =>
    rcases hx with hx | ⟨e, he, rfl⟩
    · exact hq x hx
    · rcases mem_mapInsert he with rfl | he
      · exact hall t' (by simp [Outcome.tasks])
      · exact hd' e he
  | _ =>
    rcases hx with hx | ⟨e, he, rfl⟩
    · exact hq x hx
    · exact hd' e he

theorem JointAt.within (h : JointAt o S R P I) :
    WithinAt o S R (fun (p : Pipe H) todo => Tasks P p todo ∧ I p.ctx) (fun p => I p.ctx) (fun p => I p.ctx) where
  opens p hl hx := by
    refine ⟨fun x hx' => hx.1 x ?_, hx.2⟩
    simpa [Pipe.tasks] using hx'
  skip p t ts hl hx hd := ⟨tasks_skip p t ts hx.1, hx.2⟩
  go p t ts out c es hS hl hx hd ha hs hlog hdo := by
    have h1 := h.started (hx.1 t (by simp [Pipe.tasks])) (hl.queueW t (by simp)) hx.2 hS
    rw [ha] at h1
    refine ⟨tasks_after p t ts out c hx.1 h1.2 t.id, ?_⟩
    cases out with
    | done => exact h.push h1.1 rfl
    | failed => exact h.push h1.1 rfl
    | requeued new => exact h1.1
    | deferred tok t' => exact h1.1
    | terminate t' => simp [Outcome.stops] at hs
  stop p t ts t' c es hS hl hx hd ha hlog hdo := by
    have h1 := h.started (hx.1 t (by simp [Pipe.tasks])) (hl.queueW t (by simp)) hx.2 hS
    rw [ha] at h1
    exact h.terminate hdo h1.1
  tear p hl hx hq hd := ⟨tasks_teardown h.noop p hx.1,
    h.aside _ _ hx.2 (tornDown_aside (tornDown (o := o) p)) (tornDown p).req (tornDown p).resp⟩
  bury p hd hx := h.aside _ _ hx (tornDown_aside (tornDown (o := o) p)) (tornDown p).req (tornDown p).resp
  late p token s z hl hx hg := ⟨hx.1, h.push hx.2 rfl⟩
  answer p token s z t out c es hR hl hx hg ha hs hlog hdo := by
    have hall := hx.1 t (by
      simp only [Pipe.tasks, List.mem_append, List.mem_map]
      exact .inr ⟨(token, t), mapGet_mem hg, rfl⟩)
    have h1 := h.responded hall (hl.deferW _ (mapGet_mem hg)) hx.2 token s z hR
    rw [show ({ p.ctx with grpc := some (s, z), log := p.ctx.log ++ [.responded token s z] } : Ctx H) =
      (p.answering token s z).ctx from rfl, ha] at h1
    refine ⟨tasks_replied p token s z out c t.id hx.1 h1.2, ?_⟩
    cases out with
    | done => exact h.push h1.1 rfl
    | failed => exact h.push h1.1 rfl
    | requeued new => exact h.push h1.1 rfl
    | deferred tok t' => exact h1.1
    | terminate t' => simp [Outcome.stops] at hs
  answerStop p token s z t t' c es hR hl hx hg ha hlog hdo := by
    have hall := hx.1 t (by
      simp only [Pipe.tasks, List.mem_append, List.mem_map]
      exact .inr ⟨(token, t), mapGet_mem hg, rfl⟩)
    have h1 := h.responded hall (hl.deferW _ (mapGet_mem hg)) hx.2 token s z hR
    rw [show ({ p.ctx with grpc := some (s, z), log := p.ctx.log ++ [.responded token s z] } : Ctx H) =
      (p.answering token s z).ctx from rfl, ha] at h1
    exact h.terminate hdo h1.1
  lateD p token s z hd hx hg := h.push hx rfl
  answerD p token s z id guard hd hx hg := by
    refine h.aside _ _ hx ⟨⟨[.responded token s z, .completed id], ?_, by simp [Effect.plain]⟩, ?_, ?_, ?_, ?_, ?_, ?_⟩ ?_ ?_
    · rw [dropped_log]; simp
    all_goals cases guard <;> rfl

/-! ### Between callbacks -/

/-- The invariant of a pipeline between callbacks. -/
def Jointly (P : Core → Prop) (I : Ctx H → Prop) (p : Pipe H) : Prop :=
  Holds (fun (p : Pipe H) todo => Tasks P p todo ∧ I p.ctx) (fun p => I p.ctx) p

theorem Jointly.ctx {p : Pipe H} (h : Jointly P I p) : I p.ctx := by
  rcases h with h | h
  · exact h.2.2
  · exact h.2

theorem Jointly.frame (o : Oracle H) {p : Pipe H} {c' : Ctx H} (h : Jointly P I p) (hf : Frame p.ctx c') (hc : I c') :
    Jointly P I { p with ctx := c' } := by
  have hs := (sound_stable (o := o)).frame p c' (Holds.sound h) hf
  rcases h with ⟨hl, hx⟩ | ⟨hd, hz⟩
  · rcases hs with hs | hs
    · exact .inl ⟨hs, hx.1, hc⟩
    · exact absurd (hl.term.symm.trans hs.term) (by simp)
  · rcases hs with hs | hs
    · exact absurd (hd.term.symm.trans hs.term) (by simp)
    · exact .inr ⟨hs, hc⟩

theorem JointAt.steps (h : JointAt o S R P I) : StepsAt o S R (Jointly P I) where
  push p e hp he := Jointly.frame o hp ⟨⟨[e], rfl, by simpa using he⟩, rfl, rfl, rfl, rfl, rfl, rfl, rfl, rfl⟩
    (h.push hp.ctx (by cases e <;> simp_all [Effect.isFilter, Effect.plain]))
  late p token s z hp _ hd := h.within.tardy p token s z hp hd
  eval p hp hS := h.within.eval p hp hS
  digest p token s z hp hS hR := h.within.digest p token s z hp hS hR

/-- Joint invariants of new pipelines hold throughout a request, if the callbacks keep them. -/
theorem JointAt.run (factory : Factory) (host : H) (events : List (Event H))
    (h : JointAt o (Acting o factory host events) (Hearing o factory host events) P I) (p : Pipe H)
    (hb : factory.build o { host := host } = .pipeline p) (ht : Tasks P p []) (hi : I (p.push .hits).ctx)
    (he : ∀ e ∈ events, ∀ c, I c → I (e.enters c)) : Ghost (Jointly P I) (Filter.run o factory host events) :=
  h.steps.run hb (.inl ⟨hits_live hb, ht, hi⟩) fun e hm p hp =>
    Jointly.frame o hp (enters_frame e p.ctx) (he e hm _ hp.ctx)

end Verif
