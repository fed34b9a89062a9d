import Verif.Lemmas.Once
import Verif.Lemmas.Moments
/-! Invariants of contexts. -/
set_option linter.unusedSimpArgs false
namespace Verif
open Spec

variable {H : Type} {o : Oracle H}

/-- Effects that do not come from the tasks themselves. -/
def Effect.plain : Effect → Bool
  | .errors => true
  | .completed _ => true
  | .failed _ => true
  | .ended => true
  | .teardown => true
  | .exported _ => true
  | .responded .. => true
  | e => e.isFilter

/-- Changes of a context outside tasks. -/
structure Aside (c c' : Ctx H) : Prop where
  log : ∃ es, c'.log = c.log ++ es ∧ ∀ e ∈ es, e.plain = true
  bindings : c'.bindings = c.bindings
  values : c'.values = c.values
  tracker : c'.trackerId = c.trackerId
  rid : c'.requestId = c.requestId
  req : c'.req.values = c.req.values
  resp : c'.resp.values = c.resp.values

theorem Aside.refl (c : Ctx H) : Aside c c := ⟨⟨[], by simp, by simp⟩, rfl, rfl, rfl, rfl, rfl, rfl⟩

theorem Aside.push {c c' : Ctx H} (h : Aside c c') {e : Effect} (he : e.plain = true) :
    Aside c (c'.push e) := by
  obtain ⟨es, h1, h2⟩ := h.log
  refine ⟨⟨es ++ [e], by simp [Ctx.push, h1], ?_⟩, h.bindings, h.values, h.tracker, h.rid, h.req, h.resp⟩
  intro x hx
  rcases List.mem_append.1 hx with hx | hx
  · exact h2 x hx
  · simp only [List.mem_singleton] at hx; subst hx; exact he

/-- Obligations of an invariant of contexts, for tasks with property `P`. -/
structure CtxInv (o : Oracle H) (P : Core → Prop) (I : Ctx H → Prop) : Prop where
  closed : Closed P
  start : ∀ k c, P k → (∀ x ∈ k.children, P x) → k.waits = false → I c →
    I (k.apply o (c.push (.applied k.id))).2
  respond : ∀ k c token s z, P k → k.waits = true → I c →
    I (k.apply o { c with grpc := some (s, z), log := c.log ++ [.responded token s z] }).2
  last : ∀ c, I c → I (defaultCore.apply o c).2
  aside : ∀ c c', I c → Aside c c' → I c'

/-- A decorated task changes the context like its core, but for counted errors. -/
theorem apply_aside (t : PTask) (c : Ctx H) : Aside (t.strip.apply o c).2 (t.apply o c).2 := by
  induction t with
  | core k => exact .refl _
  | failureMode t a ih =>
    show Aside (t.strip.apply o c).2 (match t.apply o c with
      | (.failed, c) => if a then (Outcome.terminate defaultReply, c.push .errors) else (.done, c.push .errors)
      | (.deferred token p, c) => (.deferred token (.failureMode p a), c)
      | r => r).2
    generalize t.apply o c = r at ih ⊢
    obtain ⟨out, c'⟩ := r
    cases out with
    | failed => cases a <;> exact ih.push rfl
    | _ => exact ih
  | tracing t ih =>
    show Aside (t.strip.apply o c).2 (match t.apply o c with
      | (.deferred token p, c) => (Outcome.deferred token (.tracing p), c)
      | (.requeued ts, c) => (.requeued (ts.map .tracing), c)
      | (.terminate t, c) => (.terminate (.tracing t), c)
      | r => r).2
    generalize t.apply o c = r at ih ⊢
    obtain ⟨out, c'⟩ := r
    cases out <;> exact ih

theorem tornDown_aside {p q : Pipe H} (h : TornDown p q) : Aside p.ctx q.ctx := by
  obtain ⟨es, h1, h2, _⟩ := h.log
  refine ⟨⟨es, h1, ?_⟩, h.bindings, h.values, h.tracker, h.rid, by rw [h.req], by rw [h.resp]⟩
  intro e he
  have := h2 e he
  cases e <;> simp_all [Effect.isTear, Effect.plain]

theorem frame_aside {c c' : Ctx H} (h : Frame c c') : Aside c c' := by
  obtain ⟨es, h1, h2⟩ := h.log
  refine ⟨⟨es, h1, ?_⟩, h.bindings, h.values, h.tracker, h.rid, h.req, h.resp⟩
  intro e he
  have := h2 e he
  cases e <;> simp_all [Effect.isFilter, Effect.plain]

/-- The same, knowing in which contexts actions are evaluated and responses are looked at. -/
structure CtxInvAt (o : Oracle H) (S : Ctx H → Prop) (R : Nat → Nat → Nat → Ctx H → Prop) (P : Core → Prop)
    (I : Ctx H → Prop) : Prop where
  closed : Closed P
  start : ∀ k c, P k → (∀ x ∈ k.children, P x) → k.waits = false → I c → S (c.push (.applied k.id)) →
    I (k.apply o (c.push (.applied k.id))).2
  respond : ∀ k c token s z, P k → k.waits = true → I c → c.grpc = none → R token s z (c.push (.responded token s z)) →
    I (k.apply o { c with grpc := some (s, z), log := c.log ++ [.responded token s z] }).2
  last : ∀ c, I c → I (defaultCore.apply o c).2
  aside : ∀ c c', I c → Aside c c' → I c'

theorem CtxInv.at {P : Core → Prop} {I : Ctx H → Prop} (h : CtxInv o P I) {S : Ctx H → Prop}
    {R : Nat → Nat → Nat → Ctx H → Prop} : CtxInvAt o S R P I where
  closed := h.closed
  start k c h1 h2 h3 h4 _ := h.start k c h1 h2 h3 h4
  respond k c token s z h1 h2 h3 _ _ := h.respond k c token s z h1 h2 h3
  last := h.last
  aside := h.aside

variable {S : Ctx H → Prop} {R : Nat → Nat → Nat → Ctx H → Prop}

theorem CtxInvAt.terminate {P : Core → Prop} {I : Ctx H → Prop} (h : CtxInvAt o S R P I) {p : Pipe H} {t t' : PTask}
    {es : List Effect} (ht : TDoes t (.terminate t') es) (hp : I p.ctx) : I (p.terminate o t').ctx := by
  show I ((t'.apply o p.ctx).2.push .ended)
  have hpush : ∀ c, I c → I (c.push .ended) := fun c hc => h.aside c _ hc ((Aside.refl c).push rfl)
  rcases does_terminate ht t' rfl with ⟨h1, _⟩ | ⟨h1, _⟩
  · rw [traced_log h1]; exact hpush _ hp
  · rw [traced_log h1]; exact hpush _ (h.last _ hp)

theorem CtxInvAt.extra {P : Core → Prop} {I : Ctx H → Prop} (h : CtxInvAt o S R P I) :
    ExtraAt o S R (fun (p : Pipe H) todo => Tasks P p todo ∧ I p.ctx) (fun p => I p.ctx) (fun p => I p.ctx) where
  opens p hl hx := ⟨(tasks_extra (o := o) h.closed).opens p hl hx.1, hx.2⟩
  skip p t ts hl hx hd := ⟨(tasks_extra (o := o) h.closed).skip p t ts hl hx.1 hd, hx.2⟩
  go p t ts out c es hS hl hx hd ha hs hlog hdo := by
    refine ⟨(tasks_extra (o := o) h.closed).go p t ts out c es hl hx.1 hd ha hs hlog hdo, ?_⟩
    have hall := hx.1 t (by simp [Pipe.tasks])
    have h1 := h.start t.strip p.ctx hall.here (fun x hx => (hall.sub x hx).here)
      (hl.queueW t (by simp)) hx.2 (by rw [strip_id]; exact hS)
    rw [strip_id] at h1
    have h2 := h.aside _ _ h1 (apply_aside t (p.ctx.push (.applied t.id)))
    rw [ha] at h2
    cases out with
    | done => exact h.aside c _ h2 ((Aside.refl c).push rfl)
    | failed => exact h.aside c _ h2 ((Aside.refl c).push rfl)
    | requeued new => exact h2
    | deferred tok t' => exact h2
    | terminate t' => simp [Outcome.stops] at hs
  stop p t ts t' c es hS hl hx hd ha hlog hdo := by
    have hall := hx.1 t (by simp [Pipe.tasks])
    have h1 := h.start t.strip p.ctx hall.here (fun x hx => (hall.sub x hx).here)
      (hl.queueW t (by simp)) hx.2 (by rw [strip_id]; exact hS)
    rw [strip_id] at h1
    have h2 := h.aside _ _ h1 (apply_aside t (p.ctx.push (.applied t.id)))
    rw [ha] at h2
    exact h.terminate hdo h2
  tear p hl hx hq hd := ⟨(tasks_extra (o := o) h.closed).tear p hl hx.1 hq hd,
    h.aside _ _ hx.2 (tornDown_aside (tornDown (o := o) p))⟩
  bury p hd hx := h.aside _ _ hx (tornDown_aside (tornDown (o := o) p))
  late p token s z hl hx hg := ⟨hx.1, h.aside _ _ hx.2 ((Aside.refl _).push rfl)⟩
  answer p token s z t out c es hR hl hx hg ha hs hlog hdo := by
    refine ⟨(tasks_extra (o := o) h.closed).answer p token s z t out c es hl hx.1 hg ha hs hlog hdo, ?_⟩
    have hall := hx.1 t (by
      simp only [Pipe.tasks, List.mem_append, List.mem_map]
      exact .inr ⟨(token, t), mapGet_mem hg, rfl⟩)
    have h1 := h.respond t.strip p.ctx token s z hall.here (hl.deferW _ (mapGet_mem hg)) hx.2 hl.slot hR
    have h2 := h.aside _ _ h1 (apply_aside t (p.answering token s z).ctx)
    rw [ha] at h2
    cases out with
    | done => exact h.aside c _ h2 ((Aside.refl c).push rfl)
    | failed => exact h.aside c _ h2 ((Aside.refl c).push rfl)
    | requeued new => exact h.aside c _ h2 ((Aside.refl c).push rfl)
    | deferred tok t' => exact h2
    | terminate t' => simp [Outcome.stops] at hs
  answerStop p token s z t t' c es hR hl hx hg ha hlog hdo := by
    have hall := hx.1 t (by
      simp only [Pipe.tasks, List.mem_append, List.mem_map]
      exact .inr ⟨(token, t), mapGet_mem hg, rfl⟩)
    have h1 := h.respond t.strip p.ctx token s z hall.here (hl.deferW _ (mapGet_mem hg)) hx.2 hl.slot hR
    have h2 := h.aside _ _ h1 (apply_aside t (p.answering token s z).ctx)
    rw [ha] at h2
    exact h.terminate hdo h2
  frame p c' hl hx hf := ⟨hx.1, h.aside _ _ hx.2 (frame_aside hf)⟩
  frameD p c' hd hx hf := h.aside _ _ hx (frame_aside hf)
  lateD p token s z hd hx hg := h.aside _ _ hx ((Aside.refl _).push rfl)
  answerD p token s z id guard hd hx hg := by
    refine h.aside _ _ hx ⟨⟨[.responded token s z, .completed id], ?_, by simp [Effect.plain]⟩, ?_, ?_, ?_, ?_, ?_, ?_⟩
    · rw [dropped_log]; simp
    all_goals cases guard <;> rfl

theorem CtxInv.extra {P : Core → Prop} {I : Ctx H → Prop} (h : CtxInv o P I) :
    Extra o (fun (p : Pipe H) todo => Tasks P p todo ∧ I p.ctx) (fun p => I p.ctx) (fun p => I p.ctx) :=
  h.at.extra.extra

end Verif
