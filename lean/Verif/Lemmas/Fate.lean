import Verif.Lemmas.Progress
import Verif.Lemmas.Callback
import Verif.Spec.Fate
/-! What becomes of the actions of a request. -/
set_option linter.unusedSimpArgs false
namespace Verif
open Spec

variable {H : Type} {o : Oracle H}

/-- Effects that leave the call with the token in flight. -/
def leaves (tok : Nat) (e : Effect) : Prop := (∀ s z, e ≠ .responded tok s z) ∧ sentToken e ≠ some tok

theorem inFlightFor_append {log es : List Effect} {tok : Nat} {x : Text} (h : InFlightFor log tok x)
    (hes : ∀ e ∈ es, leaves tok e) : InFlightFor (log ++ es) tok x := by
  obtain ⟨pre, g, svc, b, r, post, rfl, h1, h2⟩ := h
  refine ⟨pre, g, svc, b, r, post ++ es, by simp, ?_, ?_⟩
  · intro s z hm
    rcases List.mem_append.1 hm with hm | hm
    · exact h1 s z hm
    · exact (hes _ hm).1 s z rfl
  · intro e he
    rcases List.mem_append.1 he with he | he
    · exact h2 e he
    · exact (hes e he).2

theorem local_leaves {e : Effect} (h : e.isLocal = true) (tok : Nat) : leaves tok e := by
  constructor <;> cases e <;> simp_all [Effect.isLocal, sentToken]

theorem filter_leaves {e : Effect} (h : e.isFilter = true) (tok : Nat) : leaves tok e := by
  constructor <;> cases e <;> simp_all [Effect.isFilter, sentToken]

/-- Why nothing is owed to an action: it has a result, or its call is out. -/
def Pipe.served (p : Pipe H) (x : Text) : Prop :=
  HasResult p.ctx.log x ∨ ∃ e ∈ p.deferred, e.2.id = x ∧ InFlightFor p.ctx.log e.1 x

theorem served_same {p q : Pipe H} {x : Text} {es : List Effect} (h : p.served x)
    (hlog : q.ctx.log = p.ctx.log ++ es) (hd : ∀ e ∈ p.deferred, e.2.id = x → e ∈ q.deferred ∧ ∀ f ∈ es, leaves e.1 f) :
    q.served x := by
  rcases h with (h | h) | ⟨e, he, h1, h2⟩
  · exact .inl (.inl (by rw [hlog]; exact List.mem_append_left _ h))
  · exact .inl (.inr (by rw [hlog]; exact List.mem_append_left _ h))
  · obtain ⟨h3, h4⟩ := hd e he h1
    refine .inr ⟨e, h3, h1, ?_⟩
    rw [hlog]
    exact inFlightFor_append h2 h4

/-- The pipeline after an action, seen by another action. -/
theorem served_other {p : Pipe H} {t : PTask} {ts : List PTask} {out : Outcome} {c : Ctx H} {es : List Effect} {x : Text}
    (hl : Live p (t :: ts)) (hs : out.stops = false) (hlog : c.log = p.ctx.log ++ [.applied t.id] ++ es)
    (hdo : TDoes t out es) (hf : Fresh (Pipe.after { p with ctx := c } t.id out).ctx.log) (h : p.served x) :
    (Pipe.after { p with ctx := c } t.id out).served x := by
  have hstart : ∀ tok, leaves tok (.applied t.id) := fun tok => ⟨by simp, by simp [sentToken]⟩
  rcases does_effects hdo with hloc | ⟨g, tok, svc, b, rid, p', rfl, rfl, -, -, -⟩
  · have hall : ∀ (e : Effect), (∀ tok, leaves tok e) → ∀ tok, ∀ f ∈ [.applied t.id] ++ es ++ [e], leaves tok f := by
      intro e he tok f hf
      simp only [List.cons_append, List.nil_append, List.mem_cons, List.mem_append, List.not_mem_nil, or_false] at hf
      rcases hf with rfl | hf | rfl
      · exact hstart tok
      · exact local_leaves (hloc f hf) tok
      · exact he tok
    have hall' : ∀ tok, ∀ f ∈ [.applied t.id] ++ es, leaves tok f := by
      intro tok f hf
      simp only [List.cons_append, List.nil_append, List.mem_cons, List.mem_append] at hf
      rcases hf with rfl | hf
      · exact hstart tok
      · exact local_leaves (hloc f hf) tok
    cases out with
    | done =>
      exact served_same h (es := [.applied t.id] ++ es ++ [.completed t.id])
        (by simp [Pipe.after, Pipe.complete, Pipe.push, Ctx.push, hlog])
        fun e he _ => ⟨he, hall _ (fun _ => ⟨by simp, by simp [sentToken]⟩) e.1⟩
    | failed =>
      exact served_same h (es := [.applied t.id] ++ es ++ [.failed t.id])
        (by simp [Pipe.after, Pipe.push, Ctx.push, hlog])
        fun e he _ => ⟨he, hall _ (fun _ => ⟨by simp, by simp [sentToken]⟩) e.1⟩
    | requeued => exact served_same h (es := [.applied t.id] ++ es) (by simp [Pipe.after, hlog]) fun e he _ => ⟨he, hall' e.1⟩
    | deferred tok t' =>
      obtain ⟨_, g, svc, b, rid, rfl⟩ := does_deferred hdo
      simp [Effect.isLocal] at hloc
    | terminate => simp [Outcome.stops] at hs
  · have hf' : Fresh (p.ctx.log ++ [.applied t.id] ++ [.dispatch t.id g tok svc b rid]) := by
      rw [← hlog]; exact hf
    have htok := fresh_token hl (by simp [Effect.neutral]) hf'
    refine served_same h (es := [.applied t.id, .dispatch t.id g tok svc b rid])
      (by simp [Pipe.after, Pipe.defer, hlog]) fun e he _ => ⟨keep_deferred htok e he, ?_⟩
    intro f hf
    simp only [List.mem_cons, List.not_mem_nil, or_false] at hf
    rcases hf with rfl | rfl
    · exact hstart _
    · refine ⟨by simp, ?_⟩
      simp only [sentToken, ne_eq, Option.some.injEq]
      intro heq
      exact htok (List.mem_map.2 ⟨e, he, heq.symm⟩)

/-- The pipeline after an action, seen by the action itself. -/
theorem served_self {p : Pipe H} {t : PTask} {ts : List PTask} {out : Outcome} {c : Ctx H} {es : List Effect}
    (hl : Live p (t :: ts)) (hs : out.stops = false) (hlog : c.log = p.ctx.log ++ [.applied t.id] ++ es)
    (hdo : TDoes t out es) :
    (Pipe.after { p with ctx := c } t.id out).served t.id ∨
    ∃ t', out = .requeued [t'] ∧ es = [] ∧ t'.id = t.id ∧ t'.deps = t.deps := by
  cases out with
  | done => exact .inl (.inl (.inl (List.mem_append_right _ (List.mem_singleton.2 rfl))))
  | failed => exact .inl (.inl (.inr (List.mem_append_right _ (List.mem_singleton.2 rfl))))
  | requeued new =>
    obtain ⟨rfl, t', rfl, hid, hdeps⟩ := does_again hdo rfl (hl.queueW t (by simp))
    exact .inr ⟨t', rfl, rfl, hid, hdeps⟩
  | deferred tok t' =>
    obtain ⟨hid, g, svc, b, rid, rfl⟩ := does_deferred hdo
    refine .inl (.inr ⟨(tok, t'), List.mem_cons_self .., hid, ?_⟩)
    show InFlightFor c.log tok t.id
    exact ⟨p.ctx.log ++ [.applied t.id], g, svc, b, rid, [], by rw [hlog], by simp, by simp⟩
  | terminate => simp [Outcome.stops] at hs

theorem completed_after {p : Pipe H} {c : Ctx H} {id : Text} {out : Outcome} :
    ∀ d ∈ p.completed, d ∈ (Pipe.after { p with ctx := c } id out).completed := by
  intro d hd
  cases out with
  | done => exact List.mem_cons_of_mem _ hd
  | _ => exact hd

theorem log_after {p : Pipe H} {t : PTask} {out : Outcome} {c : Ctx H} {es : List Effect} (hs : out.stops = false)
    (hlog : c.log = p.ctx.log ++ [.applied t.id] ++ es) :
    ∃ fs, (Pipe.after { p with ctx := c } t.id out).ctx.log = p.ctx.log ++ ([.applied t.id] ++ fs) ∧
      (.applied t.id ∈ (Pipe.after { p with ctx := c } t.id out).ctx.log) ∧ ∀ f ∈ fs, f ∈ es ∨ f = .completed t.id ∨ f = .failed t.id := by
  cases out with
  | done =>
    refine ⟨es ++ [.completed t.id], by simp [Pipe.after, Pipe.complete, Pipe.push, Ctx.push, hlog],
      by simp [Pipe.after, Pipe.complete, Pipe.push, Ctx.push, hlog], ?_⟩
    intro f hf; simp only [List.mem_append, List.mem_singleton] at hf; rcases hf with h | h <;> simp [h]
  | failed =>
    refine ⟨es ++ [.failed t.id], by simp [Pipe.after, Pipe.push, Ctx.push, hlog],
      by simp [Pipe.after, Pipe.push, Ctx.push, hlog], ?_⟩
    intro f hf; simp only [List.mem_append, List.mem_singleton] at hf; rcases hf with h | h <;> simp [h]
  | deferred => exact ⟨es, by simp [Pipe.after, Pipe.defer, hlog], by simp [Pipe.after, Pipe.defer, hlog], fun f h => .inl h⟩
  | requeued => exact ⟨es, by simp [Pipe.after, hlog], by simp [Pipe.after, hlog], fun f h => .inl h⟩
  | terminate => simp [Outcome.stops] at hs

theorem not_applied {t : PTask} {out : Outcome} {es : List Effect} (h : TDoes t out es) (x : Text) :
    .applied x ∉ es := by
  intro hm
  rcases does_effects h with hl | ⟨_, _, _, _, _, _, rfl, _⟩
  · have := hl _ hm; simp [Effect.isLocal] at this
  · simp at hm

/-- Nothing is owed to the action (which was started, if `b`), or it is in the queue and, if it was started, its
dependencies have completed. -/
structure Owed (b : Bool) (x : Text) (p : Pipe H) (todo : List PTask) : Prop where
  has : Fresh p.ctx.log → (b = true → .applied x ∈ p.ctx.log) → p.served x ∨
    ∃ t ∈ p.queue ++ todo, t.id = x ∧ (b = true → ∀ d ∈ t.deps, d ∈ p.completed)

theorem Owed.same {b : Bool} {x : Text} {p q : Pipe H} {todo : List PTask} (h : Owed b x p todo) {es : List Effect}
    (hlog : q.ctx.log = p.ctx.log ++ es) (hes : .applied x ∉ es) (hq : q.queue = p.queue) (hc : q.completed = p.completed)
    (hd : ∀ e ∈ p.deferred, e.2.id = x → e ∈ q.deferred ∧ ∀ f ∈ es, leaves e.1 f) : Owed b x q todo where
  has hf ha := by
    have hf0 : Fresh p.ctx.log := by rw [hlog] at hf; exact hf.prefix
    have ha0 : b = true → .applied x ∈ p.ctx.log := by
      intro hb
      have := ha hb
      rw [hlog, List.mem_append] at this
      exact this.resolve_right hes
    rcases h.has hf0 ha0 with h | h
    · exact .inl (served_same h hlog hd)
    · exact .inr (by rw [hq, hc]; exact h)

theorem owed_extra (b : Bool) (x : Text) : Extra o (fun (p : Pipe H) todo => Owed b x p todo) (fun _ => True)
    (fun _ => True) where
  opens p hl h := ⟨fun hf ha => by
    rcases h.has hf ha with h | ⟨u, hu, h⟩
    · exact .inl h
    · exact .inr ⟨u, by simpa using hu, h⟩⟩
  skip p t ts hl h hd := ⟨fun hf ha => by
    rcases h.has hf ha with h | ⟨u, hu, h⟩
    · exact .inl h
    · exact .inr ⟨u, by simpa using hu, h⟩⟩
  go p t ts out c es hl h hd ha hs hlog hdo := by
    constructor
    intro hf hst
    obtain ⟨fs, hfs, _, hfe⟩ := log_after hs hlog
    have hf0 : Fresh p.ctx.log := by rw [hfs] at hf; exact hf.prefix
    by_cases hx : t.id = x
    · subst hx
      rcases served_self hl hs hlog hdo with h | ⟨t', rfl, rfl, h1, h2⟩
      · exact .inl h
      · refine .inr ⟨t', List.mem_append_left _ (List.mem_append_right _ (List.mem_singleton.2 rfl)), h1, fun _ d hd' => ?_⟩
        rw [h2] at hd'
        exact hd d hd'
    · have hst0 : b = true → .applied x ∈ p.ctx.log := by
        intro hb
        have := hst hb
        rw [hfs] at this
        simp only [List.mem_append, List.cons_append, List.nil_append, List.mem_cons, Effect.applied.injEq] at this
        rcases this with h | h | h
        · exact h
        · exact absurd h.symm hx
        · rcases hfe _ h with h | h | h
          · exact absurd h (not_applied hdo x)
          · simp at h
          · simp at h
      rcases h.has hf0 hst0 with h | ⟨u, hu, hux, hud⟩
      · exact .inl (served_other hl hs hlog hdo hf h)
      · refine .inr ⟨u, ?_, hux, fun hb d hd' => completed_after d (hud hb d hd')⟩
        simp only [List.mem_append, List.mem_cons] at hu ⊢
        rcases hu with hu | rfl | hu
        · refine .inl ?_
          cases out with
          | requeued => exact List.mem_append_left _ hu
          | terminate => simp [Outcome.stops] at hs
          | _ => exact hu
        · exact absurd hux hx
        · exact .inr hu
  stop _ _ _ _ _ _ _ _ _ _ _ _ := trivial
  tear p hl h hq hd := by
    constructor
    intro hf ha
    obtain ⟨es, h1, h2, _⟩ := (tornDown (o := o) p).log
    have hf0 : Fresh p.ctx.log := by rw [h1] at hf; exact hf.prefix
    have ha0 : b = true → .applied x ∈ p.ctx.log := by
      intro hb
      have := ha hb
      rw [h1, List.mem_append] at this
      refine this.resolve_right fun hm => ?_
      have := h2 _ hm
      simp [Effect.isTear] at this
    rcases h.has hf0 ha0 with (h | h) | ⟨u, hu, h⟩
    · refine .inl (.inl ?_)
      rw [h1]
      rcases h with h | h
      · exact .inl (List.mem_append_left _ h)
      · exact .inr (List.mem_append_left _ h)
    · obtain ⟨e, he, _⟩ := h
      rw [hd] at he; simp at he
    · rw [hq] at hu; simp at hu
  bury _ _ _ := trivial
  late p token s z _ h hg := by
    refine h.same (es := [.responded token s z]) rfl (by simp) rfl rfl fun e he _ => ⟨he, ?_⟩
    intro f hf
    simp only [List.mem_singleton] at hf
    subst hf
    refine ⟨?_, by simp [sentToken]⟩
    intro s' z' heq
    simp only [Effect.responded.injEq] at heq
    exact mapGet_none hg (List.mem_map.2 ⟨e, he, heq.1.symm⟩)
  answer p token s z t out c es hl h hg ha hs hlog hdo := by
    constructor
    intro hf hst
    have hmem := mapGet_mem hg
    have hw : t.strip.waits = true := hl.deferW _ hmem
    have hloc : ∀ e ∈ es, e.isLocal = true := by
      rcases does_effects hdo with hl' | ⟨_, _, _, _, _, _, _, _, _, h4, _⟩
      · exact hl'
      · rw [hw] at h4; simp at h4
    have hout : out = .done ∨ out = .failed ∨ ∃ ts, out = .requeued ts := by
      cases out with
      | done => exact .inl rfl
      | failed => exact .inr (.inl rfl)
      | requeued ts => exact .inr (.inr ⟨ts, rfl⟩)
      | terminate => simp [Outcome.stops] at hs
      | deferred tok t' =>
        exfalso
        obtain ⟨_, g, svc, b, rid, rfl⟩ := does_deferred hdo
        simp [Effect.isLocal] at hloc
    have hsub : ∃ last, (Pipe.replied { p.answering token s z with ctx := c } t.id out).ctx.log =
        p.ctx.log ++ ([.responded token s z] ++ es ++ [last]) ∧ (last = .completed t.id ∨ last = .failed t.id) := by
      rcases hout with rfl | rfl | ⟨ts, rfl⟩
      · exact ⟨.completed t.id, by simp [Pipe.replied, Pipe.complete, Pipe.push, Ctx.push, hlog], .inl rfl⟩
      · exact ⟨.failed t.id, by simp [Pipe.replied, Pipe.push, Ctx.push, hlog], .inr rfl⟩
      · exact ⟨.completed t.id, by simp [Pipe.replied, Pipe.complete, Pipe.push, Ctx.push, hlog], .inl rfl⟩
    obtain ⟨last, hlast, hor⟩ := hsub
    have hf0 : Fresh p.ctx.log := by rw [hlast] at hf; exact hf.prefix
    have hnd : (p.deferred.map Prod.fst).Nodup := by
      have := fresh_nodup _ hf0
      rwa [← hl.calls hf0, entry_fst] at this
    have hst0 : b = true → .applied x ∈ p.ctx.log := by
      intro hb
      have := hst hb
      rw [hlast] at this
      simp only [List.mem_append, List.cons_append, List.nil_append, List.mem_cons, reduceCtorEq, false_or,
        List.not_mem_nil, or_false] at this
      rcases this with h | h | h
      · exact h
      · have := hloc _ h; simp [Effect.isLocal] at this
      · rcases hor with rfl | rfl <;> simp at h
    by_cases hx : t.id = x
    · refine .inl (.inl ?_)
      rw [hlast, ← hx]
      rcases hor with rfl | rfl
      · exact .inl (by simp)
      · exact .inr (by simp)
    · rcases h.has hf0 hst0 with h | ⟨u, hu, hux, hud⟩
      · refine .inl (served_same h hlast ?_)
        intro e he hid
        have htok : e.1 ≠ token := by
          intro htok
          have := eq_of_nodup_fst hnd he hmem htok
          rw [this] at hid
          exact hx hid
        constructor
        · have : e ∈ (p.answering token s z).deferred := List.mem_filter.2 ⟨he, by simpa using htok⟩
          rcases hout with rfl | rfl | ⟨ts, rfl⟩ <;> exact this
        · intro f hf
          simp only [List.mem_append, List.cons_append, List.nil_append, List.mem_cons, List.not_mem_nil, or_false] at hf
          rcases hf with rfl | hf | rfl
          · refine ⟨?_, by simp [sentToken]⟩
            intro s' z' heq
            simp only [Effect.responded.injEq] at heq
            exact htok heq.1.symm
          · exact local_leaves (hloc f hf) _
          · rcases hor with rfl | rfl <;> exact ⟨by simp, by simp [sentToken]⟩
      · refine .inr ⟨u, ?_, hux, fun hb d hd => ?_⟩
        · rw [List.append_nil] at hu ⊢
          rcases hout with rfl | rfl | ⟨ts, rfl⟩
          · exact hu
          · exact hu
          · exact List.mem_append_right _ hu
        · have := hud hb d hd
          rcases hout with rfl | rfl | ⟨ts, rfl⟩
          · exact List.mem_cons_of_mem _ this
          · exact this
          · exact List.mem_cons_of_mem _ this
  answerStop _ _ _ _ _ _ _ _ _ _ _ _ _ _ := trivial
  frame p c' _ h hf := by
    obtain ⟨es, h1, h2⟩ := hf.log
    refine h.same h1 ?_ rfl rfl fun e he _ => ⟨he, fun f hf => filter_leaves (h2 f hf) _⟩
    intro hm
    have := h2 _ hm
    simp [Effect.isFilter] at this
  frameD _ _ _ _ _ := trivial
  lateD _ _ _ _ _ _ _ := trivial
  answerD _ _ _ _ _ _ _ _ _ := trivial

/-- During a pass over the queue: a started action has been dealt with, had to wait in this callback, or its turn
is still to come. -/
structure Pass (base : List Effect) (x : Text) (p : Pipe H) (todo : List PTask) : Prop where
  log : base <+: p.ctx.log
  has : Fresh p.ctx.log → .applied x ∈ p.ctx.log → p.served x ∨ WaitsNow base p.ctx.log x ∨
    ∃ t ∈ todo, t.id = x ∧ ∀ d ∈ t.deps, d ∈ p.completed

theorem waitsNow_since {base log : List Effect} {x : Text} : WaitsNow base log x ↔ WaitedSince base log x := Iff.rfl

theorem pass_skip {base : List Effect} {x : Text} {p : Pipe H} {t : PTask} {ts : List PTask} (h : Pass base x p (t :: ts))
    (hd : ∃ d ∈ t.deps, d ∉ p.completed) : Pass base x { p with queue := p.queue ++ [t] } ts where
  log := h.log
  has hf ha := by
    rcases h.has hf ha with h | h | ⟨u, hu, h1, h2⟩
    · exact .inl h
    · exact .inr (.inl h)
    · rcases List.mem_cons.1 hu with rfl | hu
      · obtain ⟨d, hd, hn⟩ := hd
        exact absurd (h2 d hd) hn
      · exact .inr (.inr ⟨u, hu, h1, h2⟩)

theorem pass_go {base : List Effect} {x : Text} {p : Pipe H} {t : PTask} {ts : List PTask} {out : Outcome} {c : Ctx H}
    {es : List Effect} (hl : Live p (t :: ts)) (h : Pass base x p (t :: ts)) (hs : out.stops = false)
    (hlog : c.log = p.ctx.log ++ [.applied t.id] ++ es) (hdo : TDoes t out es) :
    Pass base x (Pipe.after { p with ctx := c } t.id out) ts := by
  obtain ⟨fs, hfs, _, hfe⟩ := log_after hs hlog
  refine ⟨h.log.trans (by rw [hfs]; exact List.prefix_append _ _), fun hf ha => ?_⟩
  have hf0 : Fresh p.ctx.log := by rw [hfs] at hf; exact hf.prefix
  by_cases hx : t.id = x
  · subst hx
    rcases served_self hl hs hlog hdo with h | ⟨t', rfl, rfl, h1, h2⟩
    · exact .inl h
    · refine .inr (.inl ?_)
      obtain ⟨mid, hm⟩ := h.log
      refine ⟨mid ++ [.applied t.id], ?_, mid, [], rfl, by simp⟩
      show c.log = _
      rw [hlog, ← hm]; simp
  · have ha0 : .applied x ∈ p.ctx.log := by
      rw [hfs] at ha
      simp only [List.mem_append, List.cons_append, List.nil_append, List.mem_cons, Effect.applied.injEq] at ha
      rcases ha with h | h | h
      · exact h
      · exact absurd h.symm hx
      · rcases hfe _ h with h | h | h
        · exact absurd h (not_applied hdo x)
        · simp at h
        · simp at h
    rcases h.has hf0 ha0 with h | h | ⟨u, hu, h1, h2⟩
    · exact .inl (served_other hl hs hlog hdo hf h)
    · refine .inr (.inl ?_)
      rw [hfs]
      exact (waitsNow_since.1 h).append applied_head
    · rcases List.mem_cons.1 hu with rfl | hu
      · exact absurd h1 hx
      · exact .inr (.inr ⟨u, hu, h1, fun d hd => completed_after d (h2 d hd)⟩)

/-- After an evaluation every started action is dealt with, or was started in it and had to wait. -/
theorem pass_evalPipe {x : Text} {p : Pipe H} (hl : Live p []) (h : Owed true x p []) :
    (Live (p.evalPipe o) [] ∧ Pass p.ctx.log x (p.evalPipe o) []) ∨ Dead (p.evalPipe o) := by
  refine evalPipe_ind o (fun q ts => Live q ts ∧ Pass p.ctx.log x q ts)
    (fun q => Dying q) (fun q => Dead q)
    ?_ ?_ ?_ ?_ ?_ p ⟨live_opens hl, List.prefix_refl _, fun hf ha => ?_⟩
  · rintro q t ts ⟨hl, hp⟩ hd
    exact ⟨live_skip q t ts hl, pass_skip hp hd⟩
  · rintro q t ts out c ⟨hl, hp⟩ hd ha hs
    obtain ⟨es, hlog, hdo⟩ := apply_does o (q.ctx.push (.applied t.id)) t
    rw [ha] at hlog hdo
    exact ⟨live_go o q t ts out c hl ha hs, pass_go hl hp hs hlog hdo⟩
  · rintro q t ts t' c ⟨hl, hp⟩ hd ha
    exact live_stop o q t ts t' c hl ha
  · exact dying_dead o
  · rintro q ⟨hl, hp⟩ hq hd
    obtain ⟨es, h1, h2, _⟩ := (tornDown (o := o) q).log
    refine ⟨live_teardown o q hl hd, ⟨by rw [h1]; exact hp.log.trans (List.prefix_append _ _), ?_⟩⟩
    intro hf ha
    have hf0 : Fresh q.ctx.log := by rw [h1] at hf; exact hf.prefix
    have ha0 : .applied x ∈ q.ctx.log := by
      rw [h1, List.mem_append] at ha
      refine ha.resolve_right fun hm => ?_
      have := h2 _ hm
      simp [Effect.isTear] at this
    rcases hp.has hf0 ha0 with (h | ⟨e, he, _⟩) | h | ⟨t, ht, _⟩
    · refine .inl (.inl ?_)
      rw [h1]
      rcases h with h | h
      · exact .inl (List.mem_append_left _ h)
      · exact .inr (List.mem_append_left _ h)
    · rw [hd] at he; simp at he
    · refine .inr (.inl ?_)
      rw [h1]
      refine (waitsNow_since.1 h).append ?_
      intro e rest he
      have := h2 e (by rw [he]; simp)
      cases e <;> simp_all [Effect.isTear, byAction]
    · simp at ht
  · rcases h.has hf (fun _ => ha) with h | ⟨t, ht, h1, h2⟩
    · exact .inl h
    · exact .inr (.inr ⟨t, by simpa using ht, h1, h2 rfl⟩)

/-- A statement about the history before a callback and after it, which follows from what evaluations do. -/
structure Lifts (o : Oracle H) (I : Pipe H → Prop) (D : List Effect → List Effect → Prop) : Prop where
  eval : ∀ p, I p → D p.ctx.log (p.evalPipe o).ctx.log
  digest : ∀ p token s z, I p → D p.ctx.log (p.digestPipe o token s z).ctx.log
  idle : ∀ p, I p → p.queue = [] → p.deferred = [] → D p.ctx.log p.ctx.log
  late : ∀ p token s z, I p → p.queue = [] → p.deferred = [] → D p.ctx.log (p.ctx.log ++ [.responded token s z])
  push : ∀ {base log e}, D base log → Effect.isFilter e = true → D base (log ++ [e])
  before : ∀ {base e log}, Effect.isFilter e = true → D (base ++ [e]) log → D base log

theorem Lifts.evalWith {I : Pipe H → Prop} {D : List Effect → List Effect → Prop} (hD : Lifts o I D) (hI : Stable o I)
    {f : Filter H} (h : Ghost I f) (host : H) {update : Ctx H → Ctx H} (hu : Harmless update) :
    D f.log (f.evalWith o host update).log := by
  cases h with
  | running q hp h =>
    rw [evalWith_some f host update q hp, store_log]
    have := hD.eval _ (entered_frame hI f host hu q h)
    rwa [entered_log f host hu] at this
  | finished g hp hq hd hl h =>
    rw [evalWith_none f host update hp]
    have := hD.idle g h hq hd
    rwa [hl] at this

theorem Lifts.step {I : Pipe H → Prop} {D : List Effect → List Effect → Prop} (hD : Lifts o I D) (hI : Stable o I)
    {f : Filter H} (h : Ghost I f) (e : Event H) (hc : f.crashed = false) : D f.log (f.step o e).log := by
  unfold Filter.step
  rw [if_neg (by simp [hc])]
  cases e with
  | requestBody host size eos => exact hD.push (hD.evalWith hI h host (harmless_req _ _)) rfl
  | responseHeaders host =>
    refine hD.push ?_ rfl
    refine hD.before (e := .allowed) rfl ?_
    exact hD.evalWith hI (f := { f.push .allowed with inResponse := true })
      (ghost_of_pipeline (ghost_push hI h (e := .allowed) rfl) rfl rfl) host harmless_id
  | responseBody host size eos =>
    have h1 := hD.evalWith hI h host (harmless_resp size eos)
    simp only [Filter.onResponseBody]
    split
    · exact hD.push h1 rfl
    · split
      · exact hD.push h1 rfl
      · exact hD.push h1 rfl
  | grpcResponse host token s z =>
    cases h with
    | running q hp h =>
      dsimp only
      rw [onGrpcResponse_some f host token s z q hp]
      have h1 := hD.digest _ token s z (entered_frame hI f host harmless_id q h)
      rw [entered_log f host harmless_id] at h1
      split
      · unfold Filter.resume
        refine hD.push (by rw [store_log]; exact h1) ?_
        split <;> rfl
      · rw [store_log]; exact h1
    | finished g hp hq hd hl h =>
      dsimp only
      unfold Filter.onGrpcResponse
      rw [hp]
      have := hD.late g token s z h hq hd
      rwa [hl] at this

theorem Extra.and {X X' : Pipe H → List PTask → Prop} {Y Y' Z Z' : Pipe H → Prop} (h : Extra o X Y Z) (h' : Extra o X' Y' Z') :
    Extra o (fun p ts => X p ts ∧ X' p ts) (fun p => Y p ∧ Y' p) (fun p => Z p ∧ Z' p) where
  opens p hl hx := ⟨h.opens p hl hx.1, h'.opens p hl hx.2⟩
  skip p t ts hl hx hd := ⟨h.skip p t ts hl hx.1 hd, h'.skip p t ts hl hx.2 hd⟩
  go p t ts out c es hl hx hd ha hs hlog hdo :=
    ⟨h.go p t ts out c es hl hx.1 hd ha hs hlog hdo, h'.go p t ts out c es hl hx.2 hd ha hs hlog hdo⟩
  stop p t ts t' c es hl hx hd ha hlog hdo :=
    ⟨h.stop p t ts t' c es hl hx.1 hd ha hlog hdo, h'.stop p t ts t' c es hl hx.2 hd ha hlog hdo⟩
  tear p hl hx hq hd := ⟨h.tear p hl hx.1 hq hd, h'.tear p hl hx.2 hq hd⟩
  bury p hl hx := ⟨h.bury p hl hx.1, h'.bury p hl hx.2⟩
  late p token s z hl hx hg := ⟨h.late p token s z hl hx.1 hg, h'.late p token s z hl hx.2 hg⟩
  answer p token s z t out c es hl hx hg ha hs hlog hdo :=
    ⟨h.answer p token s z t out c es hl hx.1 hg ha hs hlog hdo, h'.answer p token s z t out c es hl hx.2 hg ha hs hlog hdo⟩
  answerStop p token s z t t' c es hl hx hg ha hlog hdo :=
    ⟨h.answerStop p token s z t t' c es hl hx.1 hg ha hlog hdo, h'.answerStop p token s z t t' c es hl hx.2 hg ha hlog hdo⟩
  lateD p token s z hd hz hg := ⟨h.lateD p token s z hd hz.1 hg, h'.lateD p token s z hd hz.2 hg⟩
  answerD p token s z id guard hd hz hg := ⟨h.answerD p token s z id guard hd hz.1 hg, h'.answerD p token s z id guard hd hz.2 hg⟩
  frame p c' hl hx hf := ⟨h.frame p c' hl hx.1 hf, h'.frame p c' hl hx.2 hf⟩
  frameD p c' hd hz hf := ⟨h.frameD p c' hd hz.1 hf, h'.frameD p c' hd hz.2 hf⟩

/-- Statements about histories before and after callbacks, from what evaluations of running pipelines do. -/
theorem Extra.lifts {X : Pipe H → List PTask → Prop} {Y Z : Pipe H → Prop} (h : Extra o X Y Z)
    {D : List Effect → List Effect → Prop}
    (heval : ∀ p, Live p [] → X p [] → Live (p.evalPipe o) [] → D p.ctx.log (p.evalPipe o).ctx.log)
    (hdead : ∀ base log, .ended ∈ log → D base log)
    (idle : ∀ p, Live p [] → X p [] → p.queue = [] → p.deferred = [] → D p.ctx.log p.ctx.log)
    (push : ∀ {base log e}, D base log → Effect.isFilter e = true → D base (log ++ [e]))
    (before : ∀ {base mid log}, D (base ++ mid) log → D base log) : Lifts o (Holds X Z) D := by
  have he : ∀ p, Holds X Z p → D p.ctx.log (p.evalPipe o).ctx.log := by
    rintro p (⟨hl, hx⟩ | ⟨hd, _⟩)
    · rcases live_evalPipe o p hl with hl' | hd'
      · exact heval p hl hx hl'
      · exact hdead _ _ hd'.ended
    · rw [dead_evalPipe o p hd]
      exact hdead _ _ hd.ended
  refine ⟨he, ?_, ?_, ?_, push, fun _ => before⟩
  · rintro p token s z (⟨hl, hx⟩ | ⟨hd, _⟩)
    · refine digestPipe_ind o (fun q => Holds X Z q ∧ p.ctx.log <+: q.ctx.log)
        (fun q => D p.ctx.log q.ctx.log) p token s z hl.slot ?_ ?_ ?_ ?_
      · intro hg
        exact ⟨.inl ⟨live_late p token s z hl hg, h.late p token s z hl hx hg⟩, List.prefix_append _ _⟩
      · intro t out c hg ha hs
        obtain ⟨es, hlog, hdo⟩ := apply_does o (p.answering token s z).ctx t
        rw [ha] at hlog hdo
        refine ⟨.inl ⟨live_answer o p token s z hl t hg out c ha hs,
          h.answer p token s z t out c es hl hx hg ha hs hlog hdo⟩, ?_⟩
        have hc : p.ctx.log <+: c.log := by
          rw [hlog]
          show p.ctx.log <+: p.ctx.log ++ [_] ++ es
          rw [List.append_assoc]
          exact List.prefix_append _ _
        cases out with
        | done => exact hc.trans (List.prefix_append _ _)
        | failed => exact hc.trans (List.prefix_append _ _)
        | requeued => exact hc.trans (List.prefix_append _ _)
        | deferred => exact hc
        | terminate => simp [Outcome.stops] at hs
      · intro t t' c hg ha
        have hd := dying_dead o _ (live_answerStop o p token s z hl t hg t' c ha)
        rw [dead_evalPipe o _ hd]
        exact hdead _ _ hd.ended
      · rintro q ⟨hq, mid, hm⟩
        have := he q hq
        rw [← hm] at this
        exact before this
    · exact hdead _ _ (dead_digestPipe o p token s z hd).1.ended
  · rintro p (⟨hl, hx⟩ | ⟨hd, _⟩) hq hdf
    · exact idle p hl hx hq hdf
    · exact hdead _ _ hd.ended
  · rintro p token s z (⟨hl, hx⟩ | ⟨hd, _⟩) hq hdf
    · have hg : mapGet p.deferred token = none := by rw [hdf]; rfl
      exact before (mid := [.responded token s z])
        (idle (p.push (.responded token s z)) (live_late p token s z hl hg) (h.late p token s z hl hx hg) hq hdf)
    · exact hdead _ _ (List.mem_append_left _ hd.ended)

theorem waitsNow_before {base mid log : List Effect} {x : Text} (h : WaitsNow (base ++ mid) log x) : WaitsNow base log x :=
  WaitedSince.before h

theorem waitsNow_push {base log : List Effect} {e : Effect} {x : Text} (h : WaitsNow base log x)
    (he : e.isFilter = true) : WaitsNow base (log ++ [e]) x := by
  refine WaitedSince.append h ?_
  intro y rest hy
  simp only [List.cons.injEq] at hy
  obtain ⟨rfl, _⟩ := hy
  cases e <;> simp_all [Effect.isFilter, byAction]

theorem callOut_push {log : List Effect} {e : Effect} {x : Text} (h : CallOut log x) (he : e.isFilter = true) :
    CallOut (log ++ [e]) x := by
  obtain ⟨tok, h⟩ := h
  exact ⟨tok, inFlightFor_append h (by simpa using filter_leaves he tok)⟩

/-- A started action after a callback. -/
def Tried (x : Text) (base log : List Effect) : Prop :=
  Fresh log → ¬ Ended log → .applied x ∈ log → HasResult log x ∨ CallOut log x ∨ WaitsNow base log x

theorem served_tried {p : Pipe H} {x : Text} (h : p.served x) : HasResult p.ctx.log x ∨ CallOut p.ctx.log x := by
  rcases h with h | ⟨e, _, _, h⟩
  · exact .inl h
  · exact .inr ⟨_, h⟩

theorem tried_lifts (x : Text) : Lifts o (Holds (Owed true x) (fun _ => True)) (Tried x) := by
  refine (owed_extra true x).lifts ?_ ?_ ?_ ?_ ?_
  · intro p hl hx hl' hf hend ha
    rcases pass_evalPipe (o := o) hl hx with ⟨_, h⟩ | h
    · rcases h.has hf ha with h | h | ⟨t, ht, _⟩
      · rcases served_tried h with h | h
        · exact .inl h
        · exact .inr (.inl h)
      · exact .inr (.inr h)
      · simp at ht
    · exact absurd h.ended hend
  · intro base log h _ hend
    exact absurd h hend
  · intro p hl hx hq hd hf hend ha
    rcases hx.has hf (fun _ => ha) with h | ⟨t, ht, _⟩
    · rcases served_tried h with h | h
      · exact .inl h
      · exact .inr (.inl h)
    · rw [hq] at ht; simp at ht
  · intro base log e h he hf hend ha
    have ha0 : .applied x ∈ log := by
      refine (List.mem_append.1 ha).resolve_right fun hm => ?_
      simp only [List.mem_singleton] at hm
      subst hm
      simp [Effect.isFilter] at he
    rcases h (Fresh.prefix hf) (fun h => hend (List.mem_append_left _ h)) ha0 with (h | h) | h | h
    · exact .inl (.inl (List.mem_append_left _ h))
    · exact .inl (.inr (List.mem_append_left _ h))
    · exact .inr (.inl (callOut_push h he))
    · exact .inr (.inr (waitsNow_push h he))
  · intro base mid log h hf hend ha
    rcases h hf hend ha with h | h | h
    · exact .inl h
    · exact .inr (.inl h)
    · exact .inr (.inr (waitsNow_before h))

/-- Every deferred task waits for the answer to a call of its action; after the end of the pipeline there are only
the placeholders of the exports of traces. -/
structure Flown (p : Pipe H) (todo : List PTask) : Prop where
  has : Fresh p.ctx.log → (∀ e ∈ p.deferred, InFlightFor p.ctx.log e.1 e.2.id) ∨
    (p.queue ++ todo = [] ∧ ∀ e ∈ p.deferred, ∃ id g, e.2 = .core (.noop id g))

theorem Flown.same {p q : Pipe H} {todo : List PTask} (h : Flown p todo) {es : List Effect}
    (hlog : q.ctx.log = p.ctx.log ++ es) (hq : q.queue = p.queue) (hd : q.deferred = p.deferred)
    (hes : ∀ e ∈ p.deferred, ∀ f ∈ es, leaves e.1 f) : Flown q todo where
  has hf := by
    have hf0 : Fresh p.ctx.log := by rw [hlog] at hf; exact hf.prefix
    rcases h.has hf0 with h | h
    · refine .inl fun e he => ?_
      rw [hd] at he
      rw [hlog]
      exact inFlightFor_append (h e he) (hes e he)
    · exact .inr (by rw [hq, hd]; exact h)

theorem flown_extra : Extra o (fun (p : Pipe H) todo => Flown p todo) (fun _ => True) (fun _ => True) where
  opens p hl h := ⟨fun hf => by
    rcases h.has hf with h | h
    · exact .inl h
    · exact .inr (by simpa using h)⟩
  skip p t ts hl h hd := ⟨fun hf => by
    rcases h.has hf with h | h
    · exact .inl h
    · simp at h⟩
  go p t ts out c es hl h hd ha hs hlog hdo := by
    constructor
    intro hf
    obtain ⟨fs, hfs, _, hfe⟩ := log_after hs hlog
    have hf0 : Fresh p.ctx.log := by rw [hfs] at hf; exact hf.prefix
    left
    have h0 : ∀ e ∈ p.deferred, InFlightFor p.ctx.log e.1 e.2.id := by
      rcases h.has hf0 with h | h
      · exact h
      · simp at h
    -- an entry that was there before
    have hold : ∀ e ∈ p.deferred, InFlightFor (Pipe.after { p with ctx := c } t.id out).ctx.log e.1 e.2.id := by
      intro e he
      rw [hfs]
      refine inFlightFor_append (h0 e he) ?_
      intro f hf'
      simp only [List.cons_append, List.nil_append, List.mem_cons] at hf'
      rcases hf' with rfl | hf'
      · exact ⟨by simp, by simp [sentToken]⟩
      · rcases hfe f hf' with h | rfl | rfl
        · rcases does_effects hdo with hloc | ⟨g, tok, svc, b, rid, p', rfl, rfl, -, -, -⟩
          · exact local_leaves (hloc f h) _
          · have hf'' : Fresh (p.ctx.log ++ [.applied t.id] ++ [.dispatch t.id g tok svc b rid]) := by
              rw [← hlog]; exact hf
            have htok := fresh_token hl (by simp [Effect.neutral]) hf''
            simp only [List.mem_singleton] at h
            subst h
            refine ⟨by simp, ?_⟩
            simp only [sentToken, ne_eq, Option.some.injEq]
            intro heq
            exact htok (List.mem_map.2 ⟨e, he, heq.symm⟩)
        · exact ⟨by simp, by simp [sentToken]⟩
        · exact ⟨by simp, by simp [sentToken]⟩
    cases out with
    | deferred tok t' =>
      intro e he
      rcases mem_mapInsert he with rfl | he
      · obtain ⟨hid, g, svc, b, rid, rfl⟩ := does_deferred hdo
        show InFlightFor c.log tok t'.id
        exact ⟨p.ctx.log ++ [.applied t.id], g, svc, b, rid, [], by rw [hlog, hid], by simp, by simp⟩
      · exact hold e he
    | terminate => simp [Outcome.stops] at hs
    | _ => exact hold
  stop _ _ _ _ _ _ _ _ _ _ _ _ := trivial
  tear p hl h hq hd := ⟨fun _ => .inr ⟨by rw [(tornDown (o := o) p).queue, hq]; rfl, (tornDown (o := o) p).noops⟩⟩
  bury _ _ _ := trivial
  late p token s z _ h hg := by
    refine h.same (es := [.responded token s z]) rfl rfl rfl fun e he f hf => ?_
    simp only [List.mem_singleton] at hf
    subst hf
    refine ⟨?_, by simp [sentToken]⟩
    intro s' z' heq
    simp only [Effect.responded.injEq] at heq
    exact mapGet_none hg (List.mem_map.2 ⟨e, he, heq.1.symm⟩)
  answer p token s z t out c es hl h hg ha hs hlog hdo := by
    constructor
    intro hf
    have hmem := mapGet_mem hg
    have hw : t.strip.waits = true := hl.deferW _ hmem
    have hloc : ∀ e ∈ es, e.isLocal = true := by
      rcases does_effects hdo with hl' | ⟨_, _, _, _, _, _, _, _, _, h4, _⟩
      · exact hl'
      · rw [hw] at h4; simp at h4
    have hout : out = .done ∨ out = .failed ∨ ∃ ts, out = .requeued ts := by
      cases out with
      | done => exact .inl rfl
      | failed => exact .inr (.inl rfl)
      | requeued ts => exact .inr (.inr ⟨ts, rfl⟩)
      | terminate => simp [Outcome.stops] at hs
      | deferred tok t' =>
        exfalso
        obtain ⟨_, g, svc, b, rid, rfl⟩ := does_deferred hdo
        simp [Effect.isLocal] at hloc
    have hsub : ∃ last, (Pipe.replied { p.answering token s z with ctx := c } t.id out).ctx.log =
        p.ctx.log ++ ([.responded token s z] ++ es ++ [last]) ∧ (last = .completed t.id ∨ last = .failed t.id) := by
      rcases hout with rfl | rfl | ⟨ts, rfl⟩
      · exact ⟨.completed t.id, by simp [Pipe.replied, Pipe.complete, Pipe.push, Ctx.push, hlog], .inl rfl⟩
      · exact ⟨.failed t.id, by simp [Pipe.replied, Pipe.push, Ctx.push, hlog], .inr rfl⟩
      · exact ⟨.completed t.id, by simp [Pipe.replied, Pipe.complete, Pipe.push, Ctx.push, hlog], .inl rfl⟩
    obtain ⟨last, hlast, hor⟩ := hsub
    have hf0 : Fresh p.ctx.log := by rw [hlast] at hf; exact hf.prefix
    have hdef : ∀ e ∈ (Pipe.replied { p.answering token s z with ctx := c } t.id out).deferred, e ∈ p.deferred ∧ e.1 ≠ token := by
      intro e he
      have : e ∈ (p.answering token s z).deferred := by
        rcases hout with rfl | rfl | ⟨ts, rfl⟩ <;> exact he
      have := List.mem_filter.1 this
      exact ⟨this.1, by simpa using this.2⟩
    rcases h.has hf0 with h | ⟨hq, hn⟩
    · left
      intro e he
      obtain ⟨he, htok⟩ := hdef e he
      rw [hlast]
      refine inFlightFor_append (h e he) ?_
      intro f hf
      simp only [List.mem_append, List.cons_append, List.nil_append, List.mem_cons, List.not_mem_nil, or_false] at hf
      rcases hf with rfl | hf | rfl
      · refine ⟨?_, by simp [sentToken]⟩
        intro s' z' heq
        simp only [Effect.responded.injEq] at heq
        exact htok heq.1.symm
      · exact local_leaves (hloc f hf) _
      · rcases hor with rfl | rfl <;> exact ⟨by simp, by simp [sentToken]⟩
    · right
      obtain ⟨id, g, ht⟩ := hn _ hmem
      dsimp only at ht
      subst ht
      refine ⟨?_, fun e he => hn e (hdef e he).1⟩
      rw [List.append_nil] at hq ⊢
      cases hdo with
      | core hdo =>
        cases hdo with
        | done => exact hq
        | again _ _ ha => simp [Core.waits, PTask.strip] at *
        | failed => exact hq
        | callFailed => exact hq
        | dropped => exact hq
  answerStop _ _ _ _ _ _ _ _ _ _ _ _ _ _ := trivial
  frame p c' _ h hf := by
    obtain ⟨es, h1, h2⟩ := hf.log
    exact h.same h1 rfl rfl fun e he f hf => filter_leaves (h2 f hf) _
  frameD _ _ _ _ _ := trivial
  lateD _ _ _ _ _ _ _ := trivial
  answerD _ _ _ _ _ _ _ _ _ := trivial

/-- What a task depends on, by position. -/
def depsLink (actions : List ActionConfig) (deps : List (List Nat)) (k : Core) : Prop :=
  k.waits = false → ∀ d ∈ k.deps, ∃ i j a ds, k.id = natText i ∧ actions[i]? = some a ∧ MayCall a ∧
    deps[i]? = some ds ∧ j ∈ ds ∧ d = natText j

theorem depsLink_closed (actions : List ActionConfig) (deps : List (List Nat)) : Closed (depsLink actions deps) where
  again k k' h ha := by
    cases ha with
    | same => exact h
    | store => exact h
    | tokenUsage => exact h
  sent := by intro id deps guard pred msg var svc r h; simp [depsLink, Core.waits]
  noop := by simp [depsLink, Core.waits]

theorem Action.All.mono {R R' : Action → Prop} (hR : ∀ a, R a → R' a) {x : Action} (h : Action.All R x) :
    Action.All R' x := by
  induction h with
  | mk x h _ ih => exact .mk _ (hR _ h) ih

theorem fromSet_depsLink {parse : Text → Option Expr} {cfg : PluginConfig} {s : ActionSet} {b : Blueprint}
    {c : Ctx H} {p : Pipe H} (hb : Built c b p) (hfs : FromSet parse cfg s b) :
    Tasks (depsLink s.actions (depLoop 0 [] [] s.actions)) p [] := by
  refine built_all' hb (R := fun y => (∃ head kind svc deny var msg acts, y = .grpc head (.call kind svc deny) var msg acts) →
    ∀ d ∈ y.head.deps, ∃ i j a ds, y.head.id = natText i ∧ s.actions[i]? = some a ∧ MayCall a ∧
      (depLoop 0 [] [] s.actions)[i]? = some ds ∧ j ∈ ds ∧ d = natText j) ?_ ?_ ?_
  · refine set_all hfs ?_ ?_
    · intro i a deps ha hd t x hst hco
      have key : ∀ {id t x}, Compiled parse cfg.services id t x → Action.All (fun y => y.head.deps = []) x := by
        intro id t x h
        have h0 := compiled_deps h
        induction h with
        | grpc id h service var message onReply pred kind svc deny msg replies hp hs hm hl hseq hr ih =>
          refine .mk _ h0 ?_
          intro head svc var msg acts heq b hb
          cases heq
          obtain ⟨i, hi, rfl⟩ := List.mem_iff_getElem.1 hb
          have hi' : i < onReply.length := by omega
          have := hr i onReply[i] replies[i] (by simp [hi']) (by simp [hi])
          exact ih i onReply[i] _ (by simp [hi']) (by simp [hi]) (compiled_deps this)
        | _ => exact .mk _ h0 (by simp)
      have hcall : (∃ head kind svc deny var msg acts, x = .grpc head (.call kind svc deny) var msg acts) → MayCall a := by
        rintro ⟨head, kind, svc, deny, var, msg, acts, rfl⟩
        cases hst with
        | typed t => cases hco; trivial
        | legacy => trivial
      have hx := key hco
      simp only [computeDeps, List.getElem?_map, Option.map_eq_some_iff] at hd
      obtain ⟨ds, hds, rfl⟩ := hd
      cases hx with
      | mk _ h hc =>
        refine .mk _ ?_ ?_
        · intro hg d hd
          rw [withDeps_deps] at hd
          obtain ⟨j, hj, rfl⟩ := List.mem_map.1 hd
          refine ⟨i, j, a, ds, by rw [withDeps_id, hco.head_id], ha, hcall ?_, hds, hj, rfl⟩
          obtain ⟨head, kind, svc, deny, var, msg, acts, heq⟩ := hg
          cases x <;> simp only [Action.withDeps, Action.grpc.injEq, reduceCtorEq] at heq
          obtain ⟨_, rfl, rfl, rfl, rfl⟩ := heq
          exact ⟨_, _, _, _, _, _, _, rfl⟩
        · intro head svc var msg acts heq b hb
          cases x <;> simp only [Action.withDeps, Action.grpc.injEq, reduceCtorEq] at heq
          have := hc _ _ _ _ _ rfl b (by rw [heq.2.2.2.2]; exact hb)
          refine this.mono ?_
          intro y hy _ d hd
          rw [hy] at hd; simp at hd
    · refine dev_all ?_
      intro head service var _ hdeps _ d hd
      simp [Action.head, hdeps] at hd
  · intro a k hr hm hw d hd
    rw [hm.id]
    cases hm with
    | call head kind svc deny var msg acts kids hid hk => exact hr ⟨_, _, _, _, _, _, _, rfl⟩ d hd
    | _ => simp [Core.deps] at hd
  · intro fields hw d hd
    simp [Core.deps] at hd

theorem stuck_heldBack {actions : List ActionConfig} {deps : List (List Nat)} {base log : List Effect}
    {w ok : Text → Prop} {ts : List PTask} (h : Stuck w ok ts)
    (hw : ∀ i, w (natText i) → HeldBack actions deps base log i)
    (hok : ∀ i, ok (natText i) → HeldBack actions deps base log i)
    (hlink : ∀ t ∈ ts, ∀ d ∈ t.deps, ∃ i j a ds, t.id = natText i ∧ actions[i]? = some a ∧ MayCall a ∧
      deps[i]? = some ds ∧ j ∈ ds ∧ d = natText j) :
    ∀ t ∈ ts, ∀ i, t.id = natText i → HeldBack actions deps base log i := by
  induction ts generalizing ok with
  | nil => simp
  | cons t ts ih =>
    have h0 : ∀ i, t.id = natText i → HeldBack actions deps base log i := by
      intro i hi
      rcases h.1 with h1 | ⟨d, hd, h1⟩
      · rw [hi] at h1; exact hw i h1
      · obtain ⟨i', j, a, ds, h2, h3, h4, h5, h6, rfl⟩ := hlink t (by simp) d hd
        have : i = i' := natText_inj (by rw [← hi, h2])
        subst this
        exact .behind h3 h4 h5 h6 (hok j h1)
    intro u hu
    rcases List.mem_cons.1 hu with rfl | hu
    · exact h0
    · refine ih h.2 ?_ (fun t ht => hlink t (by simp [ht])) u hu
      rintro i (h | h)
      · exact hok i h
      · exact h0 i h.symm

theorem heldBack_mono {actions : List ActionConfig} {deps : List (List Nat)} {base base' log log' : List Effect}
    (hf : ∀ x, .failed x ∈ log → .failed x ∈ log') (hc : ∀ x, CallOut log x → CallOut log' x)
    (hw : ∀ x, WaitsNow base log x → WaitsNow base' log' x) {i : Nat} (h : HeldBack actions deps base log i) :
    HeldBack actions deps base' log' i := by
  induction h with
  | failed h => exact .failed (hf _ h)
  | out h => exact .out (hc _ h)
  | waits h => exact .waits (hw _ h)
  | behind h1 h2 h3 h4 _ ih => exact .behind h1 h2 h3 h4 ih

/-- The actions of a set after a callback. -/
def FateKnown (actions : List ActionConfig) (deps : List (List Nat)) (base log : List Effect) : Prop :=
  Fresh log → ¬ Ended log → ∀ i < actions.length, .completed (natText i) ∈ log ∨ HeldBack actions deps base log i

/-- The invariant from which it follows. -/
def Explains (actions : List ActionConfig) (deps : List (List Nat)) (p : Pipe H) (todo : List PTask) : Prop :=
  ((Placeable p todo ∧ Flown p todo) ∧ Tasks (depsLink actions deps) p todo) ∧
    ∀ i < actions.length, Owed false (natText i) p todo

theorem Extra.forall {ι : Type} {X : ι → Pipe H → List PTask → Prop} {P : ι → Prop}
    (h : ∀ i, P i → Extra o (X i) (fun _ => True) (fun _ => True)) :
    Extra o (fun p ts => ∀ i, P i → X i p ts) (fun _ => True) (fun _ => True) where
  opens p hl hx i hi := (h i hi).opens p hl (hx i hi)
  skip p t ts hl hx hd i hi := (h i hi).skip p t ts hl (hx i hi) hd
  go p t ts out c es hl hx hd ha hs hlog hdo i hi := (h i hi).go p t ts out c es hl (hx i hi) hd ha hs hlog hdo
  stop _ _ _ _ _ _ _ _ _ _ _ _ := trivial
  tear p hl hx hq hd i hi := (h i hi).tear p hl (hx i hi) hq hd
  bury _ _ _ := trivial
  late p token s z hl hx hg i hi := (h i hi).late p token s z hl (hx i hi) hg
  answer p token s z t out c es hl hx hg ha hs hlog hdo i hi :=
    (h i hi).answer p token s z t out c es hl (hx i hi) hg ha hs hlog hdo
  answerStop _ _ _ _ _ _ _ _ _ _ _ _ _ _ := trivial
  lateD _ _ _ _ _ _ _ := trivial
  answerD _ _ _ _ _ _ _ _ _ := trivial
  frame p c' hl hx hf i hi := (h i hi).frame p c' hl (hx i hi) hf
  frameD _ _ _ _ _ := trivial

theorem explains_extra (actions : List ActionConfig) (deps : List (List Nat)) :
    Extra o (fun (p : Pipe H) ts => Explains actions deps p ts) (fun _ => ((True ∧ True) ∧ True) ∧ True)
      (fun _ => ((True ∧ True) ∧ True) ∧ True) :=
  ((placeable_extra.and flown_extra).and (tasks_extra (depsLink_closed actions deps))).and
    (Extra.forall fun i _ => owed_extra false (natText i))

theorem served_explained {actions : List ActionConfig} {deps : List (List Nat)} {base : List Effect} {p : Pipe H} {i : Nat}
    (h : p.served (natText i)) :
    .completed (natText i) ∈ p.ctx.log ∨ HeldBack actions deps base p.ctx.log i := by
  rcases h with (h | h) | ⟨e, _, _, h⟩
  · exact .inl h
  · exact .inr (.failed h)
  · exact .inr (.out ⟨_, h⟩)

theorem fateKnown_lifts (actions : List ActionConfig) (deps : List (List Nat)) :
    Lifts o (Holds (Explains actions deps) (fun _ => ((True ∧ True) ∧ True) ∧ True)) (FateKnown actions deps) := by
  refine (explains_extra actions deps).lifts ?_ ?_ ?_ ?_ ?_
  · intro p hl hx hl' hf hend i hi
    have hx' : Explains actions deps (p.evalPipe o) [] := by
      rcases (explains_extra actions deps).toWithin.evalPipe p hl hx with h | h
      · exact h.2
      · exact absurd h.1.ended hend
    obtain ⟨⟨⟨_, hfl⟩, htk⟩, howed⟩ := hx'
    rcases passed_evalPipe (o := o) hl hx.1.1.1 with ⟨_, hp⟩ | h
    · rcases (howed i hi).has hf (by simp) with h | ⟨t, ht, hid, _⟩
      · exact served_explained h
      · rw [List.append_nil] at ht
        right
        have hq : (∀ e ∈ (p.evalPipe o).deferred, InFlightFor (p.evalPipe o).ctx.log e.1 e.2.id) := by
          rcases hfl.has hf with h | ⟨h, _⟩
          · exact h
          · rw [List.append_nil] at h
            rw [h] at ht; simp at ht
        refine stuck_heldBack (hp.stays hf) (fun j h => .waits h) ?_ ?_ t ht i hid
        · rintro j (h | ⟨e, he, h⟩)
          · exact .failed h
          · refine .out ⟨e.1, ?_⟩
            rw [← h]
            exact hq e he
        · intro u hu d hd
          have hu' : u ∈ (p.evalPipe o).tasks [] := by simp [Pipe.tasks, hu]
          have := (htk u hu').here (hl'.queueW u (by simpa using hu)) d (by rw [strip_deps]; exact hd)
          rw [strip_id] at this
          exact this
    · exact absurd h.ended hend
  · intro base log h _ hend
    exact absurd h hend
  · intro p hl hx hq hd hf hend i hi
    rcases (hx.2 i hi).has hf (by simp) with h | ⟨t, ht, _⟩
    · exact served_explained h
    · rw [hq] at ht; simp at ht
  · intro base log e h he hf hend i hi
    rcases h (Fresh.prefix hf) (fun h => hend (List.mem_append_left _ h)) i hi with h | h
    · exact .inl (List.mem_append_left _ h)
    · exact .inr (heldBack_mono (fun x h => List.mem_append_left _ h) (fun x h => callOut_push h he)
        (fun x h => waitsNow_push h he) h)
  · intro base mid log h hf hend i hi
    rcases h hf hend i hi with h | h
    · exact .inl h
    · exact .inr (heldBack_mono (fun _ h => h) (fun _ h => h) (fun _ h => waitsNow_before h) h)

end Verif
