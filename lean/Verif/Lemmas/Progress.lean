import Verif.Lemmas.Deps
import Verif.Lemmas.Waits
/-! Why a pipeline may still be in progress after a callback. -/
set_option linter.unusedSimpArgs false
namespace Verif
open Spec

variable {H : Type} {o : Oracle H}

/-- Each dependency of a task is fine or is the id of an earlier task of the list. -/
def Backed (ok : Text → Prop) : List PTask → Prop
  | [] => True
  | t :: ts => (∀ d ∈ t.deps, ok d) ∧ Backed (fun d => ok d ∨ d = t.id) ts

theorem Backed.mono {ok ok' : Text → Prop} (h : ∀ d, ok d → ok' d) {ts : List PTask} (hb : Backed ok ts) :
    Backed ok' ts := by
  induction ts generalizing ok ok' with
  | nil => trivial
  | cons t ts ih =>
    refine ⟨fun d hd => h d (hb.1 d hd), ih ?_ hb.2⟩
    rintro d (hd | hd)
    · exact .inl (h d hd)
    · exact .inr hd

theorem backed_append {ok : Text → Prop} {a b : List PTask} :
    Backed ok (a ++ b) ↔ Backed ok a ∧ Backed (fun d => ok d ∨ ∃ t ∈ a, t.id = d) b := by
  induction a generalizing ok with
  | nil =>
    simp [Backed]
  | cons t a ih =>
    simp only [List.cons_append, Backed, ih, and_assoc]
    refine and_congr_right fun _ => and_congr_right fun _ => ⟨Backed.mono ?_, Backed.mono ?_⟩
    · rintro d ((h | h) | ⟨x, hx, h⟩)
      · exact .inl h
      · exact .inr ⟨t, by simp, h.symm⟩
      · exact .inr ⟨x, by simp [hx], h⟩
    · rintro d (h | ⟨x, hx, h⟩)
      · exact .inl (.inl h)
      · rcases List.mem_cons.1 hx with rfl | hx
        · exact .inl (.inr h.symm)
        · exact .inr ⟨x, hx, h⟩

theorem backed_free {ok : Text → Prop} {ts : List PTask} (h : ∀ t ∈ ts, t.deps = []) : Backed ok ts := by
  induction ts generalizing ok with
  | nil => trivial
  | cons t ts ih => exact ⟨by simp [h t], ih fun x hx => h x (by simp [hx])⟩

/-- Completed, failed, or waiting for a response. -/
def Pipe.settledOrSent (p : Pipe H) (d : Text) : Prop :=
  d ∈ p.completed ∨ .failed d ∈ p.ctx.log ∨ ∃ e ∈ p.deferred, e.2.id = d

/-- Reply actions have no dependencies. -/
def kidsFree (k : Core) : Prop := ∀ c ∈ k.children, c.deps = []

theorem kidsFree_closed : Closed kidsFree where
  again k k' h ha := by
    cases ha with
    | same => exact h
    | store => simp [kidsFree, Core.children]
    | tokenUsage => simp [kidsFree, Core.children]
  sent := by intro id deps guard pred msg var svc r h; exact h
  noop := by simp [kidsFree, Core.children]

/-- No task waits for something that is neither done, sent, failed nor queued before it. -/
structure Placeable (p : Pipe H) (todo : List PTask) : Prop where
  kids : Tasks kidsFree p todo
  order : Fresh p.ctx.log → Backed p.settledOrSent (p.queue ++ todo)

theorem does_again {t : PTask} {out : Outcome} {es : List Effect} {ts : List PTask} (h : TDoes t out es)
    (hout : out = .requeued ts) (hw : t.strip.waits = false) :
    es = [] ∧ ∃ t', ts = [t'] ∧ t'.id = t.id ∧ t'.deps = t.deps := by
  induction h generalizing ts with
  | core h =>
    cases h with
    | again k k' ha hw =>
      simp only [Outcome.requeued.injEq] at hout
      subst hout
      refine ⟨rfl, _, rfl, ?_, ?_⟩ <;> cases ha <;> rfl
    | replied _ _ _ terminal => cases terminal <;> simp at hout
    | headers _ _ _ _ terminal => cases terminal <;> simp at hout
    | stored _ _ _ _ _ terminal => cases terminal <;> simp at hout
    | replies => simp [PTask.strip, Core.waits] at hw
    | _ => simp at hout
  | again h ih => exact ih hout hw
  | tracing h ih =>
    rename_i t out es
    cases out <;> simp only [Outcome.traced, Outcome.requeued.injEq, reduceCtorEq] at hout
    subst hout
    obtain ⟨h1, t', h2, h3, h4⟩ := ih rfl hw
    subst h2
    exact ⟨h1, _, rfl, h3, h4⟩
  | _ => simp at hout

theorem does_deferred {t t' : PTask} {es : List Effect} {tok : Nat} (h : TDoes t (.deferred tok t') es) :
    t'.id = t.id ∧ ∃ g svc b rid, es = [.dispatch t.id g tok svc b rid] := by
  rcases does_effects h with hl | ⟨g, tok', svc, b, rid, p', h1, h2, h3, _⟩
  · exfalso
    have : ∀ {t out es}, TDoes t out es → ∀ tok t', out = .deferred tok t' → ∃ e ∈ es, Effect.isLocal e = false := by
      intro t out es h
      induction h with
      | core h =>
        intro tok t' hout
        cases h with
        | sent => exact ⟨_, List.mem_singleton.2 rfl, rfl⟩
        | replied _ _ _ terminal => cases terminal <;> simp at hout
        | headers _ _ _ _ terminal => cases terminal <;> simp at hout
        | stored _ _ _ _ _ terminal => cases terminal <;> simp at hout
        | _ => simp at hout
      | sent h ih =>
        intro tok t' hout
        exact ih _ _ rfl
      | tracing h ih =>
        rename_i t out es
        intro tok t' hout
        cases out <;> simp only [Outcome.traced, Outcome.deferred.injEq, reduceCtorEq] at hout
        exact ih _ _ rfl
      | _ => simp
    obtain ⟨e, he, h2⟩ := this h _ _ rfl
    rw [hl e he] at h2
    simp at h2
  · cases h2
    exact ⟨h3, g, svc, b, rid, h1⟩

theorem settled_mono (p q : Pipe H) (hc : ∀ d ∈ p.completed, d ∈ q.completed)
    (hl : ∀ d, .failed d ∈ p.ctx.log → .failed d ∈ q.ctx.log)
    (hd : ∀ e ∈ p.deferred, e ∈ q.deferred) (d : Text) (h : p.settledOrSent d) : q.settledOrSent d := by
  rcases h with h | h | ⟨e, he, h⟩
  · exact .inl (hc d h)
  · exact .inr (.inl (hl d h))
  · exact .inr (.inr ⟨e, hd e he, h⟩)

/-- A fresh token is not that of a call in flight. -/
theorem fresh_token {p : Pipe H} {todo : List PTask} (hl : Live p todo) {mid : List Effect}
    (hm : ∀ e ∈ mid, e.neutral = true) {x : Text} {g : Bool} {tok : Nat} {svc b rid}
    (hf : Fresh (p.ctx.log ++ mid ++ [.dispatch x g tok svc b rid])) : tok ∉ p.deferred.map Prod.fst := by
  rw [Fresh, everywhere_snoc] at hf
  have hf1 : Fresh p.ctx.log := Fresh.prefix hf.1
  have hin : inFlight (p.ctx.log ++ mid) = inFlight p.ctx.log := inFlight_neutral _ hm
  have := hf.2 tok rfl
  rw [hin, ← hl.calls hf1, entry_fst] at this
  exact this

theorem eq_of_nodup_fst {m : List (Nat × PTask)} (h : (m.map Prod.fst).Nodup) {a b : Nat × PTask} (ha : a ∈ m)
    (hb : b ∈ m) (hab : a.1 = b.1) : a = b := by
  induction m with
  | nil => simp at ha
  | cons x m ih =>
    simp only [List.map_cons, List.nodup_cons] at h
    rcases List.mem_cons.1 ha with ha' | ha' <;> rcases List.mem_cons.1 hb with hb' | hb'
    · rw [ha', hb']
    · exact absurd (List.mem_map.2 ⟨b, hb', by rw [← hab, ha']⟩) h.1
    · exact absurd (List.mem_map.2 ⟨a, ha', by rw [hab, hb']⟩) h.1
    · exact ih h.2 ha' hb'

theorem keep_deferred {m : List (Nat × PTask)} {tok : Nat} {t : PTask} (h : tok ∉ m.map Prod.fst) :
    ∀ e ∈ m, e ∈ mapInsert m tok t := by
  intro e he
  rw [mapInsert_fresh _ _ _ h]
  exact List.mem_cons_of_mem _ he

/-- Each task has waited, or one of its dependencies is blocked or is an earlier task of the list. -/
def Stuck (w ok : Text → Prop) : List PTask → Prop
  | [] => True
  | t :: ts => (w t.id ∨ ∃ d ∈ t.deps, ok d) ∧ Stuck w (fun d => ok d ∨ d = t.id) ts

theorem Stuck.mono {w w' ok ok' : Text → Prop} (hw : ∀ x, w x → w' x) (h : ∀ d, ok d → ok' d) {ts : List PTask}
    (hb : Stuck w ok ts) : Stuck w' ok' ts := by
  induction ts generalizing ok ok' with
  | nil => trivial
  | cons t ts ih =>
    refine ⟨?_, ih ?_ hb.2⟩
    · rcases hb.1 with h1 | ⟨d, hd, h1⟩
      · exact .inl (hw _ h1)
      · exact .inr ⟨d, hd, h d h1⟩
    · rintro d (hd | hd)
      · exact .inl (h d hd)
      · exact .inr hd

theorem Stuck.snoc {w ok : Text → Prop} {ts : List PTask} {t : PTask} (hb : Stuck w ok ts)
    (h : w t.id ∨ ∃ d ∈ t.deps, ok d ∨ ∃ x ∈ ts, x.id = d) : Stuck w ok (ts ++ [t]) := by
  induction ts generalizing ok with
  | nil =>
    refine ⟨?_, trivial⟩
    rcases h with h | ⟨d, hd, h | ⟨x, hx, _⟩⟩
    · exact .inl h
    · exact .inr ⟨d, hd, h⟩
    · simp at hx
  | cons y ts ih =>
    refine ⟨hb.1, ih hb.2 ?_⟩
    rcases h with h | ⟨d, hd, h | ⟨x, hx, h⟩⟩
    · exact .inl h
    · exact .inr ⟨d, hd, .inl (.inl h)⟩
    · rcases List.mem_cons.1 hx with rfl | hx
      · exact .inr ⟨d, hd, .inl (.inr h.symm)⟩
      · exact .inr ⟨d, hd, .inr ⟨x, hx, h⟩⟩

theorem Spec.WaitedIn.append {new es : List Effect} {x : Text} (h : WaitedIn new x)
    (hes : ∀ e rest, es = e :: rest → byAction e = false) : WaitedIn (new ++ es) x := by
  obtain ⟨pre, post, rfl, hp⟩ := h
  refine ⟨pre, post ++ es, by simp, ?_⟩
  intro e rest he
  cases post with
  | nil => exact hes e rest he
  | cons y post =>
    simp only [List.cons_append, List.cons.injEq] at he
    obtain ⟨rfl, _⟩ := he
    exact hp y post rfl

theorem Spec.WaitedIn.before {new es : List Effect} {x : Text} (h : WaitedIn new x) : WaitedIn (es ++ new) x := by
  obtain ⟨pre, post, rfl, hp⟩ := h
  exact ⟨es ++ pre, post, by simp, hp⟩

/-- The action had to wait in the part of the history after `base`. -/
def WaitedSince (base log : List Effect) (x : Text) : Prop := ∃ new, log = base ++ new ∧ WaitedIn new x

theorem WaitedSince.append {base log es : List Effect} {x : Text} (h : WaitedSince base log x)
    (hes : ∀ e rest, es = e :: rest → byAction e = false) : WaitedSince base (log ++ es) x := by
  obtain ⟨new, rfl, h⟩ := h
  exact ⟨new ++ es, by simp, h.append hes⟩

theorem WaitedSince.before {base mid log : List Effect} {x : Text} (h : WaitedSince (base ++ mid) log x) :
    WaitedSince base log x := by
  obtain ⟨new, rfl, h⟩ := h
  exact ⟨mid ++ new, by simp, h.before⟩

/-- What the pass over the queue did so far. -/
structure Passed (base : List Effect) (p : Pipe H) : Prop where
  log : base <+: p.ctx.log
  stays : Fresh p.ctx.log → Stuck (WaitedSince base p.ctx.log)
    (fun d => .failed d ∈ p.ctx.log ∨ ∃ e ∈ p.deferred, e.2.id = d) p.queue

/-- The action just started, followed by its effects. -/
theorem applied_head {x : Text} {es : List Effect} : ∀ e rest, [Effect.applied x] ++ es = e :: rest →
    byAction e = false := by
  intro e rest h
  simp only [List.cons_append, List.nil_append, List.cons.injEq] at h
  rw [← h.1]; rfl

theorem passed_skip {base : List Effect} {p : Pipe H} {t : PTask} {ts : List PTask} (hp : Placeable p (t :: ts))
    (h : Passed base p) (hd : ∃ d ∈ t.deps, d ∉ p.completed) :
    Passed base { p with queue := p.queue ++ [t] } where
  log := h.log
  stays hf := by
    refine (h.stays hf).snoc (.inr ?_)
    obtain ⟨d, hd, hn⟩ := hd
    refine ⟨d, hd, ?_⟩
    have := (backed_append.1 (hp.order hf)).2.1 d hd
    rcases this with (h | h | h) | h
    · exact absurd h hn
    · exact .inl (.inl h)
    · exact .inl (.inr h)
    · exact .inr h

theorem passed_go {base : List Effect} {p : Pipe H} {t : PTask} {ts : List PTask} {out : Outcome} {c : Ctx H}
    {es : List Effect} (hl : Live p (t :: ts)) (h : Passed base p) (hs : out.stops = false)
    (hlog : c.log = p.ctx.log ++ [.applied t.id] ++ es) (hdo : TDoes t out es) :
    Passed base (Pipe.after { p with ctx := c } t.id out) := by
  have hw : t.strip.waits = false := hl.queueW t (by simp)
  have key : ∀ (q : Pipe H) fs, q.ctx.log = p.ctx.log ++ ([.applied t.id] ++ fs) → q.queue = p.queue →
      (Fresh q.ctx.log → ∀ e ∈ p.deferred, e ∈ q.deferred) → Passed base q := by
    intro q fs hq hqq hd
    refine ⟨h.log.trans (by rw [hq]; exact List.prefix_append _ _), fun hf => ?_⟩
    rw [hqq]
    have hf0 : Fresh p.ctx.log := by rw [hq] at hf; exact hf.prefix
    refine (h.stays hf0).mono ?_ ?_
    · intro x hx
      rw [hq]
      exact hx.append applied_head
    · rintro d (hd' | ⟨e, he, hd'⟩)
      · exact .inl (by rw [hq]; exact List.mem_append_left _ hd')
      · exact .inr ⟨e, hd hf e he, hd'⟩
  cases out with
  | done => exact key _ (es ++ [.completed t.id]) (by simp [Pipe.after, Pipe.complete, Pipe.push, Ctx.push, hlog]) rfl (fun _ e he => he)
  | failed => exact key _ (es ++ [.failed t.id]) (by simp [Pipe.after, Pipe.push, Ctx.push, hlog]) rfl (fun _ e he => he)
  | deferred tok t' =>
    refine key _ es (by simp [Pipe.after, Pipe.defer, hlog]) rfl ?_
    intro hf
    obtain ⟨_, g, svc, b, rid, rfl⟩ := does_deferred hdo
    have hf' : Fresh (p.ctx.log ++ [.applied t.id] ++ [.dispatch t.id g tok svc b rid]) := by
      rw [← hlog]; exact hf
    exact keep_deferred (fresh_token hl (by simp [Effect.neutral]) hf')
  | requeued new =>
    obtain ⟨rfl, t', rfl, h2, h3⟩ := does_again hdo rfl hw
    have hlog' : c.log = p.ctx.log ++ ([.applied t.id] ++ []) := by simpa using hlog
    have h0 := key { p with ctx := c } [] hlog' rfl (fun _ e he => he)
    refine ⟨h0.log, fun hf => (h0.stays hf).snoc (.inl ?_)⟩
    obtain ⟨mid, hm⟩ := h.log
    refine ⟨mid ++ [.applied t.id], ?_, mid, [], by rw [h2], by simp⟩
    show c.log = _
    rw [hlog', ← hm]; simp
  | terminate => simp [Outcome.stops] at hs

/-- Changes that keep the tasks. -/
theorem Placeable.same {p q : Pipe H} {todo : List PTask} (h : Placeable p todo) {es : List Effect}
    (hlog : q.ctx.log = p.ctx.log ++ es) (hq : q.queue = p.queue) (hd : q.deferred = p.deferred)
    (hc : q.completed = p.completed) : Placeable q todo where
  kids := by
    intro t ht
    refine h.kids t ?_
    simpa [Pipe.tasks, hq, hd] using ht
  order hf := by
    rw [hq]
    have hf0 : Fresh p.ctx.log := by rw [hlog] at hf; exact hf.prefix
    refine (h.order hf0).mono (settled_mono p q ?_ ?_ ?_)
    · rw [hc]; exact fun _ h => h
    · intro d h; rw [hlog]; exact List.mem_append_left _ h
    · rw [hd]; exact fun _ h => h

theorem placeable_extra : Extra o (fun (p : Pipe H) todo => Placeable p todo) (fun _ => True) (fun _ => True) where
  opens p hl h := by
    refine ⟨(tasks_extra (o := o) kidsFree_closed).opens p hl h.kids, fun hf => ?_⟩
    have := h.order hf
    rw [List.append_nil] at this
    exact this
  skip p t ts hl h hd := by
    refine ⟨(tasks_extra (o := o) kidsFree_closed).skip p t ts hl h.kids hd, fun hf => ?_⟩
    have := h.order hf
    rw [List.append_cons] at this
    exact this
  go p t ts out c es hl h hd ha hs hlog hdo := by
    refine ⟨(tasks_extra (o := o) kidsFree_closed).go p t ts out c es hl h.kids hd ha hs hlog hdo, ?_⟩
    have hw : t.strip.waits = false := hl.queueW t (by simp)
    intro hf
    have hsub : ∃ fs, (Pipe.after { p with ctx := c } t.id out).ctx.log = p.ctx.log ++ ([.applied t.id] ++ fs) := by
      cases out with
      | done => exact ⟨es ++ [.completed t.id], by simp [Pipe.after, Pipe.complete, Pipe.push, Ctx.push, hlog]⟩
      | failed => exact ⟨es ++ [.failed t.id], by simp [Pipe.after, Pipe.push, Ctx.push, hlog]⟩
      | deferred => exact ⟨es, by simp [Pipe.after, Pipe.defer, hlog]⟩
      | requeued => exact ⟨es, by simp [Pipe.after, hlog]⟩
      | terminate => simp [Outcome.stops] at hs
    obtain ⟨fs, hfs⟩ := hsub
    have hf0 : Fresh p.ctx.log := by rw [hfs] at hf; exact hf.prefix
    obtain ⟨h1, h2, h3⟩ := backed_append.1 (h.order hf0)
    have hold : ∀ d, .failed d ∈ p.ctx.log → .failed d ∈ (Pipe.after { p with ctx := c } t.id out).ctx.log := by
      intro d hd; rw [hfs]; exact List.mem_append_left _ hd
    have key : (∀ d, p.settledOrSent d → (Pipe.after { p with ctx := c } t.id out).settledOrSent d) →
        (Pipe.after { p with ctx := c } t.id out).settledOrSent t.id →
        (Pipe.after { p with ctx := c } t.id out).queue = p.queue →
        Backed (Pipe.after { p with ctx := c } t.id out).settledOrSent
          ((Pipe.after { p with ctx := c } t.id out).queue ++ ts) := by
      intro hm ht hq
      rw [hq, backed_append]
      refine ⟨h1.mono hm, h3.mono ?_⟩
      rintro d ((hd | hd) | rfl)
      · exact .inl (hm d hd)
      · exact .inr hd
      · exact .inl ht
    cases out with
    | done =>
      exact key (settled_mono p _ (fun _ h => List.mem_cons_of_mem _ h) hold (fun _ h => h))
        (.inl (List.mem_cons_self ..)) rfl
    | failed =>
      refine key (settled_mono p _ (fun _ h => h) hold (fun _ h => h)) (.inr (.inl ?_)) rfl
      exact List.mem_append_right _ (List.mem_singleton.2 rfl)
    | deferred tok t' =>
      obtain ⟨hid, g, svc, b, rid, rfl⟩ := does_deferred hdo
      have hf' : Fresh (p.ctx.log ++ [.applied t.id] ++ [.dispatch t.id g tok svc b rid]) := by
        rw [← hlog]; exact hf
      refine key (settled_mono p _ (fun _ h => h) hold
        (keep_deferred (fresh_token hl (by simp [Effect.neutral]) hf'))) (.inr (.inr ⟨(tok, t'), ?_, hid⟩)) rfl
      exact List.mem_cons_self ..
    | requeued new =>
      obtain ⟨rfl, t', rfl, hid, hdeps⟩ := does_again hdo rfl hw
      have hm : ∀ d, p.settledOrSent d → (Pipe.after { p with ctx := c } t.id (.requeued [t'])).settledOrSent d :=
        settled_mono p _ (fun _ h => h) hold (fun _ h => h)
      show Backed _ (p.queue ++ [t'] ++ ts)
      rw [List.append_assoc, backed_append]
      refine ⟨h1.mono hm, ?_, h3.mono ?_⟩
      · intro d hd'
        rw [hdeps] at hd'
        rcases h2 d hd' with h | h
        · exact .inl (hm d h)
        · exact .inr h
      · rw [hid]
        rintro d ((hd | hd) | hd)
        · exact .inl (.inl (hm d hd))
        · exact .inl (.inr hd)
        · exact .inr hd
    | terminate => simp [Outcome.stops] at hs
  stop _ _ _ _ _ _ _ _ _ _ _ _ := trivial
  tear p hl h hq hd := by
    refine ⟨(tasks_extra (o := o) kidsFree_closed).tear p hl h.kids hq hd, fun _ => ?_⟩
    rw [(tornDown (o := o) p).queue, hq]
    trivial
  bury _ _ _ := trivial
  late p token s z _ h _ := h.same (es := [.responded token s z]) rfl rfl rfl rfl
  answer p token s z t out c es hl h hg ha hs hlog hdo := by
    refine ⟨(tasks_extra (o := o) kidsFree_closed).answer p token s z t out c es hl h.kids hg ha hs hlog hdo, ?_⟩
    intro hf
    have hmem := mapGet_mem hg
    have hw : t.strip.waits = true := hl.deferW _ hmem
    have hsub : ∃ fs, (Pipe.replied { p.answering token s z with ctx := c } t.id out).ctx.log = p.ctx.log ++ fs := by
      cases out with
      | done => exact ⟨_, by simp only [Pipe.replied, Pipe.complete, Pipe.push, Ctx.push, hlog, List.append_assoc]; rfl⟩
      | failed => exact ⟨_, by simp only [Pipe.replied, Pipe.push, Ctx.push, hlog, List.append_assoc]; rfl⟩
      | deferred => exact ⟨_, by simp only [Pipe.replied, Pipe.defer, hlog, List.append_assoc]; rfl⟩
      | requeued => exact ⟨_, by simp only [Pipe.replied, Pipe.complete, Pipe.push, Ctx.push, hlog, List.append_assoc]; rfl⟩
      | terminate => simp [Outcome.stops] at hs
    obtain ⟨fs, hfs⟩ := hsub
    have hf0 : Fresh p.ctx.log := by rw [hfs] at hf; exact hf.prefix
    have h1 := h.order hf0
    simp only [List.append_nil] at h1
    have hold : ∀ d, .failed d ∈ p.ctx.log →
        .failed d ∈ (Pipe.replied { p.answering token s z with ctx := c } t.id out).ctx.log := by
      intro d hd; rw [hfs]; exact List.mem_append_left _ hd
    -- only this call leaves the table
    have hnd : (p.deferred.map Prod.fst).Nodup := by
      have := fresh_nodup _ hf0
      rwa [← hl.calls hf0, entry_fst] at this
    have hrest : ∀ e ∈ p.deferred, e.2.id = t.id ∨ e ∈ (p.answering token s z).deferred := by
      intro e he
      by_cases htok : e.1 = token
      · left
        have : e = (token, t) := by
          refine eq_of_nodup_fst hnd he hmem htok
        rw [this]
      · right
        exact List.mem_filter.2 ⟨he, by simpa using htok⟩
    have key : ∀ q : Pipe H, (∀ d ∈ p.completed, d ∈ q.completed) →
        (∀ d, .failed d ∈ p.ctx.log → .failed d ∈ q.ctx.log) →
        q.deferred = (p.answering token s z).deferred → q.settledOrSent t.id →
        ∀ d, p.settledOrSent d → q.settledOrSent d := by
      intro q hc hl' hd ht d hd'
      rcases hd' with h | h | ⟨e, he, h⟩
      · exact .inl (hc d h)
      · exact .inr (.inl (hl' d h))
      · rcases hrest e he with h2 | h2
        · rw [← h, h2]; exact ht
        · exact .inr (.inr ⟨e, by rw [hd]; exact h2, h⟩)
    simp only [List.append_nil]
    cases out with
    | done =>
      exact h1.mono (key _ (fun _ h => List.mem_cons_of_mem _ h) hold rfl (.inl (List.mem_cons_self ..)))
    | failed =>
      refine h1.mono (key (Pipe.replied { p.answering token s z with ctx := c } t.id .failed) (fun _ h => h) hold rfl (.inr (.inl ?_)))
      exact List.mem_append_right _ (List.mem_singleton.2 rfl)
    | deferred tok t' =>
      exfalso
      rcases does_effects hdo with hl' | ⟨_, _, _, _, _, _, _, _, _, h4, _⟩
      · obtain ⟨_, g, svc, b, rid, rfl⟩ := does_deferred hdo
        simp [Effect.isLocal] at hl'
      · rw [hw] at h4; simp at h4
    | requeued ts =>
      have hm := key (Pipe.replied { p.answering token s z with ctx := c } t.id (.requeued ts))
        (fun _ h => List.mem_cons_of_mem _ h) hold rfl (.inl (List.mem_cons_self ..))
      show Backed _ (ts ++ p.queue)
      rw [backed_append]
      refine ⟨backed_free ?_, h1.mono fun d hd => .inl (hm d hd)⟩
      intro t' ht'
      rcases does_out hdo with h | ⟨_, _, _, h3⟩ | ⟨_, _, h3⟩
      · rw [show Outcome.tasks (.requeued ts) = ts from rfl] at h
        rw [h] at ht'; simp at ht'
      · rw [hw] at h3; simp at h3
      · rw [← strip_deps]
        exact (h.kids t (by
          simp only [Pipe.tasks, List.mem_append, List.mem_map]
          exact .inr ⟨_, hmem, rfl⟩)).here _ (h3 t' ht')
    | terminate => simp [Outcome.stops] at hs
  answerStop _ _ _ _ _ _ _ _ _ _ _ _ _ _ := trivial
  frame p c' _ h hf := by
    obtain ⟨es, h1, _⟩ := hf.log
    exact h.same h1 rfl rfl rfl
  frameD _ _ _ _ _ := trivial
  lateD _ _ _ _ _ _ _ := trivial
  answerD _ _ _ _ _ _ _ _ _ := trivial

/-- After an evaluation: every queued task had to wait or depends on something unfinished. -/
theorem passed_evalPipe {p : Pipe H} (hl : Live p []) (h : Placeable p []) :
    (Live (p.evalPipe o) [] ∧ Passed p.ctx.log (p.evalPipe o)) ∨ Dead (p.evalPipe o) := by
  have ho := placeable_extra (o := o)
  have := evalPipe_ind o (fun q ts => Live q ts ∧ Placeable q ts ∧ Passed p.ctx.log q)
    (fun q => Dying q) (fun q => Dead q)
    ?_ ?_ ?_ ?_ ?_ p ⟨live_opens hl, ho.opens p hl h, List.prefix_refl _, fun _ => trivial⟩
  · rcases this with h | h
    · exact .inl ⟨h.1, h.2.2⟩
    · exact .inr h
  · rintro q t ts ⟨hl, hx, hp⟩ hd
    exact ⟨live_skip q t ts hl, ho.skip q t ts hl hx hd, passed_skip hx hp hd⟩
  · rintro q t ts out c ⟨hl, hx, hp⟩ hd ha hs
    obtain ⟨es, hlog, hdo⟩ := apply_does o (q.ctx.push (.applied t.id)) t
    rw [ha] at hlog hdo
    exact ⟨live_go o q t ts out c hl ha hs, ho.go q t ts out c es hl hx hd ha hs hlog hdo,
      passed_go hl hp hs hlog hdo⟩
  · rintro q t ts t' c ⟨hl, hx, hp⟩ hd ha
    exact live_stop o q t ts t' c hl ha
  · exact dying_dead o
  · rintro q ⟨hl, hx, hp⟩ hq hd
    refine ⟨live_teardown o q hl hd, ho.tear q hl hx hq hd, ?_, ?_⟩
    · obtain ⟨es, h1, _⟩ := (tornDown (o := o) q).log
      rw [h1]
      exact hp.log.trans (List.prefix_append _ _)
    · intro _
      rw [(tornDown (o := o) q).queue, hq]
      trivial

/-- An unfinished pipeline without calls in flight. -/
theorem Passed.idle {base : List Effect} {p : Pipe H} (h : Passed base p) (hf : Fresh p.ctx.log)
    (hd : p.deferred = []) (hq : p.queue ≠ []) :
    (∃ x, .failed x ∈ p.ctx.log) ∨ ∃ x, WaitedSince base p.ctx.log x := by
  have := h.stays hf
  cases hc : p.queue with
  | nil => exact absurd hc hq
  | cons t ts =>
    rw [hc] at this
    rcases this.1 with h1 | ⟨d, _, h1 | ⟨e, he, _⟩⟩
    · exact .inr ⟨_, h1⟩
    · exact .inl ⟨d, h1⟩
    · rw [hd] at he; simp at he

/-- The states right after an evaluation in which the pipeline stays in progress. -/
structure Idles (base : List Effect) (q : Pipe H) : Prop where
  why : Fresh q.ctx.log → inFlight q.ctx.log = [] → (q.queue.isEmpty && q.deferred.isEmpty) = false →
    (∃ x, .failed x ∈ q.ctx.log) ∨ ∃ x, WaitedSince base q.ctx.log x

theorem idles_evalPipe {p : Pipe H} (h : Holds Placeable (fun _ => True) p) :
    Idles p.ctx.log (p.evalPipe o) := by
  constructor
  intro hf hin hne
  have hq : ∀ q : Pipe H, (q.queue.isEmpty && q.deferred.isEmpty) = false → q.deferred = [] → q.queue ≠ [] := by
    intro q h1 h2 h3
    simp [h2, h3] at h1
  have hdead : ∀ q : Pipe H, Dead q → Fresh q.ctx.log → inFlight q.ctx.log = [] →
      (q.queue.isEmpty && q.deferred.isEmpty) = false → False := by
    intro q hd hf hin hne
    have := hd.tokens hf
    rw [hin] at this
    have hd' : q.deferred = [] := by simpa using this
    exact hq q hne hd' hd.queue
  rcases h with ⟨hl, hp⟩ | ⟨hd, _⟩
  · rcases passed_evalPipe (o := o) hl hp with ⟨hl', hp'⟩ | hd
    · have hd : (p.evalPipe o).deferred = [] := by
        have := hl'.calls hf
        rw [hin] at this
        simpa using this
      exact hp'.idle hf hd (hq _ hne hd)
    · exact absurd hne fun hne => hdead _ hd hf hin hne
  · rw [dead_evalPipe o p hd] at hf hin hne
    exact (hdead _ hd hf hin hne).elim

theorem Idles.before {base mid : List Effect} {q : Pipe H} (h : Idles (base ++ mid) q) : Idles base q where
  why hf hin hne := by
    rcases h.why hf hin hne with h | ⟨x, h⟩
    · exact .inl h
    · exact .inr ⟨x, h.before⟩

theorem idles_digestPipe {p : Pipe H} (h : Holds Placeable (fun _ => True) p) (token s z : Nat) :
    Idles p.ctx.log (p.digestPipe o token s z) := by
  have ho := placeable_extra (o := o) (H := H)
  rcases h with ⟨hl, hx⟩ | ⟨hd, _⟩
  · refine digestPipe_ind o (fun q => Holds Placeable (fun _ => True) q ∧ p.ctx.log <+: q.ctx.log)
      (Idles p.ctx.log) p token s z hl.slot ?_ ?_ ?_ ?_
    · intro hg
      exact ⟨.inl ⟨live_late p token s z hl hg, ho.late p token s z hl hx hg⟩, List.prefix_append _ _⟩
    · intro t out c hg ha hs
      obtain ⟨es, hlog, hdo⟩ := apply_does o (p.answering token s z).ctx t
      rw [ha] at hlog hdo
      refine ⟨.inl ⟨live_answer o p token s z hl t hg out c ha hs,
        ho.answer p token s z t out c es hl hx hg ha hs hlog hdo⟩, ?_⟩
      have hc : p.ctx.log <+: c.log := by
        rw [hlog]
        show p.ctx.log <+: p.ctx.log ++ [_] ++ es
        rw [List.append_assoc]
        exact List.prefix_append _ _
      cases out with
      | done => exact hc.trans (List.prefix_append _ _)
      | failed => exact hc.trans (List.prefix_append _ _)
      | requeued => exact hc.trans (List.prefix_append _ _)
      | deferred => exact hc
      | terminate => simp [Outcome.stops] at hs
    · intro t t' c hg ha
      have hdead := dying_dead o _ (live_answerStop o p token s z hl t hg t' c ha)
      constructor
      intro hf hin hne
      rw [dead_evalPipe o _ hdead] at hf hin hne
      have := hdead.tokens hf
      rw [hin] at this
      have hd' := hdead.queue
      simp_all
    · rintro q ⟨hq, mid, hm⟩
      have := idles_evalPipe (o := o) hq
      rw [← hm] at this
      exact this.before
  · constructor
    intro hf hin hne
    have hdead := (dead_digestPipe o p token s z hd).1
    have := hdead.tokens hf
    rw [hin] at this
    have hd' := hdead.queue
    simp_all

/-- `Idles` for the filter. -/
structure Stays (base : List Effect) (f : Filter H) : Prop where
  why : Fresh f.log → inFlight f.log = [] → f.pipeline.isSome = true →
    (∃ x, .failed x ∈ f.log) ∨ ∃ x, WaitedSince base f.log x

theorem stays_store {base : List Effect} {q : Pipe H} (h : Idles base q) (f : Filter H) :
    Stays base (f.store q.state) where
  why hf hin hs := by
    rw [store_log] at hf hin ⊢
    refine h.why hf hin ?_
    unfold Pipe.state at hs
    split at hs
    · simp [Filter.store] at hs
    · rename_i hn; simpa using hn

theorem stays_push {base : List Effect} {f : Filter H} (h : Stays base f) {e : Effect} (he : e.isFilter = true) :
    Stays base (f.push e) where
  why hf hin hs := by
    have hin' : inFlight f.log = [] := by
      rw [← hin]
      exact (inFlight_neutral _ (by simpa using isFilter_neutral he)).symm
    rcases h.why (Fresh.prefix hf) hin' hs with ⟨x, h⟩ | ⟨x, h⟩
    · exact .inl ⟨x, List.mem_append_left _ h⟩
    · refine .inr ⟨x, h.append ?_⟩
      intro y rest hy
      simp only [List.cons.injEq] at hy
      obtain ⟨rfl, _⟩ := hy
      cases e <;> simp_all [Effect.isFilter, byAction]

theorem stays_none {base : List Effect} {f : Filter H} (h : f.pipeline = none) : Stays base f where
  why _ _ hs := by simp [h] at hs

theorem stays_of {base : List Effect} {f g : Filter H} (h : Stays base f) (hp : g.pipeline = f.pipeline)
    (hl : g.log = f.log) : Stays base g where
  why hf hin hs := by rw [hl] at *; rw [hp] at hs; exact h.why hf hin hs

theorem stays_evalWith {f : Filter H} (h : Ghost (Holds Placeable (fun _ => True)) f) (host : H)
    {update : Ctx H → Ctx H} (hu : Harmless update) : Stays f.log (f.evalWith o host update) := by
  have ho := placeable_extra (o := o) (H := H)
  cases h with
  | running q hp h =>
    rw [evalWith_some f host update q hp]
    have := idles_evalPipe (o := o) (entered_frame ho.stable f host hu q h)
    rw [entered_log f host hu] at this
    exact stays_store this f
  | finished g hp hq hd hl h =>
    rw [evalWith_none f host update hp]
    exact stays_none hp

theorem stays_before {base mid : List Effect} {f : Filter H} (h : Stays (base ++ mid) f) : Stays base f where
  why hf hin hs := by
    rcases h.why hf hin hs with h | ⟨x, h⟩
    · exact .inl h
    · exact .inr ⟨x, h.before⟩

theorem stays_step {f : Filter H} (h : Ghost (Holds Placeable (fun _ => True)) f) (e : Event H)
    (hc : f.crashed = false) : Stays f.log (f.step o e) := by
  have ho := placeable_extra (o := o) (H := H)
  unfold Filter.step
  rw [if_neg (by simp [hc])]
  cases e with
  | requestBody host size eos => exact stays_push (stays_evalWith h host (harmless_req _ _)) rfl
  | responseHeaders host =>
    refine stays_push ?_ rfl
    refine stays_before (mid := [.allowed]) ?_
    exact stays_evalWith (f := { f.push .allowed with inResponse := true })
      (ghost_of_pipeline (ghost_push ho.stable h (e := .allowed) rfl) rfl rfl) host harmless_id
  | responseBody host size eos =>
    have h1 := stays_evalWith (o := o) h host (harmless_resp size eos)
    simp only [Filter.onResponseBody]
    split
    · exact stays_push h1 rfl
    · split
      · exact stays_of (stays_push h1 (e := .returned (.responseBody eos) true) rfl) rfl rfl
      · exact stays_push h1 rfl
  | grpcResponse host token s z =>
    cases h with
    | running q hp h =>
      dsimp only
      rw [onGrpcResponse_some f host token s z q hp]
      have h1 := idles_digestPipe (o := o) (entered_frame ho.stable f host harmless_id q h) token s z
      rw [entered_log f host harmless_id] at h1
      have h2 := stays_store h1 f
      split
      · unfold Filter.resume
        refine stays_push h2 ?_
        split <;> rfl
      · exact h2
    | finished g hp hq hd hl h =>
      dsimp only
      unfold Filter.onGrpcResponse
      rw [hp]
      exact stays_none hp

/-- The dependencies of a task come from its action. -/
theorem made_deps {a : Action} {k : Core} (h : Made a k) : ∀ d ∈ k.deps, d ∈ a.head.deps := by
  cases h <;> simp [Core.deps, Action.head]

theorem top_deps {a : Action} {ts : List PTask} (h : Top a ts) :
    (∀ t ∈ ts, ∀ d ∈ t.deps, d ∈ a.head.deps) ∧ ∃ t ∈ ts, t.id = a.head.id := by
  cases h with
  | call head kind svc deny var msg acts k pre w hk hp =>
    have h1 := made_deps hk
    have hid : k.id = head.id := hk.id
    constructor
    · intro t ht
      rcases List.mem_append.1 ht with ht | ht
      · rcases hp with rfl | ⟨fields, rfl⟩
        · simp at ht
        · simp only [List.mem_singleton] at ht
          subst ht
          simp [PTask.deps, Core.deps]
      · simp only [List.mem_singleton] at ht
        subst ht
        cases w <;> exact h1
    · refine ⟨_, List.mem_append_right _ (List.mem_singleton.2 rfl), ?_⟩
      cases w <;> exact hid
  | other _ k hk _ =>
    refine ⟨?_, _, List.mem_singleton.2 rfl, hk.id⟩
    intro t ht
    simp only [List.mem_singleton] at ht
    subst ht
    exact made_deps hk

theorem tops_backed {ok : Text → Prop} {as : List Action} {ts : List PTask} (h : Tops as ts)
    (hd : ∀ (i : Nat) a, as[i]? = some a → ∀ d ∈ a.head.deps,
      ok d ∨ ∃ j b, j < i ∧ as[j]? = some b ∧ b.head.id = d) : Backed ok ts := by
  induction h generalizing ok with
  | nil => trivial
  | cons a as ts ts' h hs ih =>
    obtain ⟨h1, x, hx, hid⟩ := top_deps h
    have h0 : ∀ d ∈ a.head.deps, ok d := by
      intro d hm
      rcases hd 0 a rfl d hm with h | ⟨j, _, hj, _⟩
      · exact h
      · omega
    rw [backed_append]
    constructor
    · clear ih hs hx h
      induction ts generalizing ok with
      | nil => trivial
      | cons t ts ih2 =>
        refine ⟨fun d hm => h0 d (h1 t (by simp) d hm), ?_⟩
        have hsub : ∀ (us : List PTask) (ok : Text → Prop), (∀ d ∈ a.head.deps, ok d) →
            (∀ t ∈ us, ∀ d ∈ t.deps, d ∈ a.head.deps) → Backed ok us := by
          intro us
          induction us with
          | nil => intros; trivial
          | cons u us ih3 =>
            intro ok h0 h1
            exact ⟨fun d hm => h0 d (h1 u (by simp) d hm),
              ih3 _ (fun d hm => .inl (h0 d hm)) fun t ht => h1 t (by simp [ht])⟩
        exact hsub ts _ (fun d hm => .inl (h0 d hm)) fun t ht => h1 t (by simp [ht])
    · refine ih ?_
      intro i b hb d hm
      rcases hd (i + 1) b (by simpa using hb) d hm with h | ⟨j, c, hj, hc, hcd⟩
      · exact .inl (.inl h)
      · cases j with
        | zero =>
          simp at hc
          subst hc
          exact .inl (.inr ⟨x, hx, hid.trans hcd⟩)
        | succ j => exact .inr ⟨j, c, by omega, by simpa using hc, hcd⟩

theorem compiled_deps {parse : Text → Option Expr} {services : Text → Option SvcInst} {id : Text} {t : TypedAction}
    {x : Action} (h : Compiled parse services id t x) : x.head.deps = [] := by
  cases h <;> rfl

theorem fromSet_backed {parse : Text → Option Expr} {cfg : PluginConfig} {s : ActionSet} {b : Blueprint}
    {c : Ctx H} {p : Pipe H} (hb : Built c b p) (hfs : FromSet parse cfg s b) (ok : Text → Prop) :
    Backed ok p.queue := by
  obtain ⟨xs, hxs, hlen, hget⟩ := fromSet_get hfs
  refine tops_backed hb.tops ?_
  intro i a ha d hd
  rw [hxs] at ha ⊢
  by_cases hi : i < xs.length
  · obtain ⟨a', deps, t, y, h1, h2, hst, hco, heq⟩ := hget i hi
    rw [List.getElem?_append_left hi, List.getElem?_eq_getElem hi] at ha
    simp only [Option.some.injEq] at ha
    rw [← ha, heq, withDeps_deps] at hd
    simp only [computeDeps, List.getElem?_map, Option.map_eq_some_iff] at h2
    obtain ⟨ds, hds, rfl⟩ := h2
    obtain ⟨j, hj, rfl⟩ := List.mem_map.1 hd
    have hlt := dep_lt hds hj
    have hj' : j < xs.length := by omega
    obtain ⟨_, _, _, y', _, _, _, hco', heq'⟩ := hget j hj'
    refine .inr ⟨j, xs[j], hlt, ?_, ?_⟩
    · rw [List.getElem?_append_left hj', List.getElem?_eq_getElem hj']
    · rw [heq', withDeps_id, hco'.head_id]
  · rw [List.getElem?_append_right (by omega)] at ha
    obtain ⟨head, service, var, rfl, _, hdeps⟩ := devMode_shape (cfg := cfg) (by
      have := List.mem_of_getElem? ha
      simpa using this)
    simp [Action.head, hdeps] at hd

theorem fromSet_kidsFree {parse : Text → Option Expr} {cfg : PluginConfig} {s : ActionSet} {b : Blueprint}
    {c : Ctx H} {p : Pipe H} (hb : Built c b p) (hfs : FromSet parse cfg s b) : Tasks kidsFree p [] := by
  refine built_all' hb (R := fun y => ∀ head svc var msg acts, y = .grpc head svc var msg acts →
    ∀ a ∈ acts, a.head.deps = []) ?_ ?_ (by simp [kidsFree, Core.children])
  · refine set_all hfs ?_ ?_
    · intro i a deps ha hd t x hst hco
      have key : ∀ {id t x}, Compiled parse cfg.services id t x →
          Action.All (fun y => ∀ head svc var msg acts, y = .grpc head svc var msg acts →
            ∀ a ∈ acts, a.head.deps = []) x := by
        intro id t x h
        induction h with
        | grpc id h service var message onReply pred kind svc deny msg replies hp hs hm hl hseq hr ih =>
          have hkid : ∀ a ∈ replies, a.head.deps = [] := by
            intro a ha
            obtain ⟨i, hi, rfl⟩ := List.mem_iff_getElem.1 ha
            have hi' : i < onReply.length := by omega
            exact compiled_deps (hr i onReply[i] _ (by simp [hi']) (by simp [hi]))
          refine .mk _ ?_ ?_
          · intro head svc var msg acts heq a ha
            cases heq
            exact hkid a ha
          · intro head svc var msg acts heq b hb
            cases heq
            obtain ⟨i, hi, rfl⟩ := List.mem_iff_getElem.1 hb
            have hi' : i < onReply.length := by omega
            exact ih i onReply[i] _ (by simp [hi']) (by simp [hi])
        | _ => exact .mk _ (by simp) (by simp)
      refine Action.All.withDeps ?_ (key hco)
      intro hx head svc var msg acts heq
      cases x <;> simp only [Action.withDeps, Action.grpc.injEq, reduceCtorEq] at heq
      rw [← heq.2.2.2.2]
      exact hx _ _ _ _ _ rfl
    · refine dev_all ?_
      intro head service var _ _ head' svc var' msg acts heq
      cases heq
      simp
  · intro a k hr hm c hc
    cases hm with
    | call head kind svc deny var msg acts kids hid hk =>
      obtain ⟨b, hb, hz⟩ := zip_partner hid hc
      have h1 := made_deps (hk _ hz)
      have h2 := hr _ _ _ _ _ rfl b hb
      refine List.eq_nil_iff_forall_not_mem.2 fun d hd => ?_
      have := h1 d hd
      simp only [h2] at this
      simp at this
    | _ => simp [Core.children] at hc

theorem fromSet_placeable {parse : Text → Option Expr} {cfg : PluginConfig} {s : ActionSet} {b : Blueprint}
    {c : Ctx H} {p : Pipe H} (hb : Built c b p) (hfs : FromSet parse cfg s b) : Placeable (p.push .hits) [] where
  kids t ht := fromSet_kidsFree hb hfs t ht
  order _ := by
    rw [List.append_nil]
    exact fromSet_backed hb hfs _


theorem tops_queued {as : List Action} {ts : List PTask} (h : Tops as ts) : ∀ a ∈ as, ∃ t ∈ ts, t.id = a.head.id := by
  induction h with
  | nil => simp
  | cons a as ts ts' h hs ih =>
    intro x hx
    rcases List.mem_cons.1 hx with rfl | hx
    · obtain ⟨_, t, ht, hid⟩ := top_deps h
      exact ⟨t, List.mem_append_left _ ht, hid⟩
    · obtain ⟨t, ht, hid⟩ := ih x hx
      exact ⟨t, List.mem_append_right _ ht, hid⟩

/-- Every action of the set is queued at first. -/
theorem fromSet_queued {parse : Text → Option Expr} {cfg : PluginConfig} {s : ActionSet} {b : Blueprint}
    {c : Ctx H} {p : Pipe H} (hb : Built c b p) (hfs : FromSet parse cfg s b) {i : Nat}
    (hi : i < s.actions.length) : ∃ t ∈ p.queue, t.id = natText i := by
  obtain ⟨xs, hxs, hlen, hget⟩ := fromSet_get hfs
  have hi' : i < xs.length := by omega
  obtain ⟨_, _, _, y, _, _, _, hco, heq⟩ := hget i hi'
  obtain ⟨t, ht, hid⟩ := tops_queued hb.tops xs[i] (by rw [hxs]; exact List.mem_append_left _ (List.getElem_mem _))
  exact ⟨t, ht, by rw [hid, heq, withDeps_id, hco.head_id]⟩

/-- An action has a result, is queued, or waits for the response to its call. -/
structure Accounted (x : Text) (p : Pipe H) (todo : List PTask) : Prop where
  has : Fresh p.ctx.log → .completed x ∈ p.ctx.log ∨ .failed x ∈ p.ctx.log ∨
    (∃ t ∈ p.queue ++ todo, t.id = x) ∨ ∃ e ∈ p.deferred, e.2.id = x

theorem Accounted.same {x : Text} {p q : Pipe H} {todo : List PTask} (h : Accounted x p todo) {es : List Effect}
    (hlog : q.ctx.log = p.ctx.log ++ es) (hq : q.queue = p.queue) (hd : q.deferred = p.deferred) :
    Accounted x q todo where
  has hf := by
    have hf0 : Fresh p.ctx.log := by rw [hlog] at hf; exact hf.prefix
    rcases h.has hf0 with h | h | h | h
    · exact .inl (by rw [hlog]; exact List.mem_append_left _ h)
    · exact .inr (.inl (by rw [hlog]; exact List.mem_append_left _ h))
    · exact .inr (.inr (.inl (by rw [hq]; exact h)))
    · exact .inr (.inr (.inr (by rw [hd]; exact h)))

theorem accounted_extra (x : Text) : Extra o (fun (p : Pipe H) todo => Accounted x p todo) (fun _ => True)
    (fun _ => True) where
  opens p hl h := ⟨fun hf => by simpa using h.has hf⟩
  skip p t ts hl h hd := ⟨fun hf => by simpa using h.has hf⟩
  go p t ts out c es hl h hd ha hs hlog hdo := by
    constructor
    intro hf
    have hw : t.strip.waits = false := hl.queueW t (by simp)
    have hsub : ∃ fs, (Pipe.after { p with ctx := c } t.id out).ctx.log = p.ctx.log ++ ([.applied t.id] ++ fs) := by
      cases out with
      | done => exact ⟨es ++ [.completed t.id], by simp [Pipe.after, Pipe.complete, Pipe.push, Ctx.push, hlog]⟩
      | failed => exact ⟨es ++ [.failed t.id], by simp [Pipe.after, Pipe.push, Ctx.push, hlog]⟩
      | deferred => exact ⟨es, by simp [Pipe.after, Pipe.defer, hlog]⟩
      | requeued => exact ⟨es, by simp [Pipe.after, hlog]⟩
      | terminate => simp [Outcome.stops] at hs
    obtain ⟨fs, hfs⟩ := hsub
    have hf0 : Fresh p.ctx.log := by rw [hfs] at hf; exact hf.prefix
    have hold : ∀ e, e ∈ p.ctx.log → e ∈ (Pipe.after { p with ctx := c } t.id out).ctx.log := by
      intro e he; rw [hfs]; exact List.mem_append_left _ he
    rcases h.has hf0 with h | h | ⟨u, hu, hux⟩ | ⟨e, he, h⟩
    · exact .inl (hold _ h)
    · exact .inr (.inl (hold _ h))
    · simp only [List.mem_append, List.mem_cons] at hu
      rcases hu with hu | rfl | hu
      · refine .inr (.inr (.inl ⟨u, List.mem_append_left _ ?_, hux⟩))
        cases out with
        | requeued => exact List.mem_append_left _ hu
        | terminate => simp [Outcome.stops] at hs
        | _ => exact hu
      · cases out with
        | done => exact .inl (List.mem_append_right _ (by rw [hux]; exact List.mem_singleton.2 rfl))
        | failed => exact .inr (.inl (List.mem_append_right _ (by rw [hux]; exact List.mem_singleton.2 rfl)))
        | requeued new =>
          obtain ⟨rfl, t', rfl, hid, hdeps⟩ := does_again hdo rfl hw
          refine .inr (.inr (.inl ⟨t', List.mem_append_left _ ?_, hid.trans hux⟩))
          exact List.mem_append_right _ (List.mem_singleton.2 rfl)
        | deferred tok t' =>
          obtain ⟨hid, _⟩ := does_deferred hdo
          exact .inr (.inr (.inr ⟨(tok, t'), List.mem_cons_self .., hid.trans hux⟩))
        | terminate => simp [Outcome.stops] at hs
      · exact .inr (.inr (.inl ⟨u, List.mem_append_right _ hu, hux⟩))
    · refine .inr (.inr (.inr ⟨e, ?_, h⟩))
      cases out with
      | deferred tok t' =>
        obtain ⟨hid, g, svc, b, rid, rfl⟩ := does_deferred hdo
        have hf' : Fresh (p.ctx.log ++ [.applied t.id] ++ [.dispatch t.id g tok svc b rid]) := by
          rw [← hlog]; exact hf
        exact keep_deferred (fresh_token hl (by simp [Effect.neutral]) hf') e he
      | terminate => simp [Outcome.stops] at hs
      | _ => exact he
  stop _ _ _ _ _ _ _ _ _ _ _ _ := trivial
  tear p hl h hq hd := by
    constructor
    intro hf
    obtain ⟨es, h1, _⟩ := (tornDown (o := o) p).log
    have hf0 : Fresh p.ctx.log := by rw [h1] at hf; exact hf.prefix
    rcases h.has hf0 with h | h | ⟨u, hu, h⟩ | ⟨e, he, h⟩
    · exact .inl (by rw [h1]; exact List.mem_append_left _ h)
    · exact .inr (.inl (by rw [h1]; exact List.mem_append_left _ h))
    · rw [hq] at hu; simp at hu
    · rw [hd] at he; simp at he
  bury _ _ _ := trivial
  late p token s z _ h _ := h.same (es := [.responded token s z]) rfl rfl rfl
  answer p token s z t out c es hl h hg ha hs hlog hdo := by
    constructor
    intro hf
    have hmem := mapGet_mem hg
    have hw : t.strip.waits = true := hl.deferW _ hmem
    have hsub : ∃ fs, (Pipe.replied { p.answering token s z with ctx := c } t.id out).ctx.log = p.ctx.log ++ fs := by
      cases out with
      | done => exact ⟨_, by simp only [Pipe.replied, Pipe.complete, Pipe.push, Ctx.push, hlog, List.append_assoc]; rfl⟩
      | failed => exact ⟨_, by simp only [Pipe.replied, Pipe.push, Ctx.push, hlog, List.append_assoc]; rfl⟩
      | deferred => exact ⟨_, by simp only [Pipe.replied, Pipe.defer, hlog, List.append_assoc]; rfl⟩
      | requeued => exact ⟨_, by simp only [Pipe.replied, Pipe.complete, Pipe.push, Ctx.push, hlog, List.append_assoc]; rfl⟩
      | terminate => simp [Outcome.stops] at hs
    obtain ⟨fs, hfs⟩ := hsub
    have hf0 : Fresh p.ctx.log := by rw [hfs] at hf; exact hf.prefix
    have hold : ∀ e, e ∈ p.ctx.log →
        e ∈ (Pipe.replied { p.answering token s z with ctx := c } t.id out).ctx.log := by
      intro e he; rw [hfs]; exact List.mem_append_left _ he
    have hnd : (p.deferred.map Prod.fst).Nodup := by
      have := fresh_nodup _ hf0
      rwa [← hl.calls hf0, entry_fst] at this
    have hout : out = .done ∨ out = .failed ∨ ∃ ts, out = .requeued ts := by
      cases out with
      | done => exact .inl rfl
      | failed => exact .inr (.inl rfl)
      | requeued ts => exact .inr (.inr ⟨ts, rfl⟩)
      | terminate => simp [Outcome.stops] at hs
      | deferred tok t' =>
        exfalso
        rcases does_effects hdo with hl' | ⟨_, _, _, _, _, _, _, _, _, h4, _⟩
        · obtain ⟨_, g, svc, b, rid, rfl⟩ := does_deferred hdo
          simp [Effect.isLocal] at hl'
        · rw [hw] at h4; simp at h4
    have hres : .completed t.id ∈ (Pipe.replied { p.answering token s z with ctx := c } t.id out).ctx.log ∨
        .failed t.id ∈ (Pipe.replied { p.answering token s z with ctx := c } t.id out).ctx.log := by
      rcases hout with rfl | rfl | ⟨ts, rfl⟩
      · exact .inl (List.mem_append_right _ (List.mem_singleton.2 rfl))
      · exact .inr (List.mem_append_right _ (List.mem_singleton.2 rfl))
      · exact .inl (List.mem_append_right _ (List.mem_singleton.2 rfl))
    rcases h.has hf0 with h | h | ⟨u, hu, h⟩ | ⟨e, he, h⟩
    · exact .inl (hold _ h)
    · exact .inr (.inl (hold _ h))
    · refine .inr (.inr (.inl ⟨u, ?_, h⟩))
      rw [List.append_nil] at hu ⊢
      rcases hout with rfl | rfl | ⟨ts, rfl⟩
      · exact hu
      · exact hu
      · exact List.mem_append_right _ hu
    · by_cases htok : e.1 = token
      · have : e = (token, t) := eq_of_nodup_fst hnd he hmem htok
        have hx : t.id = x := by rw [← h, this]
        rcases hres with h | h
        · exact .inl (by rw [← hx]; exact h)
        · exact .inr (.inl (by rw [← hx]; exact h))
      · refine .inr (.inr (.inr ⟨e, ?_, h⟩))
        have : e ∈ (p.answering token s z).deferred := List.mem_filter.2 ⟨he, by simpa using htok⟩
        rcases hout with rfl | rfl | ⟨ts, rfl⟩ <;> exact this
  answerStop _ _ _ _ _ _ _ _ _ _ _ _ _ _ := trivial
  frame p c' _ h hf := by
    obtain ⟨es, h1, _⟩ := hf.log
    exact h.same h1 rfl rfl
  frameD _ _ _ _ _ := trivial
  lateD _ _ _ _ _ _ _ := trivial
  answerD _ _ _ _ _ _ _ _ _ := trivial

end Verif
