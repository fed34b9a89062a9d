import Verif.Lemmas.Fate
/-!
An action that waits is started again in each callback.
-/
set_option linter.unusedSimpArgs false
namespace Verif
open Spec

variable {H : Type} {o : Oracle H}

/-- An action that had been started, has no result and has no call out is started again. -/
def Retried (x : Text) (base log : List Effect) : Prop :=
  Fresh log → ¬ Ended log → .applied x ∈ base → ¬ HasResult base x → ¬ CallOut base x →
    ∃ new, log = base ++ new ∧ .applied x ∈ new

theorem callOut_shorter {base es : List Effect} {x : Text}
    (hes : ∀ guard token svc bytes rid, .dispatch x guard token svc bytes rid ∉ es) (h : CallOut (base ++ es) x) :
    CallOut base x := by
  obtain ⟨token, pre, guard, svc, bytes, rid, post, h1, h2, h3⟩ := h
  refine ⟨token, ?_⟩
  rcases List.append_eq_append_iff.1 h1 with ⟨a, ha, hb⟩ | ⟨a, ha, hb⟩
  · exact absurd (by rw [hb]; simp) (hes guard token svc bytes rid)
  · cases a with
    | nil =>
      exact absurd (by rw [List.nil_append] at hb; rw [← hb]; simp) (hes guard token svc bytes rid)
    | cons e a =>
      rw [List.cons_append, List.cons.injEq] at hb
      obtain ⟨rfl, hb⟩ := hb
      refine ⟨pre, guard, svc, bytes, rid, a, ha, fun s z hm => h2 s z ?_, fun f hf => h3 f ?_⟩
      · rw [hb]; exact List.mem_append_left _ hm
      · rw [hb]; exact List.mem_append_left _ hf

theorem Retried.longer {x : Text} {base mid log : List Effect} (h : Retried x (base ++ mid) log)
    (h1 : Fresh log → .applied x ∈ base → ¬ HasResult base x → ¬ CallOut base x → .completed x ∉ mid ∧ .failed x ∉ mid ∧
      ∀ guard token svc bytes rid, .dispatch x guard token svc bytes rid ∉ mid) : Retried x base log := by
  intro hf hend ha hr hc
  obtain ⟨h3, h4, h2⟩ := h1 hf ha hr hc
  obtain ⟨new, h5, h6⟩ := h hf hend (List.mem_append_left _ ha)
    (by
      rintro (hm | hm)
      · exact (List.mem_append.1 hm).elim (fun hm => hr (.inl hm)) h3
      · exact (List.mem_append.1 hm).elim (fun hm => hr (.inr hm)) h4)
    (fun h => hc (callOut_shorter h2 h))
  exact ⟨mid ++ new, by rw [h5, List.append_assoc], List.mem_append_right _ h6⟩

/-- The turn of the action is still to come, or it was started. -/
structure Turn (base : List Effect) (x : Text) (p : Pipe H) (todo : List PTask) : Prop where
  log : ∃ new, p.ctx.log = base ++ new ∧ (.applied x ∈ new ∨ ∃ t ∈ todo, t.id = x ∧ ∀ d ∈ t.deps, d ∈ p.completed)

theorem turn_evalPipe {x : Text} {p : Pipe H} (hl : Live p [])
    (h : ∃ t ∈ p.queue, t.id = x ∧ ∀ d ∈ t.deps, d ∈ p.completed) :
    (Live (p.evalPipe o) [] ∧ Turn p.ctx.log x (p.evalPipe o) []) ∨ Dead (p.evalPipe o) := by
  refine evalPipe_ind o (fun q ts => Live q ts ∧ Turn p.ctx.log x q ts)
    (fun q => Dying q) (fun q => Dead q)
    ?_ ?_ ?_ ?_ ?_ p ⟨live_opens hl, [], by simp, .inr ?_⟩
  · rintro q t ts ⟨hl, new, h1, h2⟩ hd
    refine ⟨live_skip q t ts hl, new, h1, ?_⟩
    rcases h2 with h2 | ⟨u, hu, h3, h4⟩
    · exact .inl h2
    · rcases List.mem_cons.1 hu with rfl | hu
      · obtain ⟨d, hd, hn⟩ := hd
        exact absurd (h4 d hd) hn
      · exact .inr ⟨u, hu, h3, h4⟩
  · rintro q t ts out c ⟨hl, new, h1, h2⟩ hd ha hs
    obtain ⟨es, hlog, hdo⟩ := apply_does o (q.ctx.push (.applied t.id)) t
    rw [ha] at hlog hdo
    obtain ⟨fs, hfs, _, hfe⟩ := log_after hs hlog
    refine ⟨live_go o q t ts out c hl ha hs, new ++ ([.applied t.id] ++ fs), by rw [hfs, h1]; simp, ?_⟩
    rcases h2 with h2 | ⟨u, hu, h3, h4⟩
    · exact .inl (List.mem_append_left _ h2)
    · rcases List.mem_cons.1 hu with rfl | hu
      · exact .inl (by simp [h3])
      · exact .inr ⟨u, hu, h3, fun d hd => completed_after d (h4 d hd)⟩
  · rintro q t ts t' c ⟨hl, _⟩ hd ha
    exact live_stop o q t ts t' c hl ha
  · exact dying_dead o
  · rintro q ⟨hl, new, h1, h2⟩ hq hd
    obtain ⟨es, h3, _, _⟩ := (tornDown (o := o) q).log
    refine ⟨live_teardown o q hl hd, new ++ es, by rw [h3, h1, List.append_assoc], ?_⟩
    rcases h2 with h2 | ⟨u, hu, _⟩
    · exact .inl (List.mem_append_left _ h2)
    · cases hu
  · obtain ⟨t, ht, h⟩ := h
    exact ⟨t, by simpa using ht, h⟩

theorem retried_eval {x : Text} {p : Pipe H} (hl : Live p []) (hx : Owed true x p []) :
    Retried x p.ctx.log (p.evalPipe o).ctx.log := by
  intro hf hend ha hr hc
  have hf0 : Fresh p.ctx.log := by
    rcases pass_evalPipe (o := o) hl hx with ⟨_, h⟩ | h
    · obtain ⟨es, h⟩ := h.log
      rw [← h] at hf
      exact hf.prefix
    · exact absurd h.ended hend
  rcases hx.has hf0 (fun _ => ha) with h | ⟨t, ht, h1, h2⟩
  · exact (served_tried h).elim (absurd · hr) (absurd · hc)
  · rcases turn_evalPipe (o := o) hl ⟨t, by simpa using ht, h1, h2 rfl⟩ with ⟨_, new, h3, h4⟩ | h
    · refine ⟨new, h3, h4.resolve_right ?_⟩
      rintro ⟨_, h, _⟩
      cases h
    · exact absurd h.ended hend

theorem retried_lifts (x : Text) :
    Lifts o (Holds (fun p ts => Owed true x p ts ∧ Flown p ts) (fun _ => True ∧ True)) (Retried x) := by
  have hX := (owed_extra (o := o) true x).and flown_extra
  have hdead : ∀ base log, .ended ∈ log → Retried x base log := fun _ _ h _ hend => absurd h hend
  have he : ∀ p, Holds (fun p ts => Owed true x p ts ∧ Flown p ts) (fun _ => True ∧ True) p →
      Retried x p.ctx.log (p.evalPipe o).ctx.log := by
    rintro p (⟨hl, hx, _⟩ | ⟨hd, _⟩)
    · exact retried_eval hl hx
    · rw [dead_evalPipe o p hd]
      exact hdead _ _ hd.ended
  have idle : ∀ p : Pipe H, Live p [] → Owed true x p [] → p.queue = [] → Retried x p.ctx.log p.ctx.log := by
    intro p hl hx hq hf hend ha hr hc
    rcases hx.has hf (fun _ => ha) with h | ⟨t, ht, _⟩
    · exact (served_tried h).elim (absurd · hr) (absurd · hc)
    · rw [hq] at ht; cases ht
  refine ⟨he, ?_, ?_, ?_, ?_, ?_⟩
  · rintro p token s z (⟨hl, hx⟩ | ⟨hd, _⟩)
    · refine digestPipe_ind o (fun q => Holds (fun p ts => Owed true x p ts ∧ Flown p ts) (fun _ => True ∧ True) q ∧
          ∀ log, Retried x q.ctx.log log → q.ctx.log <+: log → Retried x p.ctx.log log)
        (fun q => Retried x p.ctx.log q.ctx.log) p token s z hl.slot ?_ ?_ ?_ ?_
      · intro hg
        refine ⟨.inl ⟨live_late p token s z hl hg, hX.late p token s z hl hx hg⟩, fun log h _ => ?_⟩
        exact Retried.longer (mid := [.responded token s z]) h (by simp)
      · intro t out c hg ha hs
        obtain ⟨es, hlog, hdo⟩ := apply_does o (p.answering token s z).ctx t
        rw [ha] at hlog hdo
        refine ⟨.inl ⟨live_answer o p token s z hl t hg out c ha hs,
          hX.answer p token s z t out c es hl hx hg ha hs hlog hdo⟩, fun log h hpre => ?_⟩
        obtain ⟨fs, h1, h2⟩ : ∃ fs, (Pipe.replied { p.answering token s z with ctx := c } t.id out).ctx.log =
            p.ctx.log ++ ([.responded token s z] ++ es ++ fs) ∧ ∀ f ∈ fs, f = .completed t.id ∨ f = .failed t.id := by
          have hc : c.log = p.ctx.log ++ ([.responded token s z] ++ es) := by
            rw [hlog]
            show p.ctx.log ++ [_] ++ es = _
            rw [List.append_assoc]
          cases out with
          | done => exact ⟨[.completed t.id], by show c.log ++ _ = _; rw [hc]; simp, by simp⟩
          | failed => exact ⟨[.failed t.id], by show c.log ++ _ = _; rw [hc]; simp, by simp⟩
          | requeued => exact ⟨[.completed t.id], by show c.log ++ _ = _; rw [hc]; simp, by simp⟩
          | deferred => exact ⟨[], by show c.log = _; rw [hc]; simp, by simp⟩
          | terminate => simp [Outcome.stops] at hs
        rw [h1] at h
        refine Retried.longer h fun hf ha' hr hc => ?_
        have hf0 : Fresh p.ctx.log := by
          obtain ⟨new, h3⟩ := hpre
          rw [← h3, h1, List.append_assoc] at hf
          exact hf.prefix
        have hne : t.id ≠ x := by
          rintro rfl
          rcases hx.2.has hf0 with h3 | ⟨h3, _⟩
          · exact hc ⟨_, h3 _ (mapGet_mem hg)⟩
          · rcases hx.1.has hf0 (fun _ => ha') with h4 | ⟨u, hu, _⟩
            · exact (served_tried h4).elim (absurd · hr) (absurd · hc)
            · rw [h3] at hu; cases hu
        have hes : .completed x ∉ es ∧ .failed x ∉ es ∧
            ∀ guard token svc bytes rid, .dispatch x guard token svc bytes rid ∉ es := by
          rcases does_effects hdo with hl | ⟨g, tok, svc, b, rid, p', rfl, _⟩
          · refine ⟨fun hm => ?_, fun hm => ?_, fun _ _ _ _ _ hm => ?_⟩ <;>
              (have := hl _ hm; simp [Effect.isLocal] at this)
          · simp [Ne.symm hne]
        simp only [List.mem_append, List.mem_singleton, not_or]
        refine ⟨⟨⟨by simp, hes.1⟩, fun hm => ?_⟩, ⟨⟨by simp, hes.2.1⟩, fun hm => ?_⟩,
          fun g t sv b r => ⟨⟨by simp, hes.2.2 g t sv b r⟩, fun hm => ?_⟩⟩ <;>
          (have := h2 _ hm; simp at this <;> exact hne this.symm)
      · intro t t' c hg ha
        have hd := dying_dead o _ (live_answerStop o p token s z hl t hg t' c ha)
        rw [dead_evalPipe o _ hd]
        exact hdead _ _ hd.ended
      · rintro q ⟨hq, hm⟩
        rcases hq with ⟨hl', hx', hf'⟩ | ⟨hd, hz⟩
        · rcases pass_evalPipe (o := o) hl' hx' with ⟨_, h⟩ | h
          · exact hm _ (he q (.inl ⟨hl', hx', hf'⟩)) h.log
          · exact hdead _ _ h.ended
        · rw [dead_evalPipe o q hd]
          exact hdead _ _ hd.ended
    · exact hdead _ _ (dead_digestPipe o p token s z hd).1.ended
  · rintro p (⟨hl, hx, _⟩ | ⟨hd, _⟩) hq hdf
    · exact idle p hl hx hq
    · exact hdead _ _ hd.ended
  · rintro p token s z (⟨hl, hx⟩ | ⟨hd, _⟩) hq hdf
    · have hg : mapGet p.deferred token = none := by rw [hdf]; rfl
      exact Retried.longer (mid := [.responded token s z])
        (idle (p.push (.responded token s z)) (live_late p token s z hl hg) (hX.late p token s z hl hx hg).1 hq)
        (by simp)
    · exact hdead _ _ (List.mem_append_left _ hd.ended)
  · intro base log e h he hf hend ha hr hc
    obtain ⟨new, h1, h2⟩ := h hf.prefix (fun h => hend (List.mem_append_left _ h)) ha hr hc
    exact ⟨new ++ [e], by rw [h1, List.append_assoc], List.mem_append_left _ h2⟩
  · intro base e log he h
    refine Retried.longer h ?_
    intro _ _ _ _
    refine ⟨?_, ?_, fun g t sv b r => ?_⟩ <;> (intro hm; simp at hm; subst hm; simp [Effect.isFilter] at he)

end Verif
