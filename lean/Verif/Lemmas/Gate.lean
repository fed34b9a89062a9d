import Verif.Lemmas.Attempt
/-! What follows the answer to a call, for C68. -/
namespace Verif
open Spec

variable {H : Type} {o : Oracle H}

/-- The answer to a call completes it or makes it fail. -/
theorem processed_apply (t : PTask) (c : Ctx H) (x : Text) (guard : Bool) (svc : Svc) (var : Text)
    (kids : List Core) (s z : Nat) (hk : t.strip = .pending x guard svc var kids) (hg : c.grpc = some (s, z)) :
    ((t.apply o c).2.log = c.log ∧ ((t.apply o c).1 = .done ∨ ∃ ts, (t.apply o c).1 = .requeued ts)) ∨
      ∃ fs, (t.apply o c).2.log = c.log ++ .callFailed x :: fs := by
  induction t with
  | core k =>
    simp only [PTask.strip] at hk
    subst hk
    simp only [PTask.apply, Core.apply]
    unfold applyPending processResponse
    rw [hg]
    simp only
    by_cases hs : s ≠ 0
    · rw [if_pos hs]
      exact .inr ⟨[], by cases guard <;> rfl⟩
    · rw [if_neg hs]
      cases hk' : kids.isEmpty with
      | true => exact .inl ⟨by cases guard <;> rfl, .inl (by simp)⟩
      | false =>
        simp only [Bool.false_eq_true, if_false]
        generalize o.response { c with grpc := none } svc z = r
        obtain ⟨v, hh⟩ := r
        cases v with
        | none => exact .inr ⟨[], by cases guard <;> rfl⟩
        | some v => exact .inl ⟨by cases guard <;> rfl, .inr ⟨_, rfl⟩⟩
  | failureMode t a ih =>
    have h := ih hk
    simp only [PTask.apply]
    generalize t.apply o c = r at h ⊢
    obtain ⟨out, c'⟩ := r
    rcases h with ⟨h1, h2⟩ | ⟨fs, h⟩
    · rcases h2 with rfl | ⟨ts, rfl⟩
      · exact .inl ⟨h1, .inl rfl⟩
      · exact .inl ⟨h1, .inr ⟨_, rfl⟩⟩
    · right
      cases out with
      | failed =>
        refine ⟨fs ++ [.errors], ?_⟩
        replace h : c'.log = c.log ++ Effect.callFailed x :: fs := h
        cases a <;> simp [Ctx.push, h]
      | _ => exact ⟨fs, h⟩
  | tracing t ih =>
    have h := ih hk
    simp only [PTask.apply]
    generalize t.apply o c = r at h ⊢
    obtain ⟨out, c'⟩ := r
    rcases h with ⟨h1, h2⟩ | ⟨fs, h⟩
    · rcases h2 with rfl | ⟨ts, rfl⟩
      · exact .inl ⟨h1, .inl rfl⟩
      · exact .inl ⟨h1, .inr ⟨_, rfl⟩⟩
    · right
      cases out <;> exact ⟨fs, h⟩

/-- Any response. -/
theorem processed_key {R : Nat → Nat → Nat → Ctx H → Prop} (x : Text) (pred msg : Expr) (svc : Svc) (rep : Prop) :
    Answers o R (theCall x pred msg svc rep) (fun _ _ _ _ y => y = x)
      (fun y es => (∃ rest, es = .completed y :: rest) ∨ ∃ rest, es = .callFailed y :: rest) := by
  rintro t c pre tok s z hw hc hall hg _ hlog rfl
  obtain ⟨guard, var, kids, hk, hne⟩ := (hall.here (by rw [strip_id])).2 hc hw
  rcases processed_apply (o := o) t c t.id guard svc var kids s z hk hg with ⟨h1, h2⟩ | ⟨fs, h⟩
  · refine ⟨[], by rw [h1]; simp, .inl ?_⟩
    rcases h2 with h2 | ⟨ts, h2⟩ <;> rw [h2] <;> exact ⟨[], rfl⟩
  · exact ⟨_, h, .inr ⟨_, rfl⟩⟩

theorem first_responded {token : Nat} {l : List Effect} (h : ∃ s z, Effect.responded token s z ∈ l) :
    ∃ m1 s z m2, l = m1 ++ .responded token s z :: m2 ∧ ∀ s z, Effect.responded token s z ∉ m1 := by
  induction l with
  | nil => obtain ⟨s, z, h⟩ := h; simp at h
  | cons e l ih =>
    by_cases he : ∃ s z, e = .responded token s z
    · obtain ⟨s, z, rfl⟩ := he
      exact ⟨[], s, z, l, rfl, by simp⟩
    · obtain ⟨s, z, h⟩ := h
      have h' : Effect.responded token s z ∈ l := by
        rcases List.mem_cons.1 h with h | h
        · exact absurd ⟨s, z, h.symm⟩ he
        · exact h
      obtain ⟨m1, s', z', m2, h1, h2⟩ := ih ⟨s, z, h'⟩
      refine ⟨e :: m1, s', z', m2, by rw [h1]; rfl, fun s z hm => ?_⟩
      rcases List.mem_cons.1 hm with hm | hm
      · exact he ⟨s, z, hm.symm⟩
      · exact h2 s z hm

/-- A call stays in flight until it is answered, and its token is not used for another call meanwhile. -/
theorem stays_inFlight {p1 m : List Effect} {x : Text} {guard : Bool} {token : Nat} {svc : Svc} {bytes : Bytes}
    {rid : Text} (hf : Fresh (p1 ++ .dispatch x guard token svc bytes rid :: m))
    (hno : ∀ s z, Effect.responded token s z ∉ m) :
    (token, guard) ∈ inFlight (p1 ++ .dispatch x guard token svc bytes rid :: m) ∧
      ∀ e ∈ m, sentToken e ≠ some token := by
  induction m using snoc_ind with
  | nil =>
    rw [inFlight_snoc]
    simp [track]
  | snoc m e ih =>
    obtain ⟨h1, h2⟩ := ih (fun pre f post h => hf pre f (post ++ [e]) (by
      rw [← List.cons_append, ← List.append_assoc, h]; simp)) (fun s z h => hno s z (by simp [h]))
    have hfe := hf (p1 ++ .dispatch x guard token svc bytes rid :: m) e [] (by simp)
    constructor
    · rw [← List.cons_append, ← List.append_assoc, inFlight_snoc]
      cases e with
      | responded t s z =>
        by_cases ht : t = token
        · exact absurd (by simp [ht]) (hno s z)
        · simp only [track]
          exact List.mem_filter.2 ⟨h1, by simp; exact fun h => ht h.symm⟩
      | dispatch y g t sv b r => exact List.mem_cons_of_mem _ h1
      | exported t => exact List.mem_cons_of_mem _ h1
      | _ => exact h1
    · intro f hf'
      rcases List.mem_append.1 hf' with hf' | hf'
      · exact h2 f hf'
      · rw [List.mem_singleton] at hf'
        subst hf'
        intro hs
        exact hfe token hs (List.mem_map.2 ⟨_, h1, rfl⟩)

/-- A call that is no longer in flight was answered. -/
theorem answered_of_quiet {p1 p2 : List Effect} {x : Text} {guard : Bool} {token : Nat} {svc : Svc} {bytes : Bytes}
    {rid : Text} (hf : Fresh (p1 ++ .dispatch x guard token svc bytes rid :: p2))
    (hq : (token, guard) ∉ inFlight (p1 ++ .dispatch x guard token svc bytes rid :: p2)) :
    ∃ m1 s z m2, p2 = m1 ++ .responded token s z :: m2 ∧
      InFlightFor (p1 ++ .dispatch x guard token svc bytes rid :: m1) token x := by
  by_cases h : ∃ s z, Effect.responded token s z ∈ p2
  · obtain ⟨m1, s, z, m2, rfl, h2⟩ := first_responded h
    refine ⟨m1, s, z, m2, rfl, p1, guard, svc, bytes, rid, m1, rfl, h2, ?_⟩
    refine (stays_inFlight (p1 := p1) (guard := guard) (svc := svc) (bytes := bytes) (x := x) (rid := rid)
      (Spec.Fresh.prefix (b := .responded token s z :: m2) (by simpa using hf)) h2).2
  · exact absurd (stays_inFlight hf (fun s z hm => h ⟨s, z, hm⟩)).1 hq

theorem step_more (f : Filter H) (e : Event H) (hs : Ghost Sound f) : ∃ more, (f.step o e).log = f.log ++ more := by
  by_cases hc : f.crashed = true
  · exact ⟨[], by simp [Filter.step, hc]⟩
  · have := step_shape (o := o) f e (by simpa using hc) hs
    generalize f.step o e = f' at this
    cases this with
    | requestBody _ _ _ es pause _ _ hlog => exact ⟨_, by rw [hlog, List.append_assoc]⟩
    | responseHeaders _ _ es pause _ _ hlog => exact ⟨_, by rw [hlog, List.append_assoc, List.append_assoc]⟩
    | responseBody _ _ _ _ es pause _ _ hlog => exact ⟨_, by rw [hlog, List.append_assoc]⟩
    | late _ _ _ _ _ _ hlog => exact ⟨_, hlog⟩
    | response _ _ _ _ _ _ _ _ _ _ _ _ hlog => exact ⟨_, by rw [hlog, List.append_assoc, List.append_assoc]⟩

/-- What was done stays done. -/
theorem run_more (factory : Factory) (host : H) (es1 es2 : List (Event H)) :
    ∃ more, (Filter.run o factory host (es1 ++ es2)).log = (Filter.run o factory host es1).log ++ more := by
  induction es2 using snoc_ind with
  | nil => exact ⟨[], by simp⟩
  | snoc es2 e ih =>
    obtain ⟨more, h⟩ := ih
    rw [← List.append_assoc, run_snoc]
    obtain ⟨m, hm⟩ := step_more (o := o) (Filter.run o factory host (es1 ++ es2)) e
      (run_sound (o := o) factory host _)
    exact ⟨more ++ m, by rw [hm, h, List.append_assoc]⟩

theorem pipe_answers {es : List Effect} (h : ∀ e ∈ es, e.isPipe = true) {token s z : Nat} :
    Effect.responded token s z ∉ es := fun hm => by
  have := h _ hm
  simp [Effect.isPipe] at this

/-- Where something is in a list and nothing like it was added, it was there. -/
theorem split_old {α : Type} {old new pre post : List α} {e : α} (h : old ++ new = pre ++ e :: post) (hn : e ∉ new) :
    ∃ mid, old = pre ++ e :: mid := by
  rcases List.append_eq_append_iff.1 h with ⟨a, h1, h2⟩ | ⟨a, h1, h2⟩
  · exact absurd (by rw [h2]; simp) hn
  · cases a with
    | nil => exact absurd (by rw [List.nil_append] at h2; rw [← h2]; simp) hn
    | cons b a =>
      rw [List.cons_append] at h2
      cases h2
      exact ⟨a, h1⟩

/-- The response in a history is a response the host delivered. -/
theorem responded_event (factory : Factory) (host : H) (events : List (Event H)) (pre post : List Effect)
    (token s z : Nat) (h : (Filter.run o factory host events).log = pre ++ .responded token s z :: post) :
    ∃ es1 host' es2, events = es1 ++ .grpcResponse host' token s z :: es2 ∧
      (Filter.run o factory host es1).log = pre := by
  revert pre post h
  refine run_ind (o := o) factory host (fun events f => ∀ pre post, f.log = pre ++ .responded token s z :: post →
    ∃ es1 host' es2, events = es1 ++ .grpcResponse host' token s z :: es2 ∧
      (Filter.run o factory host es1).log = pre) ?_ ?_ ?_ events
  · intro pre post h
    exfalso
    have hm : Effect.responded token s z ∈ (Filter.start o factory host).log := by rw [h]; simp
    cases start_shape (o := o) factory host with
    | pipeline g es pause hes hlog =>
      rw [hlog] at hm
      simp only [List.mem_append, List.mem_singleton] at hm
      rcases hm with (hm | hm) | hm
      · cases hm
      · exact pipe_answers hes hm
      · cases hm
    | miss hlog => rw [hlog] at hm; simp at hm
    | error hlog => rw [hlog] at hm; simp at hm
    | refused hlog => rw [hlog] at hm; simp at hm
    | panic hlog => rw [hlog] at hm; simp at hm
  · intro es f e ih hc pre post h
    obtain ⟨es1, host', es2, h1, h2⟩ := ih pre post h
    exact ⟨es1, host', es2 ++ [e], by rw [h1]; simp, h2⟩
  · intro es f e ih hc hf pre post h
    have old : ∀ new, f.log ++ new = pre ++ .responded token s z :: post → Effect.responded token s z ∉ new →
        ∃ es1 host' es2, es ++ [e] = es1 ++ .grpcResponse host' token s z :: es2 ∧
          (Filter.run o factory host es1).log = pre := by
      intro new hn hm
      obtain ⟨mid, hmid⟩ := split_old hn hm
      obtain ⟨es1, host', es2, h1, h2⟩ := ih pre mid hmid
      exact ⟨es1, host', es2 ++ [e], by rw [h1]; simp, h2⟩
    have hshape := step_shape (o := o) f e hc (by rw [hf]; exact run_sound (o := o) factory host _)
    generalize f.step o e = f' at hshape h
    have answer : ∀ host' t s' z' new, e = .grpcResponse host' t s' z' →
        f'.log = f.log ++ .responded t s' z' :: new → Effect.responded token s z ∉ new →
        ∃ es1 host' es2, es ++ [e] = es1 ++ .grpcResponse host' token s z :: es2 ∧
          (Filter.run o factory host es1).log = pre := by
      intro host' t s' z' new he hlog hnew
      rw [hlog] at h
      rcases List.append_eq_append_iff.1 h with ⟨a, h1, h2⟩ | ⟨a, h1, h2⟩
      · cases a with
        | nil =>
          rw [List.nil_append] at h2
          cases h2
          rw [List.append_nil] at h1
          exact ⟨es, host', [], by rw [he], by rw [← hf, h1]⟩
        | cons b a =>
          rw [List.cons_append] at h2
          cases h2
          exact absurd (by simp) hnew
      · cases a with
        | nil =>
          rw [List.nil_append] at h2
          cases h2
          rw [List.append_nil] at h1
          exact ⟨es, host', [], by rw [he], by rw [← hf, h1]⟩
        | cons b a =>
          rw [List.cons_append] at h2
          cases h2
          obtain ⟨es1, h', es2, g1, g2⟩ := ih pre a h1
          exact ⟨es1, h', es2 ++ [e], by rw [g1]; simp, g2⟩
    cases hshape with
    | requestBody _ _ _ es pause _ hes hlog =>
      exact old _ (by rw [← h, hlog, List.append_assoc]) (by
        simp only [List.mem_append, List.mem_singleton, not_or]; exact ⟨pipe_answers hes, by simp⟩)
    | responseHeaders _ _ es pause _ hes hlog =>
      exact old _ (by rw [← h, hlog, List.append_assoc, List.append_assoc]) (by
        simp only [List.mem_append, List.mem_singleton, not_or]; exact ⟨by simp, pipe_answers hes, by simp⟩)
    | responseBody _ _ _ _ es pause _ hes hlog =>
      exact old _ (by rw [← h, hlog, List.append_assoc]) (by
        simp only [List.mem_append, List.mem_singleton, not_or]; exact ⟨pipe_answers hes, by simp⟩)
    | late host' t s' z' _ _ hlog => exact answer host' t s' z' [] rfl hlog (by simp)
    | response host' t s' z' _ _ es _ _ hes _ _ hlog =>
      refine answer host' t s' z' _ rfl (by rw [hlog, List.append_assoc, List.append_assoc]; rfl) ?_
      show Effect.responded token s z ∉ es ++ _
      rw [List.mem_append, not_or]
      refine ⟨pipe_answers hes, ?_⟩
      split
      · split <;> simp
      · simp

end Verif
