import Verif.Lemmas.Ids
/-! One top-level action followed through a pipeline. -/
set_option linter.unusedSimpArgs false
namespace Verif
open Spec

variable {H : Type} {o : Oracle H}

/-- Effects of a task: a call of its own, or no call. -/
theorem does_effects {t : PTask} {out : Outcome} {es : List Effect} (h : TDoes t out es) :
    (∀ e ∈ es, e.isLocal = true) ∨ ∃ g tok svc by' rid p', es = [.dispatch t.id g tok svc by' rid] ∧
      out = .deferred tok p' ∧ p'.id = t.id ∧ t.strip.waits = false ∧ p'.strip.waits = true := by
  induction h with
  | core h =>
    cases h with
    | sent id deps guard pred msg var svc onReply token bytes rid =>
      exact .inr ⟨_, _, _, _, _, _, rfl, rfl, rfl, rfl, rfl⟩
    | stored id pred e path x terminal s v pre hp =>
      left
      rcases hp with ⟨rfl, _⟩ | ⟨b, w, rfl, _⟩ <;> simp [Effect.isLocal]
    | _ => left; simp [Effect.isLocal]
  | abort h ih =>
    left
    rcases ih with ih | ⟨_, _, _, _, _, _, _, h2, _⟩
    · intro e he
      rcases List.mem_append.1 he with he | he
      · exact ih e he
      · simp only [List.mem_singleton] at he; subst he; rfl
    · simp at h2
  | allow h ih =>
    left
    rcases ih with ih | ⟨_, _, _, _, _, _, _, h2, _⟩
    · intro e he
      rcases List.mem_append.1 he with he | he
      · exact ih e he
      · simp only [List.mem_singleton] at he; subst he; rfl
    · simp at h2
  | sent h ih =>
    rcases ih with ih | ⟨g, tok, svc, b, rid, p', h1, h2, h3, h4, h5⟩
    · exact .inl ih
    · simp only [Outcome.deferred.injEq] at h2
      obtain ⟨rfl, rfl⟩ := h2
      exact .inr ⟨g, _, svc, b, rid, _, h1, rfl, h3, h4, h5⟩
  | done h ih =>
    rcases ih with ih | ⟨_, _, _, _, _, _, _, h2, _⟩
    · exact .inl ih
    · simp at h2
  | again h ih =>
    rcases ih with ih | ⟨_, _, _, _, _, _, _, h2, _⟩
    · exact .inl ih
    · simp at h2
  | stop h ih =>
    rcases ih with ih | ⟨_, _, _, _, _, _, _, h2, _⟩
    · exact .inl ih
    · simp at h2
  | tracing h ih =>
    rcases ih with ih | ⟨g, tok, svc, b, rid, p', h1, h2, h3, h4, h5⟩
    · exact .inl ih
    · subst h2
      exact .inr ⟨g, _, svc, b, rid, _, h1, rfl, h3, h4, h5⟩

/-- The tasks an outcome leaves: none, the same action again, or reply actions. -/
theorem does_out {t : PTask} {out : Outcome} {es : List Effect} (h : TDoes t out es) :
    out.tasks = [] ∨ (∃ t', out.tasks = [t'] ∧ t'.id = t.id ∧ t.strip.waits = false) ∨
      (t.strip.waits = true ∧ (∃ ts, out = .requeued ts) ∧ ∀ t' ∈ out.tasks, t'.strip ∈ t.strip.children) := by
  induction h with
  | core h =>
    cases h with
    | again k k' ha hw =>
      refine .inr (.inl ⟨_, rfl, ?_, hw⟩)
      cases ha <;> rfl
    | sent => exact .inr (.inl ⟨_, rfl, rfl, rfl⟩)
    | replies id guard svc var onReply h =>
      refine .inr (.inr ⟨rfl, ⟨_, rfl⟩, ?_⟩)
      intro t' ht'
      simp only [Outcome.tasks, List.mem_map] at ht'
      obtain ⟨k, hk, rfl⟩ := ht'
      exact hk
    | replied _ _ _ terminal => cases terminal <;> exact .inl rfl
    | headers _ _ _ _ terminal => cases terminal <;> exact .inl rfl
    | stored _ _ _ _ _ terminal => cases terminal <;> exact .inl rfl
    | _ => exact .inl rfl
  | abort => exact .inl rfl
  | allow => exact .inl rfl
  | sent h ih =>
    rcases ih with ih | ⟨t', h1, h2, h3⟩ | ⟨h1, ⟨ts, h2⟩, h3⟩
    · simp [Outcome.tasks] at ih
    · simp only [Outcome.tasks, List.cons.injEq, and_true] at h1
      subst h1
      exact .inr (.inl ⟨_, rfl, h2, h3⟩)
    · simp at h2
  | done => exact .inl rfl
  | again h ih =>
    rcases ih with ih | ⟨t', h1, h2, h3⟩ | ⟨h1, h2, h3⟩
    · exact .inl ih
    · exact .inr (.inl ⟨t', h1, h2, h3⟩)
    · exact .inr (.inr ⟨h1, h2, h3⟩)
  | stop => exact .inl rfl
  | tracing h ih =>
    rename_i t out es
    rcases ih with ih | ⟨t', h1, h2, h3⟩ | ⟨h1, ⟨ts, rfl⟩, h3⟩
    · cases out <;> simp_all [Outcome.tasks, Outcome.traced]
    · cases out with
      | deferred tok p =>
        simp only [Outcome.tasks, List.cons.injEq, and_true] at h1
        subst h1
        exact .inr (.inl ⟨_, rfl, h2, h3⟩)
      | requeued ts =>
        simp only [Outcome.tasks] at h1
        subst h1
        exact .inr (.inl ⟨_, rfl, h2, h3⟩)
      | _ => simp [Outcome.tasks] at h1
    · refine .inr (.inr ⟨h1, ⟨_, rfl⟩, ?_⟩)
      intro t' ht'
      simp only [Outcome.traced, Outcome.tasks, List.mem_map] at ht'
      obtain ⟨t'', h5, rfl⟩ := ht'
      exact h3 t'' h5

/-- How often an action is in a list of tasks. -/
def cnt (x : Text) (ts : List PTask) : Nat := ts.countP (fun t => decide (t.id = x))

@[simp] theorem cnt_nil (x : Text) : cnt x [] = 0 := rfl

@[simp] theorem cnt_append (x : Text) (a b : List PTask) : cnt x (a ++ b) = cnt x a + cnt x b := by
  simp [cnt]

@[simp] theorem cnt_cons (x : Text) (t : PTask) (b : List PTask) :
    cnt x (t :: b) = cnt x b + (if t.id = x then 1 else 0) := by
  simp [cnt, List.countP_cons]

theorem cnt_zero {x : Text} {ts : List PTask} : cnt x ts = 0 ↔ ∀ t ∈ ts, t.id ≠ x := by
  simp [cnt, List.countP_eq_zero]

theorem cnt_mapInsert (x : Text) (m : List (Nat × PTask)) (tok : Nat) (t : PTask) :
    cnt x ((mapInsert m tok t).map Prod.snd) ≤ cnt x (m.map Prod.snd) + (if t.id = x then 1 else 0) := by
  have : cnt x ((m.filter (fun e => e.1 ≠ tok)).map Prod.snd) ≤ cnt x (m.map Prod.snd) :=
    List.Sublist.countP_le (List.filter_sublist.map _)
  simp only [mapInsert, List.map_cons, cnt_cons]
  have h2 : (m.filter (fun e => decide (e.1 ≠ tok))) = m.filter (fun e => e.1 ≠ tok) := rfl
  omega

/-- Reply actions never have the id. -/
def kidless (x : Text) (k : Core) : Prop := ∀ c ∈ k.children, c.id ≠ x

theorem kidless_closed (x : Text) : Closed (kidless x) where
  again k k' h ha := by
    cases ha with
    | same => exact h
    | store => simp [kidless, Core.children]
    | tokenUsage => simp [kidless, Core.children]
  sent := by intro id deps guard pred msg var svc r h; exact h
  noop := by simp [kidless, Core.children]

theorem cnt_out {t : PTask} {out : Outcome} {es : List Effect} {x : Text} (h : TDoes t out es)
    (hk : kidless x t.strip) : cnt x out.tasks ≤ if t.id = x then 1 else 0 := by
  rcases does_out h with h | ⟨t', h1, h2, _⟩ | ⟨_, _, h3⟩
  · simp [h]
  · simp [h1, h2]
  · have : cnt x out.tasks = 0 := by
      rw [cnt_zero]
      intro t' ht'
      rw [← strip_id]
      exact hk _ (h3 t' ht')
    simp [this]

/-- What is said about the effects of the action. -/
def Orderly (x : Text) (pre : List Effect) (e : Effect) : Prop :=
  (∀ g tok svc b rid, e = .dispatch x g tok svc b rid → .completed x ∉ pre) ∧
  (e = .completed x → ∀ u g tok svc b rid v, pre = u ++ .dispatch x g tok svc b rid :: v →
    ∃ s z, .responded tok s z ∈ v)

/-- The state of the action in a pipeline. -/
structure Tracked (x : Text) (p : Pipe H) (todo : List PTask) : Prop where
  kids : Tasks (kidless x) p todo
  one : cnt x (p.tasks todo) ≤ 1
  over : .completed x ∈ p.ctx.log → cnt x (p.tasks todo) = 0
  calls : ∀ u g tok svc b rid v, p.ctx.log = u ++ .dispatch x g tok svc b rid :: v →
    (∃ s z, .responded tok s z ∈ v) ∨
    (cnt x (p.queue ++ todo) = 0 ∧ ∀ e ∈ p.deferred, e.2.id = x → e.1 = tok)
  evs : Everywhere (Orderly x) p.ctx.log

/-- Effects that do not matter for the action. -/
def Effect.aside (x : Text) : Effect → Bool
  | .dispatch id .. => id ≠ x
  | .completed id => id ≠ x
  | _ => true

theorem orderly_aside {x : Text} {e : Effect} (h : e.aside x = true) (pre : List Effect) : Orderly x pre e := by
  constructor
  · rintro g tok svc b rid rfl; simp [Effect.aside] at h
  · rintro rfl; simp [Effect.aside] at h

theorem split_snoc {a u v : List Effect} {e d : Effect} (h : a ++ [e] = u ++ d :: v) :
    (v = [] ∧ u = a ∧ d = e) ∨ ∃ v', v = v' ++ [e] ∧ a = u ++ d :: v' := by
  rcases List.eq_nil_or_concat v with hv | ⟨v', y, hv⟩
  · subst hv
    obtain ⟨h1, h2⟩ := List.append_inj' h rfl
    simp at h2
    exact .inl ⟨rfl, h1.symm, h2.symm⟩
  · subst hv
    have h' : a ++ [e] = (u ++ d :: v') ++ [y] := by rw [h]; simp
    obtain ⟨h1, h2⟩ := List.append_inj' h' rfl
    simp at h2
    subst h2
    exact .inr ⟨v', by simp, h1⟩

/-- Calls of the action in a longer history. -/
theorem calls_append {x : Text} {a es u v : List Effect} {g tok svc b rid}
    (hes : ∀ e ∈ es, e.aside x = true) (h : a ++ es = u ++ .dispatch x g tok svc b rid :: v) :
    ∃ v', v = v' ++ es ∧ a = u ++ .dispatch x g tok svc b rid :: v' := by
  induction es using snoc_ind generalizing v with
  | nil => exact ⟨v, by simp, by simpa using h⟩
  | snoc es e ih =>
    rw [← List.append_assoc] at h
    rcases split_snoc h with ⟨rfl, rfl, he⟩ | ⟨v', rfl, h'⟩
    · have := hes e (by simp)
      rw [← he] at this
      simp [Effect.aside] at this
    · obtain ⟨v'', rfl, h2⟩ := ih (fun e he => hes e (by simp [he])) h'
      exact ⟨v'', by simp, h2⟩

theorem completed_append {x : Text} {a es : List Effect} (hes : ∀ e ∈ es, e.aside x = true)
    (h : .completed x ∈ a ++ es) : Effect.completed x ∈ a := by
  rcases List.mem_append.1 h with h | h
  · exact h
  · have := hes _ h
    simp [Effect.aside] at this

/-- Changes that do not matter for the action. -/
theorem Tracked.mono {x : Text} {p q : Pipe H} {todo todo' : List PTask} {es : List Effect}
    (h : Tracked x p todo) (hlog : q.ctx.log = p.ctx.log ++ es) (hes : ∀ e ∈ es, e.aside x = true)
    (hkids : Tasks (kidless x) q todo')
    (hq : cnt x (q.queue ++ todo') ≤ cnt x (p.queue ++ todo))
    (hd : cnt x (q.deferred.map Prod.snd) ≤ cnt x (p.deferred.map Prod.snd))
    (hk : ∀ e ∈ q.deferred, e.2.id = x → ∃ e' ∈ p.deferred, e'.2.id = x ∧ e'.1 = e.1) :
    Tracked x q todo' := by
  have hle : cnt x (q.tasks todo') ≤ cnt x (p.tasks todo) := by
    simp only [Pipe.tasks]
    rw [cnt_append, cnt_append (b := p.deferred.map Prod.snd)]
    omega
  refine ⟨hkids, Nat.le_trans hle h.one, ?_, ?_, ?_⟩
  · intro hc
    rw [hlog] at hc
    have := h.over (completed_append hes hc)
    omega
  · intro u g tok svc b rid v hx
    rw [hlog] at hx
    obtain ⟨v', rfl, hx'⟩ := calls_append hes hx
    rcases h.calls u g tok svc b rid v' hx' with ⟨s, z, hs⟩ | ⟨h1, h2⟩
    · exact .inl ⟨s, z, List.mem_append_left _ hs⟩
    · refine .inr ⟨by omega, ?_⟩
      intro e he hid
      obtain ⟨e', he', hid', heq⟩ := hk e he hid
      rw [← heq]
      exact h2 e' he' hid'
  · rw [hlog]
    exact h.evs.append_all fun e he pre => orderly_aside (hes e he) pre

theorem local_aside {x : Text} {e : Effect} (h : e.isLocal = true) : e.aside x = true := by
  cases e <;> simp_all [Effect.isLocal, Effect.aside]

theorem teardownId_ne (tok n : Nat) : Pipe.teardownId tok ≠ natText n :=
  natText_ne (c := 't') (List.mem_append_left _ (by decide)) rfl

/-- Adding the completion of the action to the history. -/
theorem Tracked.complete {x : Text} {p : Pipe H} {todo : List PTask} (h : Tracked x p todo)
    (h0 : cnt x (p.tasks todo) = 0)
    (hr : ∀ u g tok svc b rid v, p.ctx.log = u ++ .dispatch x g tok svc b rid :: v →
      ∃ s z, .responded tok s z ∈ v) (done : List Text) :
    Tracked x { p with completed := done, ctx := p.ctx.push (.completed x) } todo := by
  refine ⟨h.kids, h.one, fun _ => h0, ?_, ?_⟩
  · intro u g tok svc b rid v hx
    rcases split_snoc (show p.ctx.log ++ [.completed x] = _ from hx) with ⟨_, _, h3⟩ | ⟨v', rfl, h'⟩
    · simp at h3
    · obtain ⟨s, z, hs⟩ := hr _ _ _ _ _ _ _ h'
      exact .inl ⟨s, z, List.mem_append_left _ hs⟩
  · refine everywhere_snoc.mpr ⟨h.evs, by simp, ?_⟩
    intro _ u g tok svc b rid v hx
    exact hr _ _ _ _ _ _ _ hx

/-- The state after an outcome of some task, before its bookkeeping. -/
theorem Tracked.push_other {x : Text} {p : Pipe H} {todo : List PTask} (h : Tracked x p todo) (e : Effect)
    (he : e.aside x = true) (done : List Text) :
    Tracked x { p with completed := done, ctx := p.ctx.push e } todo :=
  h.mono (es := [e]) rfl (by simpa using he) h.kids (Nat.le_refl _) (Nat.le_refl _)
    (fun e he hid => ⟨e, he, hid, rfl⟩)

theorem Tracked.frame {x : Text} {p : Pipe H} {todo : List PTask} (h : Tracked x p todo) {c' : Ctx H}
    {es : List Effect} (hlog : c'.log = p.ctx.log ++ es) (hes : ∀ e ∈ es, e.aside x = true) :
    Tracked x { p with ctx := c' } todo :=
  h.mono hlog hes h.kids (Nat.le_refl _) (Nat.le_refl _) (fun e he hid => ⟨e, he, hid, rfl⟩)

theorem mem_deferred_mapInsert {m : List (Nat × PTask)} {tok : Nat} {t : PTask} {e : Nat × PTask}
    (h : e ∈ mapInsert m tok t) : e = (tok, t) ∨ e ∈ m := mem_mapInsert h

theorem tracked_runTeardown {n : Nat} {p : Pipe H} (u : Text) (h : Tracked (natText n) p []) :
    Tracked (natText n) (p.runTeardownAction o u) [] := by
  have hk := tasks_runTeardown o (kidless_closed (natText n)) p u h.kids
  unfold Pipe.runTeardownAction at hk ⊢
  dsimp only at hk ⊢
  split at hk
  · rename_i hh heq
    exact h.mono (es := [.teardown]) rfl (by simp [Effect.aside]) hk (Nat.le_refl _) (Nat.le_refl _)
      (fun e he hid => ⟨e, he, hid, rfl⟩)
  · rename_i token hh heq
    refine h.mono (es := [.teardown, .exported token]) (by simp [Pipe.defer, Pipe.push, Ctx.push, Ctx.withHost])
      (by simp [Effect.aside]) hk (Nat.le_refl _) ?_ ?_
    · refine Nat.le_trans (cnt_mapInsert _ _ _ _) ?_
      have : (PTask.core (.noop (Pipe.teardownId token) false)).id ≠ natText n := teardownId_ne token n
      rw [if_neg this]
      exact Nat.le_refl _
    · intro e he hid
      rcases mem_mapInsert he with rfl | he
      · exact absurd hid (teardownId_ne token n)
      · exact ⟨e, he, hid, rfl⟩

theorem tracked_teardown {n : Nat} {p : Pipe H} (h : Tracked (natText n) p []) :
    Tracked (natText n) (p.executeTeardown o) [] := by
  unfold Pipe.executeTeardown
  dsimp only
  have key : ∀ (us : List Text) (q : Pipe H), Tracked (natText n) q [] →
      Tracked (natText n) (us.foldl (Pipe.runTeardownAction o) q) [] := by
    intro us
    induction us with
    | nil => intro q hq; exact hq
    | cons u us ih => intro q hq; exact ih _ (tracked_runTeardown u hq)
  refine key _ _ ?_
  refine h.mono (es := []) (by simp [Pipe.replaceNoop]) (by simp) ?_ (Nat.le_refl _) ?_ ?_
  · intro t ht
    simp only [Pipe.tasks, Pipe.replaceNoop, List.append_nil, List.mem_append, List.map_map, List.mem_map] at ht
    rcases ht with ht | ⟨e, he, rfl⟩
    · exact h.kids t (by simp [Pipe.tasks, ht])
    · exact .mk _ (by simp [kidless, Core.children, PTask.strip]) (by simp [Core.children, PTask.strip])
  · simp only [Pipe.replaceNoop, List.map_map]
    apply Nat.le_of_eq
    unfold cnt
    rw [List.countP_map, List.countP_map]
    rfl
  · intro e he hid
    simp only [Pipe.replaceNoop, List.mem_map] at he
    obtain ⟨e', he', rfl⟩ := he
    exact ⟨e', he', hid, rfl⟩

/-- Applying a queued task. -/
theorem tracked_go {n : Nat} {p : Pipe H} {t : PTask} {ts : List PTask} {out : Outcome} {c : Ctx H}
    {es : List Effect} (hl : Live p (t :: ts)) (h : Tracked (natText n) p (t :: ts))
    (ha : t.apply o (p.ctx.push (.applied t.id)) = (out, c)) (hs : out.stops = false)
    (hlog : c.log = p.ctx.log ++ [.applied t.id] ++ es) (hdo : TDoes t out es) :
    Tracked (natText n) (Pipe.after { p with ctx := c } t.id out) ts := by
  generalize hxn : natText n = x at h
  have hkid : kidless x t.strip := (h.kids t (by simp [Pipe.tasks])).here
  have hkids : Tasks (kidless x) (Pipe.after { p with ctx := c } t.id out) ts := by
    have h1 := apply_res o (p.ctx.push (.applied t.id)) t
    rw [ha] at h1
    exact tasks_after p t ts out c h.kids (h1.all (kidless_closed x) (h.kids t (by simp [Pipe.tasks]))) t.id
  have hw : t.strip.waits = false := hl.queueW t (by simp)
  have hone := h.one
  simp only [Pipe.tasks, cnt_append, cnt_cons] at hone
  rcases does_effects hdo with hloc | ⟨g, tok, svc, b, rid, p', rfl, rfl, hid, _, _⟩
  · have haside : ∀ e ∈ [Effect.applied t.id] ++ es, e.aside x = true := by
      intro e he
      rcases List.mem_append.1 he with he | he
      · simp only [List.mem_singleton] at he; subst he; rfl
      · exact local_aside (hloc e he)
    have hbase : ∀ todo' q, cnt x (q ++ todo') ≤ cnt x (p.queue ++ t :: ts) →
        Tasks (kidless x) { p with ctx := c, queue := q } todo' →
        Tracked x { p with ctx := c, queue := q } todo' := by
      intro todo' q hq hk
      exact h.mono (by rw [hlog, List.append_assoc]) haside hk hq (Nat.le_refl _)
        (fun e he hid => ⟨e, he, hid, rfl⟩)
    have hdrop : Tracked x { p with ctx := c } ts := by
      refine hbase ts p.queue (by simp) ?_
      intro y hy
      refine h.kids y ?_
      simp only [Pipe.tasks, List.mem_append, List.mem_cons] at hy ⊢
      rcases hy with (hy | hy) | hy
      · exact .inl (.inl hy)
      · exact .inl (.inr (.inr hy))
      · exact .inr hy
    have hcomp : Tracked x (Pipe.after { p with ctx := c } t.id .done) ts := by
      by_cases hx : t.id = x
      · rw [if_pos hx] at hone
        have hz : cnt x (p.tasks ts) = 0 := by
          simp only [Pipe.tasks, cnt_append]; omega
        have := hdrop.complete hz ?_ (t.id :: p.completed)
        · rw [← hx] at this ⊢; exact this
        · intro u g tok svc b rid v hlx
          rcases hdrop.calls u g tok svc b rid v hlx with h1 | h1
          · exact h1
          · have hlx' : p.ctx.log ++ ([.applied t.id] ++ es) = u ++ .dispatch x g tok svc b rid :: v := by
              rw [← hlx, ← List.append_assoc]; exact hlog.symm
            obtain ⟨v', rfl, hv⟩ := calls_append haside hlx'
            rcases h.calls u g tok svc b rid v' hv with ⟨s, z, h2⟩ | ⟨h2, _⟩
            · exact ⟨s, z, List.mem_append_left _ h2⟩
            · simp [hx] at h2
      · exact hdrop.push_other (.completed t.id) (by simp [Effect.aside, hx]) _
    cases out with
    | done => exact hcomp
    | failed => exact hdrop.push_other (.failed t.id) rfl _
    | requeued new =>
      refine hbase ts (p.queue ++ new) ?_ hkids
      have := cnt_out hdo hkid
      simp only [Outcome.tasks] at this
      simp only [cnt_append, cnt_cons]
      omega
    | deferred tok t' =>
      exfalso
      cases ho : (t.apply o (p.ctx.push (.applied t.id))) with
      | mk a b =>
        have h1 := apply_res o (p.ctx.push (.applied t.id)) t
        rw [ha] at h1
        cases h1 with
        | plain es' _ _ _ ho => cases ho
        | sent id deps guard pred msg var svc onReply token bytes rid p'' hk hp hx hr =>
          have := hx.log
          dsimp only at this
          rw [hlog] at this
          have : es = [.dispatch id guard tok svc bytes rid] := by
            simpa [Ctx.push] using this
          subst this
          have := hloc _ (List.mem_singleton.2 rfl)
          simp [Effect.isLocal] at this
        | answered id guard svc var onReply es' hk hx hl' ho => cases ho
    | terminate t' => simp [Outcome.stops] at hs
  · -- a call was sent
    have hlog' : c.log = (p.ctx.log ++ [.applied t.id]) ++ [.dispatch t.id g tok svc b rid] := hlog
    have hcase : ∀ y, cnt y (mapInsert p.deferred tok p' |>.map Prod.snd) ≤
        cnt y (p.deferred.map Prod.snd) + (if t.id = y then 1 else 0) := by
      intro y
      have := cnt_mapInsert y p.deferred tok p'
      rwa [hid] at this
    by_cases hx : t.id = x
    · subst hx
      simp only [if_true] at hone
      have hne : Effect.completed t.id ∉ p.ctx.log := by
        intro hc
        have := h.over hc
        simp [Pipe.tasks] at this
      refine ⟨hkids, ?_, ?_, ?_, ?_⟩
      · have := hcase t.id
        simp only [if_true] at this
        simp only [Pipe.after, Pipe.defer, Pipe.tasks, cnt_append]
        omega
      · intro hc
        exfalso
        replace hc : Effect.completed t.id ∈ c.log := hc
        rw [hlog'] at hc
        simp at hc
        exact hne hc
      · intro u g2 tok2 svc2 b2 rid2 v hlx
        replace hlx : c.log = _ := hlx
        rw [hlog'] at hlx
        rcases split_snoc hlx with ⟨rfl, rfl, h3⟩ | ⟨v', rfl, h'⟩
        · simp only [Effect.dispatch.injEq, true_and] at h3
          obtain ⟨-, rfl, -⟩ := h3
          right
          refine ⟨?_, ?_⟩
          · simp only [Pipe.after, Pipe.defer, cnt_append]
            omega
          · intro e he hide
            rcases mem_mapInsert he with rfl | he
            · rfl
            · exfalso
              have : cnt t.id (p.deferred.map Prod.snd) = 0 := by omega
              exact cnt_zero.1 this e.2 (List.mem_map.2 ⟨e, he, rfl⟩) hide
        · obtain ⟨v'', rfl, hv⟩ := calls_append (es := [.applied t.id]) (by simp [Effect.aside]) h'
          rcases h.calls u g2 tok2 svc2 b2 rid2 v'' hv with ⟨s, z, h2⟩ | ⟨h2, _⟩
          · exact .inl ⟨s, z, by simp [h2]⟩
          · simp at h2
      · show Everywhere _ c.log
        rw [hlog', everywhere_snoc, everywhere_snoc]
        refine ⟨⟨h.evs, orderly_aside rfl _⟩, ?_, by simp⟩
        intro _ _ _ _ _ _
        simpa using hne
    · refine h.mono (es := [.applied t.id] ++ [.dispatch t.id g tok svc b rid])
        (by show c.log = _; rw [hlog', List.append_assoc]) (by simp [Effect.aside, hx]) hkids ?_ ?_ ?_
      · simp [Pipe.after, Pipe.defer]
      · have := hcase x
        rwa [if_neg hx] at this
      · intro e he hide
        rcases mem_mapInsert he with rfl | he
        · exact absurd (hid.symm.trans hide) hx
        · exact ⟨e, he, hide, rfl⟩

theorem cnt_filter (x : Text) (m : List (Nat × PTask)) (tok : Nat) (e : Nat × PTask) (he : e ∈ m)
    (h1 : e.1 = tok) (h2 : e.2.id = x) :
    cnt x ((m.filter (fun e => e.1 ≠ tok)).map Prod.snd) + 1 ≤ cnt x (m.map Prod.snd) := by
  induction m with
  | nil => simp at he
  | cons a m ih =>
    have hle : cnt x ((m.filter (fun e => e.1 ≠ tok)).map Prod.snd) ≤ cnt x (m.map Prod.snd) :=
      List.Sublist.countP_le (List.filter_sublist.map _)
    rcases List.mem_cons.1 he with rfl | he
    · rw [List.filter_cons_of_neg (by simp [h1])]
      simp only [List.map_cons, cnt_cons, h2, if_true]
      omega
    · have := ih he
      by_cases ha : a.1 = tok
      · rw [List.filter_cons_of_neg (by simp [ha])]
        simp only [List.map_cons, cnt_cons]
        omega
      · rw [List.filter_cons_of_pos (by simp [ha])]
        simp only [List.map_cons, cnt_cons]
        omega

theorem cnt_filter_le (x : Text) (m : List (Nat × PTask)) (tok : Nat) :
    cnt x ((m.filter (fun e => e.1 ≠ tok)).map Prod.snd) ≤ cnt x (m.map Prod.snd) :=
  List.Sublist.countP_le (List.filter_sublist.map _)

/-- Completing the action whose response has arrived, with new tasks in front of the queue. -/
theorem Tracked.answered {x : Text} {p : Pipe H} (h : Tracked x p []) {token s z : Nat} {t : PTask}
    (hg : mapGet p.deferred token = some t) {c : Ctx H} {es : List Effect}
    (hlog : c.log = p.ctx.log ++ [.responded token s z] ++ es) (hes : ∀ e ∈ es, e.aside x = true)
    (new : List PTask) (hnew : cnt x new = 0)
    (hk : Tasks (kidless x) { p.answering token s z with ctx := c, queue := new ++ p.queue } []) :
    Tracked x { p.answering token s z with ctx := c, queue := new ++ p.queue } [] ∧
    Tracked x ({ p.answering token s z with ctx := c, queue := new ++ p.queue }.complete t.id) [] := by
  have haside : ∀ e ∈ [Effect.responded token s z] ++ es, e.aside x = true := by
    intro e he
    rcases List.mem_append.1 he with he | he
    · simp only [List.mem_singleton] at he; subst he; rfl
    · exact hes e he
  have h1 : Tracked x { p.answering token s z with ctx := c, queue := new ++ p.queue } [] := by
    refine h.mono (es := [.responded token s z] ++ es) (by rw [← List.append_assoc]; exact hlog) haside hk ?_ ?_ ?_
    · simp only [cnt_append, hnew, cnt_nil]; omega
    · exact cnt_filter_le _ _ _
    · intro e he hid
      exact ⟨e, (List.mem_filter.1 he).1, hid, rfl⟩
  refine ⟨h1, ?_⟩
  by_cases hx : t.id = x
  · subst hx
    have hmem := mapGet_mem hg
    have hc := cnt_filter t.id p.deferred token _ hmem rfl rfl
    have hone := h.one
    simp only [Pipe.tasks, cnt_append, cnt_nil] at hone
    refine h1.complete ?_ ?_ _
    · show cnt t.id ((new ++ p.queue) ++ [] ++ ((p.deferred.filter (fun e => e.1 ≠ token)).map Prod.snd)) = 0
      simp only [cnt_append, hnew, cnt_nil]
      omega
    · intro u g tok svc b rid v hlx
      replace hlx : c.log = _ := hlx
      rw [hlog, List.append_assoc] at hlx
      obtain ⟨v', rfl, hv⟩ := calls_append haside hlx
      rcases h.calls u g tok svc b rid v' hv with ⟨s', z', h2⟩ | ⟨_, h2⟩
      · exact ⟨s', z', List.mem_append_left _ h2⟩
      · have : token = tok := h2 _ hmem rfl
        subst this
        exact ⟨s, z, by simp⟩
  · exact h1.push_other (.completed t.id) (by simp [Effect.aside, hx]) _

theorem tracked_answer {n : Nat} {p : Pipe H} {token s z : Nat} {t : PTask} {out : Outcome} {c : Ctx H}
    {es : List Effect} (hl : Live p []) (h : Tracked (natText n) p [])
    (hg : mapGet p.deferred token = some t) (ha : t.apply o (p.answering token s z).ctx = (out, c))
    (hs : out.stops = false) (hlog : c.log = p.ctx.log ++ [.responded token s z] ++ es)
    (hdo : TDoes t out es) :
    Tracked (natText n) (Pipe.replied { p.answering token s z with ctx := c } t.id out) [] := by
  have hw : t.strip.waits = true := hl.deferW _ (mapGet_mem hg)
  have hes : ∀ e ∈ es, e.aside (natText n) = true := by
    rcases does_effects hdo with hloc | ⟨_, _, _, _, _, _, _, _, _, h2, _⟩
    · exact fun e he => local_aside (hloc e he)
    · rw [hw] at h2; simp at h2
  have hk := (tasks_extra (o := o) (kidless_closed (natText n))).answer p token s z t out c es hl h.kids hg ha
    hs hlog hdo
  have htk : Core.All (kidless (natText n)) t.strip :=
    h.kids t (by simp only [Pipe.tasks, List.mem_append, List.mem_map]; exact .inr ⟨_, mapGet_mem hg, rfl⟩)
  rcases does_out hdo with h0 | ⟨_, _, _, h2⟩ | ⟨_, ⟨ts, rfl⟩, h3⟩
  · have hk' : Tasks (kidless (natText n)) { p.answering token s z with ctx := c, queue := [] ++ p.queue } [] := by
      intro y hy
      refine h.kids y ?_
      simp only [Pipe.tasks, Pipe.answering, List.nil_append, List.append_nil, List.mem_append, List.mem_map,
        List.mem_filter] at hy ⊢
      rcases hy with hy | ⟨e, he, rfl⟩
      · exact .inl hy
      · exact .inr ⟨e, he.1, rfl⟩
    obtain ⟨h1, h2⟩ := h.answered hg hlog hes [] rfl hk'
    cases out with
    | done => exact h2
    | failed => exact h1.push_other (.failed t.id) rfl _
    | requeued ts =>
      simp only [Outcome.tasks] at h0
      subst h0
      exact h2
    | deferred tok t' => simp [Outcome.tasks] at h0
    | terminate t' => simp [Outcome.stops] at hs
  · rw [hw] at h2; simp at h2
  · have hz : cnt (natText n) ts = 0 := by
      rw [cnt_zero]
      intro t' ht'
      rw [← strip_id]
      exact htk.here _ (h3 t' ht')
    exact (h.answered hg hlog hes ts hz (by
      intro y hy
      exact hk y hy)).2

theorem tracked_extra (n : Nat) : Extra o (fun (p : Pipe H) todo => Tracked (natText n) p todo)
    (fun p => Tracked (natText n) p []) (fun p => Tracked (natText n) p []) where
  opens p hl h := by
    refine h.mono (es := []) (by simp) (by simp) ?_ (by simp) (Nat.le_refl _)
      (fun e he hid => ⟨e, he, hid, rfl⟩)
    exact (tasks_extra (o := o) (kidless_closed (natText n))).opens p hl h.kids
  skip p t ts hl h hd := by
    refine h.mono (es := []) (by simp) (by simp) ?_ (by simp only [cnt_append, cnt_cons, cnt_nil]; omega) (Nat.le_refl _)
      (fun e he hid => ⟨e, he, hid, rfl⟩)
    exact (tasks_extra (o := o) (kidless_closed (natText n))).skip p t ts hl h.kids hd
  go p t ts out c es hl h hd ha hs hlog hdo := tracked_go hl h ha hs hlog hdo
  stop p t ts t' c es hl h hd ha hlog hdo := by
    rcases does_effects hdo with hloc | ⟨_, _, _, _, _, _, _, h2, _⟩
    · have hk := tasks_terminate o p (t :: ts) t' c h.kids
      have : ∃ fs, (Pipe.terminate o { p with ctx := c } t').ctx.log = c.log ++ fs ∧
          ∀ e ∈ fs, e.aside (natText n) = true := by
        rcases terminate_cases (o := o) (p := { p with ctx := c })
          ((does_terminate hdo t' rfl).imp (·.1) (·.1)) with ⟨h1, _⟩ | ⟨hs, a, h1, _⟩
        · exact ⟨_, h1, by simp [Effect.aside]⟩
        · exact ⟨_, by rw [h1, List.append_assoc], by simp [Effect.aside]⟩
      obtain ⟨fs, hf1, hf2⟩ := this
      refine h.mono (es := [.applied t.id] ++ es ++ fs) (by rw [hf1, hlog]; simp) ?_ hk
        (by simp [Pipe.terminate, Pipe.push]) (Nat.le_refl _) (fun e he hid => ⟨e, he, hid, rfl⟩)
      intro e he
      rcases List.mem_append.1 he with he | he
      · rcases List.mem_append.1 he with he | he
        · simp only [List.mem_singleton] at he; subst he; rfl
        · exact local_aside (hloc e he)
      · exact hf2 e he
    · simp at h2
  tear p hl h hq hd := tracked_teardown h
  bury p hd h := tracked_teardown h
  late p token s z hl h hg := h.push_other (.responded token s z) rfl _
  answer p token s z t out c es hl h hg ha hs hlog hdo := tracked_answer hl h hg ha hs hlog hdo
  answerStop p token s z t t' c es hl h hg ha hlog hdo := by
    rcases does_effects hdo with hloc | ⟨_, _, _, _, _, _, _, h2, _⟩
    · have : ∃ fs, (Pipe.terminate o { p.answering token s z with ctx := c } t').ctx.log = c.log ++ fs ∧
          ∀ e ∈ fs, e.aside (natText n) = true := by
        rcases terminate_cases (o := o) (p := { p.answering token s z with ctx := c })
          ((does_terminate hdo t' rfl).imp (·.1) (·.1)) with ⟨h1, _⟩ | ⟨hs, a, h1, _⟩
        · exact ⟨_, h1, by simp [Effect.aside]⟩
        · exact ⟨_, by rw [h1, List.append_assoc], by simp [Effect.aside]⟩
      obtain ⟨fs, hf1, hf2⟩ := this
      refine h.mono (es := [.responded token s z] ++ es ++ fs) (by rw [hf1, hlog]; simp) ?_ ?_
        (by simp [Pipe.terminate, Pipe.push]) (cnt_filter_le _ _ _)
        (fun e he hid => ⟨e, (List.mem_filter.1 he).1, hid, rfl⟩)
      · intro e he
        rcases List.mem_append.1 he with he | he
        · rcases List.mem_append.1 he with he | he
          · simp only [List.mem_singleton] at he; subst he; rfl
          · exact local_aside (hloc e he)
        · exact hf2 e he
      · intro y hy
        refine h.kids y ?_
        simp only [Pipe.tasks, Pipe.terminate, Pipe.push, Pipe.answering, List.nil_append, List.append_nil,
          List.mem_append, List.mem_map, List.mem_filter] at hy ⊢
        obtain ⟨e, he, rfl⟩ := hy
        exact .inr ⟨e, he.1, rfl⟩
    · simp at h2
  frame p c' hl h hf := by
    obtain ⟨es, h1, h2⟩ := hf.log
    refine h.frame h1 ?_
    intro e he
    have := h2 e he
    cases e <;> simp_all [Effect.isFilter, Effect.aside]
  frameD p c' hd h hf := by
    obtain ⟨es, h1, h2⟩ := hf.log
    refine h.frame h1 ?_
    intro e he
    have := h2 e he
    cases e <;> simp_all [Effect.isFilter, Effect.aside]
  lateD p token s z hd h hg := h.push_other (.responded token s z) rfl _
  answerD p token s z id guard hd h hg := by
    have hlog : (applyNoop (p.answering token s z).ctx guard).2.log
        = p.ctx.log ++ [.responded token s z] ++ [] := by cases guard <;> simp [applyNoop, Ctx.lower, Pipe.answering]
    refine (h.answered hg hlog (by simp) [] rfl ?_).2
    intro y hy
    refine h.kids y ?_
    simp only [Pipe.tasks, Pipe.answering, List.nil_append, List.append_nil, List.mem_append, List.mem_map,
      List.mem_filter] at hy ⊢
    rcases hy with hy | ⟨e, he, rfl⟩
    · exact .inl hy
    · exact .inr ⟨e, he.1, rfl⟩

end Verif
