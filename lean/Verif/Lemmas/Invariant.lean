import Verif.Lemmas.Executor
/-! The main invariant of a pipeline: which calls are in flight, and the pause counter. -/
set_option linter.unusedSimpArgs false
namespace Verif
open Spec

variable {H : Type} (o : Oracle H)

/-- The reply actions of a task. -/
def Core.children : Core → List Core
  | .grpc _ _ _ _ _ _ _ r => r
  | .pending _ _ _ _ r => r
  | _ => []

/-- `P` holds of the task and of all its reply actions, at every depth. -/
inductive Core.All (P : Core → Prop) : Core → Prop
  | mk (k : Core) (h : P k) (hc : ∀ c ∈ k.children, Core.All P c) : Core.All P k

theorem Core.All.here {P k} (h : Core.All P k) : P k := by cases h; assumption

theorem Core.All.sub {P k} (h : Core.All P k) : ∀ c ∈ k.children, Core.All P c := by cases h; assumption

/-- Predicates that survive the execution of tasks. -/
structure Closed (P : Core → Prop) : Prop where
  again : ∀ k k', P k → Again k k' → P k'
  sent : ∀ id deps guard pred msg var svc r, P (.grpc id deps guard pred msg var svc r) →
    P (.pending id guard svc var r)
  noop : ∀ id guard, P (.noop id guard)

theorem Core.All.again {P} (hP : Closed P) {k k'} (h : Core.All P k) (ha : Again k k') :
    Core.All P k' := by
  refine .mk k' (hP.again _ _ h.here ha) ?_
  cases ha with
  | same => exact h.sub
  | store => simp [Core.children]
  | tokenUsage => simp [Core.children]

/-- What an outcome puts into the queue or among the calls in flight. -/
def Outcome.tasks : Outcome → List PTask
  | .deferred _ t => [t]
  | .requeued ts => ts
  | _ => []

theorem Res.all {P : Core → Prop} (hP : Closed P) {k : Core} {c c' : Ctx H} {out : Outcome}
    (h : Res k c out c') (hk : Core.All P k) : ∀ t ∈ out.tasks, Core.All P t.strip := by
  cases h with
  | plain es hw hx hl ho =>
    cases ho with
    | requeued t ha =>
      intro t' ht
      simp only [Outcome.tasks, List.mem_singleton] at ht
      subst ht
      exact hk.again hP ha
    | _ => simp [Outcome.tasks]
  | sent id deps guard pred msg var svc onReply token bytes rid p hk' hp hx hr =>
    intro t' ht
    simp only [Outcome.tasks, List.mem_singleton] at ht
    subst ht hk'
    rw [hp]
    exact .mk _ (hP.sent _ _ _ _ _ _ _ _ hk.here) hk.sub
  | answered id guard svc var onReply es hk' hx hl ho =>
    cases ho with
    | requeued ts ha =>
      intro t' ht
      subst hk'
      refine hk.sub t'.strip ?_
      simp only [Core.children, ← ha]
      exact List.mem_map_of_mem ht
    | _ => simp [Outcome.tasks]
  | dropped => simp [Outcome.tasks]

/-- All tasks of a pipeline, with the ones still to be looked at. -/
def Pipe.tasks (p : Pipe H) (todo : List PTask) : List PTask :=
  p.queue ++ todo ++ p.deferred.map Prod.snd

/-- `P` holds of all tasks of a pipeline. -/
def Tasks (P : Core → Prop) (p : Pipe H) (todo : List PTask) : Prop :=
  ∀ t ∈ p.tasks todo, Core.All P t.strip

theorem mem_mapInsert {β : Type} {m : List (Nat × β)} {k : Nat} {v : β} {e : Nat × β}
    (h : e ∈ mapInsert m k v) : e = (k, v) ∨ e ∈ m := by
  unfold mapInsert at h
  rcases List.mem_cons.1 h with h | h
  · exact .inl h
  · exact .inr (List.mem_filter.1 h).1

theorem tasks_after {P : Core → Prop} (p : Pipe H) (t : PTask) (ts : List PTask) (out : Outcome)
    (c : Ctx H) (h : Tasks P p (t :: ts)) (hout : ∀ t ∈ out.tasks, Core.All P t.strip) (id : Text) :
    Tasks P (Pipe.after { p with ctx := c } id out) ts := by
  intro x hx
  simp only [Pipe.tasks, List.mem_append, List.mem_map] at hx
  have hq : ∀ x ∈ p.queue, Core.All P x.strip := fun x hx => h x (by simp [Pipe.tasks, hx])
  have ht : ∀ x ∈ ts, Core.All P x.strip := fun x hx => h x (by simp [Pipe.tasks, hx])
  have hd : ∀ e ∈ p.deferred, Core.All P e.2.strip := fun e he =>
    h e.2 (by simp only [Pipe.tasks, List.mem_append, List.mem_map]; exact .inr ⟨e, he, rfl⟩)
  cases out with
  | deferred token t' =>
    rcases hx with (hx | hx) | ⟨e, he, rfl⟩
    · exact hq x hx
    · exact ht x hx
    · rcases mem_mapInsert he with rfl | he
      · exact hout t' (by simp [Outcome.tasks])
      · exact hd e he
  | requeued ts' =>
    rcases hx with (hx | hx) | ⟨e, he, rfl⟩
    · simp only [Pipe.after, List.mem_append] at hx
      rcases hx with hx | hx
      · exact hq x hx
      · exact hout x hx
    · exact ht x hx
    · exact hd e he
  | _ =>
    rcases hx with (hx | hx) | ⟨e, he, rfl⟩
    · exact hq x hx
    · exact ht x hx
    · exact hd e he

theorem tasks_skip {P : Core → Prop} (p : Pipe H) (t : PTask) (ts : List PTask)
    (h : Tasks P p (t :: ts)) : Tasks P { p with queue := p.queue ++ [t] } ts := by
  intro x hx
  refine h x ?_
  simp only [Pipe.tasks, List.mem_append, List.mem_cons, List.not_mem_nil, or_false] at hx ⊢
  rcases hx with ((hx | hx) | hx) | hx
  · exact .inl (.inl hx)
  · exact .inl (.inr (.inl hx))
  · exact .inl (.inr (.inr hx))
  · exact .inr hx

theorem tasks_terminate {P : Core → Prop} (p : Pipe H) (todo : List PTask) (t' : PTask) (c : Ctx H)
    (h : Tasks P p todo) : Tasks P (Pipe.terminate o { p with ctx := c } t') [] := by
  intro x hx
  refine h x ?_
  simp only [Pipe.terminate, Pipe.push, Pipe.tasks, List.mem_append, List.not_mem_nil, or_false, false_or] at hx ⊢
  exact .inr hx

theorem tasks_noop {P : Core → Prop} (hP : Closed P) (id guard) : Core.All P (.noop id guard) :=
  .mk _ (hP.noop id guard) (by simp [Core.children])

theorem tasks_runTeardown {P : Core → Prop} (hP : Closed P) (p : Pipe H) (u : Text)
    (h : Tasks P p []) : Tasks P (p.runTeardownAction o u) [] := by
  unfold Pipe.runTeardownAction
  dsimp only
  split
  · exact h
  · intro x hx
    simp only [Pipe.tasks, List.mem_append, List.not_mem_nil, or_false, List.mem_map] at hx
    rcases hx with hx | ⟨e, he, rfl⟩
    · exact h x (by simp only [Pipe.tasks, List.mem_append]; exact .inl (.inl hx))
    · rcases mem_mapInsert he with rfl | he
      · exact tasks_noop hP _ _
      · exact h e.2 (by simp only [Pipe.tasks, List.mem_append, List.mem_map]; exact .inr ⟨e, he, rfl⟩)

theorem tasks_executeTeardown {P : Core → Prop} (hP : Closed P) (p : Pipe H) (h : Tasks P p []) :
    Tasks P (p.executeTeardown o) [] := by
  refine executeTeardown_ind o (fun q => Tasks P q []) p ?_ fun q u hq => tasks_runTeardown o hP q u hq
  intro x hx
  simp only [Pipe.replaceNoop, Pipe.tasks, List.mem_append, List.not_mem_nil, or_false, List.mem_map] at hx
  rcases hx with hx | ⟨e, ⟨e', he, rfl⟩, rfl⟩
  · exact h x (by simp only [Pipe.tasks, List.mem_append]; exact .inl (.inl hx))
  · exact tasks_noop hP _ _

theorem tasks_evalPipe {P : Core → Prop} (hP : Closed P) (p : Pipe H) (h : Tasks P p []) :
    Tasks P (p.evalPipe o) [] := by
  have := evalPipe_ind o (Tasks P) (fun q => Tasks P q []) (fun q => Tasks P q [])
    (fun q t ts h _ => tasks_skip q t ts h)
    (fun q t ts out c h _ ha _ => by
      have h1 := apply_res o (q.ctx.push (.applied t.id)) t
      rw [ha] at h1
      exact tasks_after q t ts out c h (h1.all hP (h t (by simp [Pipe.tasks]))) t.id)
    (fun q t ts t' c h _ ha => tasks_terminate o q _ t' c h)
    (fun q h => tasks_executeTeardown o hP q h)
    (fun q h _ _ => tasks_executeTeardown o hP q h)
    p (by
      intro x hx
      refine h x ?_
      simpa [Pipe.tasks] using hx)
  simpa using this

theorem mapGet_mem {β : Type} {m : List (Nat × β)} {k : Nat} {v : β} (h : mapGet m k = some v) :
    (k, v) ∈ m := by
  unfold mapGet at h
  simp only [Option.map_eq_some_iff] at h
  obtain ⟨e, he, rfl⟩ := h
  have h1 := List.mem_of_find?_eq_some he
  have h2 := List.find?_some he
  simp only [decide_eq_true_eq] at h2
  subst h2
  exact h1

theorem mapGet_none {β : Type} {m : List (Nat × β)} {k : Nat} (h : mapGet m k = none) :
    k ∉ m.map Prod.fst := by
  unfold mapGet at h
  simp only [Option.map_eq_none_iff, List.find?_eq_none, decide_eq_true_eq] at h
  intro hm
  obtain ⟨e, he, hk⟩ := List.mem_map.1 hm
  exact h e he hk

theorem setResponse_queue (p : Pipe H) (s z : Nat) : (p.setResponse s z).queue = p.queue := by
  unfold Pipe.setResponse; split <;> rfl

theorem setResponse_deferred (p : Pipe H) (s z : Nat) : (p.setResponse s z).deferred = p.deferred := by
  unfold Pipe.setResponse; split <;> rfl

theorem tasks_digestPipe {P : Core → Prop} (hP : Closed P) (p : Pipe H) (token s z : Nat)
    (h : Tasks P p []) : Tasks P (p.digestPipe o token s z) [] := by
  unfold Pipe.digestPipe
  dsimp only
  split
  · exact tasks_evalPipe o hP _ h
  · rename_i t hg
    have hg' := mapGet_mem hg
    have ht : Core.All P t.strip := by
      refine h t ?_
      simp only [Pipe.tasks, List.mem_append, List.mem_map]
      exact .inr ⟨_, hg', rfl⟩
    have h0 : Tasks P (((p.push (.responded token s z)).removeToken token).setResponse s z) [] := by
      intro x hx
      refine h x ?_
      simp only [Pipe.tasks, setResponse_queue, setResponse_deferred, List.mem_append, List.not_mem_nil,
        or_false, List.mem_map, Pipe.removeToken, Pipe.push, List.mem_filter] at hx ⊢
      rcases hx with hx | ⟨e, ⟨he, _⟩, rfl⟩
      · exact .inl hx
      · exact .inr ⟨e, he, rfl⟩
    have hr := apply_res o (((p.push (.responded token s z)).removeToken token).setResponse s z).ctx t
    generalize ((p.push (.responded token s z)).removeToken token).setResponse s z = q at h0 hr ⊢
    generalize PTask.apply o q.ctx t = r at hr ⊢
    obtain ⟨out, c⟩ := r
    have ha := hr.all hP ht
    have hq : ∀ x ∈ q.queue, Core.All P x.strip := fun x hx => h0 x (by simp [Pipe.tasks, hx])
    have hd : ∀ e ∈ q.deferred, Core.All P e.2.strip := fun e he =>
      h0 e.2 (by simp only [Pipe.tasks, List.mem_append, List.mem_map]; exact .inr ⟨e, he, rfl⟩)
    cases out with
    | done => exact tasks_evalPipe o hP _ h0
    | failed => exact tasks_evalPipe o hP _ h0
    | requeued ts =>
      refine tasks_evalPipe o hP _ ?_
      intro x hx
      simp only [Pipe.tasks, Pipe.complete, Pipe.push, List.mem_append, List.not_mem_nil, or_false,
        List.mem_map] at hx
      rcases hx with (hx | hx) | ⟨e, he, rfl⟩
      · exact ha x hx
      · exact hq x hx
      · exact hd e he
    | deferred tok t' =>
      refine tasks_evalPipe o hP _ ?_
      intro x hx
      simp only [Pipe.tasks, Pipe.defer, List.mem_append, List.not_mem_nil, or_false,
        List.mem_map] at hx
      rcases hx with hx | ⟨e, he, rfl⟩
      · exact hq x hx
      · rcases mem_mapInsert he with rfl | he
        · exact ha t' (by simp [Outcome.tasks])
        · exact hd e he
    | terminate t' =>
      exact tasks_evalPipe o hP _ (tasks_executeTeardown o hP _ (tasks_terminate o q [] t' c h0))

end Verif
