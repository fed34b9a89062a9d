import Verif.Lemmas.History
import Verif.Model.Executor
/-! Induction principles for the executor. -/
set_option linter.unusedSimpArgs false
namespace Verif
open Spec

variable {H : Type} (o : Oracle H)

/-- The pipeline after an action that did not end it. -/
def Pipe.after (p : Pipe H) (id : Text) : Outcome → Pipe H
  | .done => p.complete id
  | .deferred token t => p.defer token t
  | .requeued ts => { p with queue := p.queue ++ ts }
  | .failed => p.push (.failed id)
  | .terminate _ => p

/-- Does the outcome end the pipeline? -/
def Outcome.stops : Outcome → Bool
  | .terminate _ => true
  | _ => false

theorem processTasks_ind (P : Pipe H → List PTask → Prop) (R : Pipe H → Prop)
    (skip : ∀ p t ts, P p (t :: ts) → (∃ d ∈ t.deps, d ∉ p.completed) →
      P { p with queue := p.queue ++ [t] } ts)
    (go : ∀ p t ts out c, P p (t :: ts) → (∀ d ∈ t.deps, d ∈ p.completed) →
      t.apply o (p.ctx.push (.applied t.id)) = (out, c) → out.stops = false →
      P (Pipe.after { p with ctx := c } t.id out) ts)
    (stop : ∀ p t ts t' c, P p (t :: ts) → (∀ d ∈ t.deps, d ∈ p.completed) →
      t.apply o (p.ctx.push (.applied t.id)) = (.terminate t', c) →
      R (Pipe.terminate o { p with ctx := c } t'))
    (ts : List PTask) (p : Pipe H) (h : P p ts) :
    (P (p.processTasks o ts).1 [] ∧ (p.processTasks o ts).2 = false) ∨
      (R (p.processTasks o ts).1 ∧ (p.processTasks o ts).2 = true) := by
  induction ts generalizing p with
  | nil => left; exact ⟨h, rfl⟩
  | cons t ts ih =>
    unfold Pipe.processTasks
    split
    · rename_i hd
      refine ih _ (skip p t ts h ?_)
      simp only [List.any_eq_true] at hd
      obtain ⟨d, hd, hn⟩ := hd
      exact ⟨d, hd, by simpa using hn⟩
    · rename_i hd
      have hdeps : ∀ d ∈ t.deps, d ∈ p.completed := by
        intro d hm
        by_cases hc : d ∈ p.completed
        · exact hc
        · exact absurd (List.any_eq_true.2 ⟨d, hm, by simpa using hc⟩) hd
      have hgo := go p t ts
      have hstop := stop p t ts
      generalize t.apply o (p.ctx.push (.applied t.id)) = r at hgo hstop ⊢
      obtain ⟨out, c⟩ := r
      cases out with
      | done => exact ih _ (hgo _ _ h hdeps rfl rfl)
      | deferred token t' => exact ih _ (hgo _ _ h hdeps rfl rfl)
      | requeued ts' => exact ih _ (hgo _ _ h hdeps rfl rfl)
      | failed => exact ih _ (hgo _ _ h hdeps rfl rfl)
      | terminate t' => right; exact ⟨hstop _ _ h hdeps rfl, rfl⟩

theorem foldl_ind {α β : Type} (P : β → Prop) (f : β → α → β) (h : ∀ b a, P b → P (f b a))
    (l : List α) (b : β) (hb : P b) : P (l.foldl f b) := by
  induction l generalizing b with
  | nil => exact hb
  | cons a l ih => exact ih _ (h b a hb)

theorem executeTeardown_ind (P : Pipe H → Prop) (p : Pipe H)
    (h0 : P { p.replaceNoop with teardown := [] })
    (h : ∀ p u, P p → P (p.runTeardownAction o u)) : P (p.executeTeardown o) :=
  foldl_ind P _ h _ _ h0

/-- Evaluation: `P` for running pipelines, `R` right after the early end, `D` afterwards. -/
theorem evalPipe_ind (P : Pipe H → List PTask → Prop) (R D : Pipe H → Prop)
    (skip : ∀ p t ts, P p (t :: ts) → (∃ d ∈ t.deps, d ∉ p.completed) →
      P { p with queue := p.queue ++ [t] } ts)
    (go : ∀ p t ts out c, P p (t :: ts) → (∀ d ∈ t.deps, d ∈ p.completed) →
      t.apply o (p.ctx.push (.applied t.id)) = (out, c) → out.stops = false →
      P (Pipe.after { p with ctx := c } t.id out) ts)
    (stop : ∀ p t ts t' c, P p (t :: ts) → (∀ d ∈ t.deps, d ∈ p.completed) →
      t.apply o (p.ctx.push (.applied t.id)) = (.terminate t', c) →
      R (Pipe.terminate o { p with ctx := c } t'))
    (dead : ∀ p, R p → D (p.executeTeardown o))
    (tear : ∀ p, P p [] → p.queue = [] → p.deferred = [] → P (p.executeTeardown o) [])
    (p : Pipe H) (h : P { p with queue := [] } p.queue) :
    P (p.evalPipe o) [] ∨ D (p.evalPipe o) := by
  have h1 := processTasks_ind o P R skip go stop p.queue { p with queue := [] } h
  unfold Pipe.evalPipe
  generalize Pipe.processTasks o { p with queue := [] } p.queue = r at h1 ⊢
  obtain ⟨q, b⟩ := r
  rcases h1 with ⟨h1, h2⟩ | ⟨h1, h2⟩
  · dsimp only at h2; subst h2
    left
    dsimp only at h1 ⊢
    split
    · rename_i hc
      simp only [Bool.and_eq_true, List.isEmpty_iff] at hc
      exact tear _ h1 hc.1.1 hc.1.2
    · exact h1
  · dsimp only at h2; subst h2
    right
    exact dead _ h1

/-- Effects that come from a pipeline. -/
def Effect.isPipe : Effect → Bool
  | .dispatch .. => true
  | .exported _ => true
  | .reply .. => true
  | .headersSet .. => true
  | .attrSet .. => true
  | .denied => true
  | .errors => true
  | .applied _ => true
  | .completed _ => true
  | .failed _ => true
  | .callFailed _ => true
  | .stored .. => true
  | .ended => true
  | .teardown => true
  | _ => false

theorem isLocal_isPipe {e : Effect} (h : e.isLocal = true) : e.isPipe = true := by
  cases e <;> simp_all [Effect.isLocal, Effect.isPipe]

/-- The history grew by effects of the pipeline. -/
def Grew (a b : List Effect) : Prop := ∃ es, b = a ++ es ∧ ∀ e ∈ es, e.isPipe = true

theorem Grew.refl (a : List Effect) : Grew a a := ⟨[], by simp⟩

theorem Grew.trans {a b c : List Effect} (h : Grew a b) (g : Grew b c) : Grew a c := by
  obtain ⟨es, rfl, he⟩ := h
  obtain ⟨fs, rfl, hf⟩ := g
  refine ⟨es ++ fs, by simp, fun e hm => ?_⟩
  rcases List.mem_append.1 hm with hm | hm
  · exact he e hm
  · exact hf e hm

theorem Grew.snoc {a b : List Effect} (h : Grew a b) {e : Effect} (he : e.isPipe = true) :
    Grew a (b ++ [e]) := h.trans ⟨[e], rfl, by simpa using he⟩

theorem apply_grew (c : Ctx H) (t : PTask) : Grew c.log (t.apply o c).2.log := by
  have h := apply_res o c t
  generalize t.apply o c = r at h ⊢
  obtain ⟨out, c'⟩ := r
  cases h with
  | plain es _ hx hl _ => exact ⟨es, hx.log, fun e he => isLocal_isPipe (hl e he)⟩
  | sent _ _ _ _ _ _ _ _ _ _ _ _ _ _ hx _ => exact ⟨_, hx.log, by simp [Effect.isPipe]⟩
  | answered _ _ _ _ _ es _ hx hl _ => exact ⟨es, hx.log, fun e he => isLocal_isPipe (hl e he)⟩
  | dropped _ _ _ hx => exact ⟨_, hx.log, by simp⟩

theorem after_grew (p : Pipe H) (id : Text) (out : Outcome) :
    Grew p.ctx.log (p.after id out).ctx.log := by
  cases out
  · exact ⟨[.completed id], rfl, by simp [Effect.isPipe]⟩
  · exact .refl _
  · exact .refl _
  · exact ⟨[.failed id], rfl, by simp [Effect.isPipe]⟩
  · exact .refl _

theorem terminate_grew (p : Pipe H) (t : PTask) : Grew p.ctx.log (p.terminate o t).ctx.log :=
  (apply_grew o p.ctx t).snoc rfl

theorem runTeardownAction_grew (p : Pipe H) (u : Text) :
    Grew p.ctx.log (p.runTeardownAction o u).ctx.log := by
  unfold Pipe.runTeardownAction
  dsimp only
  split
  · exact ⟨[.teardown], rfl, by simp [Effect.isPipe]⟩
  · rename_i token _ _
    exact ⟨[.teardown, .exported token], by simp [Pipe.push, Ctx.push, Ctx.withHost, Pipe.defer],
      by simp [Effect.isPipe]⟩

theorem executeTeardown_grew (p : Pipe H) : Grew p.ctx.log (p.executeTeardown o).ctx.log :=
  executeTeardown_ind o (fun q => Grew p.ctx.log q.ctx.log) p (.refl _)
    fun q u h => h.trans (runTeardownAction_grew o q u)

theorem evalPipe_grew (p : Pipe H) : Grew p.ctx.log (p.evalPipe o).ctx.log := by
  have := evalPipe_ind o (fun q _ => Grew p.ctx.log q.ctx.log) (fun q => Grew p.ctx.log q.ctx.log)
    (fun q => Grew p.ctx.log q.ctx.log)
    (fun q t ts h _ => h)
    (fun q t ts out c h _ ha _ => by
      have h1 := apply_grew o (q.ctx.push (.applied t.id)) t
      rw [ha] at h1
      exact ((h.snoc (e := .applied t.id) rfl).trans h1).trans (after_grew { q with ctx := c } t.id out))
    (fun q t ts t' c h _ ha => by
      have h1 := apply_grew o (q.ctx.push (.applied t.id)) t
      rw [ha] at h1
      exact ((h.snoc (e := .applied t.id) rfl).trans h1).trans (terminate_grew o { q with ctx := c } t'))
    (fun q h => h.trans (executeTeardown_grew o q))
    (fun q h _ _ => h.trans (executeTeardown_grew o q))
    p (.refl _)
  simpa using this

theorem setResponse_log (p : Pipe H) (s z : Nat) : (p.setResponse s z).ctx.log = p.ctx.log := by
  unfold Pipe.setResponse; split <;> rfl

theorem digestPipe_grew (p : Pipe H) (token s z : Nat) :
    Grew (p.ctx.log ++ [.responded token s z]) (p.digestPipe o token s z).ctx.log := by
  unfold Pipe.digestPipe
  dsimp only
  split
  · exact evalPipe_grew o (p.push (.responded token s z))
  · rename_i t _
    have h1 := apply_grew o (((p.push (.responded token s z)).removeToken token).setResponse s z).ctx t
    rw [setResponse_log] at h1
    generalize PTask.apply o (((p.push (.responded token s z)).removeToken token).setResponse s z).ctx t
      = r at h1 ⊢
    obtain ⟨out, c⟩ := r
    have h1 : Grew (p.ctx.log ++ [.responded token s z]) c.log := h1
    cases out with
    | done => exact (h1.snoc rfl).trans (evalPipe_grew o _)
    | requeued ts => exact (h1.snoc rfl).trans (evalPipe_grew o _)
    | deferred => exact h1.trans (evalPipe_grew o (Pipe.defer _ _ _))
    | failed => exact (h1.snoc rfl).trans (evalPipe_grew o _)
    | terminate t' =>
      exact ((h1.trans (terminate_grew o { ((p.push (.responded token s z)).removeToken token).setResponse
        s z with ctx := c } t')).trans (executeTeardown_grew o _)).trans (evalPipe_grew o _)

end Verif
