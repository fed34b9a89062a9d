import Verif.Lemmas.Identity
import Verif.Lemmas.Teardown
import Verif.Lemmas.DueTasks
import Verif.Props.Hosted
/-! C69: which calls get a span of their own. -/
set_option linter.unusedSimpArgs false
namespace Verif.Props
open Verif Spec

variable {H : Type} {o : Oracle H}

/-- The task runs in a span of its own. -/
def Traced : PTask → Prop
  | .tracing _ => True
  | _ => False

/-- The action is a call of a service. -/
def CallOf (a : Action) : Prop := ∃ head kind svc deny var msg acts, a = .grpc head (.call kind svc deny) var msg acts

theorem actionTasks_traced (c : Ctx H) (rd : List Expr) (w : Bool) (a : Action) (ts td c')
    (h : actionTasks o c rd w a = some (ts, td, c')) :
    ∀ t ∈ ts, (∃ fields, t = .core (.tokenUsage none fields)) ∨
      t.id = a.head.id ∧ (Traced t ↔ CallOf a ∧ w = true) := by
  unfold actionTasks at h
  split at h
  · simp at h
  · rename_i k c1 heq
    obtain ⟨hm, hq⟩ := toCore_made o a c k c1 heq
    split at h
    · simp only [Option.some.injEq, Prod.mk.injEq] at h
      obtain ⟨rfl, -, rfl⟩ := h
      intro t ht
      simp only [List.mem_singleton] at ht
      subst ht
      exact .inr ⟨hm.id, by simp [Traced, CallOf]⟩
    · simp only [Option.some.injEq, Prod.mk.injEq] at h
      obtain ⟨rfl, -, rfl⟩ := h
      intro t ht
      rcases List.mem_append.1 ht with ht | ht
      · split at ht
        · cases ht
        · rw [List.mem_singleton] at ht; exact .inl ⟨_, ht⟩
      · rw [List.mem_singleton] at ht
        subst ht
        refine .inr ?_
        cases w with
        | true => exact ⟨hm.id, by simp [Traced, CallOf]⟩
        | false => exact ⟨hm.id, by simp [Traced, CallOf]⟩
    · rename_i h1 h2
      simp only [Option.some.injEq, Prod.mk.injEq] at h
      obtain ⟨rfl, -, rfl⟩ := h
      intro t ht
      simp only [List.mem_singleton] at ht
      subst ht
      refine .inr ⟨hm.id, ?_⟩
      simp only [Traced, false_iff]
      rintro ⟨⟨_, _, _, _, _, _, _, he⟩, _⟩
      exact h2 _ _ _ _ _ _ _ he

theorem tasksLoop_traced (rd : List Expr) (w : Bool) (as : List Action) (c : Ctx H) (ts td c')
    (h : tasksLoop o c rd w as = some (ts, td, c')) :
    ∀ t ∈ ts, (∃ fields, t = .core (.tokenUsage none fields)) ∨
      ∃ a ∈ as, t.id = a.head.id ∧ (Traced t ↔ CallOf a ∧ w = true) := by
  induction as generalizing c ts td c' with
  | nil =>
    simp only [tasksLoop, Option.some.injEq, Prod.mk.injEq] at h
    obtain ⟨rfl, -, rfl⟩ := h
    intro t ht; cases ht
  | cons a as ih =>
    unfold tasksLoop at h
    split at h
    · simp at h
    · rename_i ts1 td1 c1 heq
      have h1 := actionTasks_traced c rd w a ts1 td1 c1 heq
      split at h
      · simp at h
      · rename_i ts2 td2 c2 heq2
        have h2 := ih c1 ts2 td2 c2 heq2
        simp only [Option.some.injEq, Prod.mk.injEq] at h
        obtain ⟨rfl, -, rfl⟩ := h
        intro t ht
        rcases List.mem_append.1 ht with ht | ht
        · exact (h1 t ht).imp_right fun h => ⟨a, by simp, h⟩
        · exact (h2 t ht).imp_right fun ⟨a', ha', h⟩ => ⟨a', by simp [ha'], h⟩

theorem tracing_exports (b : Blueprint) : b.tracingEnabled = !(exports b.actions).isEmpty := by
  unfold Blueprint.tracingEnabled
  induction b.actions with
  | nil => rfl
  | cons a as ih =>
    rw [List.any_cons, ih]
    cases a with
    | grpc head service var msg acts =>
      cases service with
      | call kind svc deny => simp [exports]
      | tracing up => cases up <;> simp [exports]
    | _ => simp [exports]

/-- C69: a call that an action of the configuration makes runs in a span of its own exactly if spans are exported, and
no other action of the configuration ever does. -/
theorem C69_decorated {parse : Text → Option Expr} {cfg : PluginConfig} {factory : Factory} {host : H} {s : ActionSet}
    (hs : ServedBy o parse cfg factory host s) (p : Pipe H) (hp : factory.build o { host := host } = .pipeline p)
    (i : Nat) (t : TypedAction) (a : ActionConfig) (ha : s.actions[i]? = some a)
    (hst : standsFor cfg.services a = some t) :
    ∀ task ∈ p.queue, task.id = natText i →
      (Traced task ↔ (∃ head service var message replies, t = .grpc head service var message replies) ∧
        exportsTraces cfg = true) := by
  obtain ⟨b, b', hsel, hcomp, rfl⟩ := hs
  have hfs := compile_fromSet parse cfg s b' hcomp
  generalize ({ b' with actions := b'.actions ++ (devModeAction cfg).toList } : Blueprint) = b at hsel hfs
  obtain ⟨xs, hxs, hlen, hget⟩ := fromSet_get hfs
  have hen : b.tracingEnabled = exportsTraces cfg := by
    obtain ⟨ys, hys, hc⟩ := hfs.actions
    rw [tracing_exports, hys, exports_append, compileLoop_exports parse cfg.services 0 _ _ hc, List.nil_append]
    have := exports_dev cfg
    cases he : exportsTraces cfg with
    | true =>
      rw [he] at this
      cases hd : exports (devModeAction cfg).toList with
      | nil => rw [hd] at this; cases this
      | cons x l => rfl
    | false =>
      rw [he] at this
      have h0 := List.eq_nil_of_length_eq_zero this
      simp [h0]
  unfold Factory.build at hp
  split at hp
  · simp at hp
  · simp at hp
  · rename_i b2 c1 heq
    rw [heq] at hsel
    cases hsel
    dsimp only at hp
    split at hp
    · simp at hp
    · rename_i ts td c2 heq2
      split at hp
      · simp at hp
      · simp only [Build.pipeline.injEq] at hp
        subst hp
        unfold Blueprint.toTasks at heq2
        intro task ht hid
        have hti := tasksLoop_traced _ _ _ _ _ _ _ heq2 task ht
        rw [hen] at hti
        rcases hti with ⟨fields, rfl⟩ | ⟨x, hx, hxid, htr⟩
        · exact absurd (show "token_usage".toList = natText i from hid) (natText_ne (c := 't') (by decide) rfl)
        · rw [htr]
          rw [hxs] at hx
          rcases List.mem_append.1 hx with hx | hx
          · obtain ⟨j, hj, rfl⟩ := List.getElem_of_mem hx
            obtain ⟨a', deps, t', y, h1, _, h3, hco, heq⟩ := hget j hj
            have hji : j = i := by
              rw [hid, heq, withDeps_id, hco.head_id] at hxid
              exact (natText_inj hxid).symm
            subst hji
            rw [h1] at ha
            cases ha
            have ht' : t' = t := by
              have := standsFor_iff.1 h3
              rw [hst] at this
              exact (Option.some.inj this).symm
            subst ht'
            rw [heq]
            refine and_congr_left fun _ => ?_
            cases hco <;> simp [CallOf, Action.withDeps]
          · obtain ⟨head, service, var, rfl, hid', _⟩ := devMode_shape (by simpa using hx)
            have : ("kuadrant.devMode".toList : Text) ≠ natText i := natText_ne (c := 'k') (by decide) rfl
            rw [hid] at hxid
            exact absurd (hid'.symm.trans hxid.symm) this

/-- Both ways: with and without an exporter. -/
example : ([true, false].map fun tracing =>
    match (Demo.factory (Demo.config [Demo.grpc "deny", .typed (Demo.headers)] (some "x-id") tracing)).build Demo.world { host := 0 } with
    | .pipeline p => p.queue.map fun t => (t.id, match t with | .tracing _ => true | _ => false)
    | _ => []) =
    [[("0".toList, true), ("1".toList, false), ("kuadrant.devMode".toList, false)],
      [("0".toList, false), ("1".toList, false), ("kuadrant.devMode".toList, false)]] ∧
    exportsTraces (Demo.config [] (some "x-id") true) = true ∧ exportsTraces (Demo.config [] (some "x-id")) = false := by
  decide +kernel

end Verif.Props
