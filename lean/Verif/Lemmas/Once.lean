import Verif.Lemmas.Steps
import Verif.Lemmas.Compile
import Verif.Spec.Config
/-! Direct replies of a pipeline. -/
set_option linter.unusedSimpArgs false
namespace Verif
open Spec

variable {H : Type} {o : Oracle H}

/-- Predicates on tasks as invariants. -/
theorem tasks_extra {P : Core → Prop} (hP : Closed P) :
    Extra o (fun p : Pipe H => Tasks P p) (fun _ => True) (fun _ => True) where
  opens p _ h := by
    intro x hx
    refine h x ?_
    simpa [Pipe.tasks] using hx
  skip p t ts _ h _ := tasks_skip p t ts h
  go p t ts out c es _ h _ ha _ _ _ := by
    have h1 := apply_res o (p.ctx.push (.applied t.id)) t
    rw [ha] at h1
    exact tasks_after p t ts out c h (h1.all hP (h t (by simp [Pipe.tasks]))) t.id
  stop _ _ _ _ _ _ _ _ _ _ _ _ := trivial
  tear p _ h _ _ := tasks_executeTeardown o hP p h
  bury _ _ _ := trivial
  late _ _ _ _ _ h _ := h
  answer p token s z t out c es _ h hg ha _ _ _ := by
    have hr := apply_res o (p.answering token s z).ctx t
    rw [ha] at hr
    have hq : ∀ x ∈ p.queue, Core.All P x.strip := fun x hx => h x (by simp [Pipe.tasks, hx])
    have hd : ∀ e ∈ p.deferred, Core.All P e.2.strip := fun e he =>
      h e.2 (by simp only [Pipe.tasks, List.mem_append, List.mem_map]; exact .inr ⟨e, he, rfl⟩)
    have hall := hr.all hP (hd _ (mapGet_mem hg))
    have hd' : ∀ e ∈ (p.answering token s z).deferred, Core.All P e.2.strip := fun e he =>
      hd e (List.mem_filter.1 he).1
    intro x hx
    simp only [Pipe.tasks, List.append_nil, List.mem_append, List.mem_map] at hx
    cases out with
    | requeued ts =>
      rcases hx with hx | ⟨e, he, rfl⟩
      · rcases List.mem_append.1 hx with hx | hx
        · exact hall x hx
        · exact hq x hx
      · exact hd' e he
    | deferred tok t' =>
      rcases hx with hx | ⟨e, he, rfl⟩
      · exact hq x hx
      · rcases mem_mapInsert he with rfl | he
        · exact hall t' (by simp [Outcome.tasks])
        · exact hd' e he
    | _ =>
      rcases hx with hx | ⟨e, he, rfl⟩
      · exact hq x hx
      · exact hd' e he
  answerStop _ _ _ _ _ _ _ _ _ _ _ _ _ _ := trivial
  frame _ _ _ h _ := h
  frameD _ _ _ _ _ := trivial
  lateD _ _ _ _ _ _ _ := trivial
  answerD _ _ _ _ _ _ _ _ _ := trivial

/-- Deny tasks are terminal. -/
def denyTerminal (k : Core) : Prop := ∀ id pred e terminal, k = .sendReply id pred e terminal → terminal = true

theorem denyTerminal_closed : Closed denyTerminal where
  again k k' h ha := by
    cases ha with
    | same => exact h
    | store => simp [denyTerminal]
    | tokenUsage => simp [denyTerminal]
  sent := by simp [denyTerminal]
  noop := by simp [denyTerminal]

/-- A task that does not end the pipeline has no accepted reply. -/
theorem does_no_reply {t : PTask} {out : Outcome} {es : List Effect} (h : TDoes t out es)
    (hk : denyTerminal t.strip) (hs : out.stops = false) : ∀ e ∈ es, isAcceptedReply e = false := by
  have hfail : ∀ {t out es}, TDoes t out es → out = .failed → ∀ e ∈ es, isAcceptedReply e = false := by
    intro t out es h
    induction h with
    | core h =>
      intro hout
      cases h with
      | replied _ _ _ terminal => cases terminal <;> simp at hout
      | headers _ _ _ _ terminal => cases terminal <;> simp at hout
      | stored _ _ _ _ _ terminal => cases terminal <;> simp at hout
      | _ => simp_all [isAcceptedReply]
    | tracing h ih =>
      rename_i t out es
      cases out <;> simp [Outcome.traced] at ih ⊢
      exact ih
    | _ => simp
  induction h with
  | core h =>
    cases h with
    | replied id pred e terminal s hs' b =>
      have := hk id pred e terminal rfl
      subst this
      simp [Outcome.stops] at hs
    | stored _ _ _ path x terminal s v pre hp =>
      rcases hp with ⟨rfl, _⟩ | ⟨b, w, rfl, _⟩ <;> simp [isAcceptedReply]
    | _ => simp [isAcceptedReply]
  | abort h => simp [Outcome.stops] at hs
  | allow h =>
    intro e he
    rcases List.mem_append.1 he with he | he
    · exact hfail h rfl e he
    · simp only [List.mem_singleton] at he; subst he; rfl
  | tracing h ih =>
    rename_i t out es
    refine ih hk ?_
    cases out <;> simp_all [Outcome.traced, Outcome.stops]
  | sent h ih => exact ih hk rfl
  | done h ih => exact ih hk rfl
  | again h ih => exact ih hk rfl
  | stop h ih => exact ih hk hs

/-- No reply was accepted. -/
def NoReply (log : List Effect) : Prop := ∀ e ∈ log, isAcceptedReply e = false

theorem NoReply.append {a b : List Effect} (h : NoReply a) (g : NoReply b) : NoReply (a ++ b) := by
  intro e he
  rcases List.mem_append.1 he with he | he
  · exact h e he
  · exact g e he

theorem NoReply.count {a : List Effect} (h : NoReply a) : a.countP isAcceptedReply = 0 := by
  rw [List.countP_eq_zero]
  intro e he
  simp [h e he]

/-- At most one reply was accepted. -/
def OneReply (log : List Effect) : Prop := log.countP isAcceptedReply ≤ 1

theorem NoReply.one {a : List Effect} (h : NoReply a) : OneReply a := by
  simp [OneReply, h.count]

theorem OneReply.append {a b : List Effect} (h : OneReply a) (g : NoReply b) : OneReply (a ++ b) := by
  unfold OneReply at *
  rw [List.countP_append, g.count]
  exact h

theorem tear_noReply {es : List Effect} (h : ∀ e ∈ es, e.isTear = true) : NoReply es := by
  intro e he
  have := h e he
  cases e <;> simp_all [Effect.isTear, isAcceptedReply]

theorem filter_noReply {es : List Effect} (h : ∀ e ∈ es, e.isFilter = true) : NoReply es := by
  intro e he
  have := h e he
  cases e <;> simp_all [Effect.isFilter, isAcceptedReply]

/-- Ending the pipeline yields at most one accepted reply. -/
theorem terminate_one {p : Pipe H} {t t' : PTask} {es pre : List Effect}
    (hd : TDoes t (.terminate t') es) (hl : p.ctx.log = pre ++ es) (hpre : NoReply pre) :
    OneReply (p.terminate o t').ctx.log := by
  rcases does_terminate hd t' rfl with ⟨h1, s, hs, b, rfl⟩ | ⟨h1, h2⟩
  · rw [terminate_log, traced_log h1]
    show OneReply (p.ctx.log ++ [.ended])
    rw [hl]
    unfold OneReply
    rw [List.countP_append, List.countP_append, hpre.count]
    simp [isAcceptedReply]
  · rcases terminate_cases (o := o) (p := p) (.inr h1) with ⟨hx, _⟩ | ⟨hs, a, hx, _⟩
    · rw [hx, hl]
      exact ((hpre.append h2).one).append (by simp [NoReply, isAcceptedReply])
    · rw [hx, hl]
      refine OneReply.append ?_ (by simp [NoReply, isAcceptedReply])
      unfold OneReply
      rw [List.countP_append, (hpre.append h2).count]
      cases a <;> simp [isAcceptedReply]

theorem reply_extra : Extra o
    (fun (p : Pipe H) todo => Tasks denyTerminal p todo ∧ NoReply p.ctx.log)
    (fun p => OneReply p.ctx.log) (fun p => OneReply p.ctx.log) where
  opens p hl h := ⟨(tasks_extra (o := o) denyTerminal_closed).opens p hl h.1, h.2⟩
  skip p t ts hl h hd := ⟨(tasks_extra (o := o) denyTerminal_closed).skip p t ts hl h.1 hd, h.2⟩
  go p t ts out c es hl h hd ha hs hlog hdo := by
    refine ⟨(tasks_extra (o := o) denyTerminal_closed).go p t ts out c es hl h.1 hd ha hs hlog hdo, ?_⟩
    have hk := (h.1 t (by simp [Pipe.tasks])).here
    have h1 : NoReply c.log := by
      rw [hlog]
      exact (h.2.append (by simp [NoReply, isAcceptedReply])).append (does_no_reply hdo hk hs)
    cases out with
    | done => exact h1.append (by simp [NoReply, isAcceptedReply])
    | failed => exact h1.append (by simp [NoReply, isAcceptedReply])
    | _ => exact h1
  stop p t ts t' c es hl h hd ha hlog hdo :=
    terminate_one hdo hlog (h.2.append (by simp [NoReply, isAcceptedReply]))
  tear p hl h hq hd := by
    refine ⟨(tasks_extra (o := o) denyTerminal_closed).tear p hl h.1 hq hd, ?_⟩
    obtain ⟨es, h1, h2, _⟩ := (tornDown (o := o) p).log
    rw [h1]
    exact h.2.append (tear_noReply h2)
  bury p hd h := by
    obtain ⟨es, h1, h2, _⟩ := (tornDown (o := o) p).log
    rw [h1]
    exact h.append (tear_noReply h2)
  late p token s z hl h hg := ⟨h.1, h.2.append (by simp [NoReply, isAcceptedReply])⟩
  answer p token s z t out c es hl h hg ha hs hlog hdo := by
    refine ⟨(tasks_extra (o := o) denyTerminal_closed).answer p token s z t out c es hl h.1 hg ha hs hlog hdo, ?_⟩
    have hk := (h.1 t (by
      simp only [Pipe.tasks, List.mem_append, List.mem_map]
      exact .inr ⟨_, mapGet_mem hg, rfl⟩)).here
    have h1 : NoReply c.log := by
      rw [hlog]
      exact (h.2.append (by simp [NoReply, isAcceptedReply])).append (does_no_reply hdo hk hs)
    cases out with
    | done => exact h1.append (by simp [NoReply, isAcceptedReply])
    | failed => exact h1.append (by simp [NoReply, isAcceptedReply])
    | requeued ts => exact h1.append (by simp [NoReply, isAcceptedReply])
    | _ => exact h1
  answerStop p token s z t t' c es hl h hg ha hlog hdo :=
    terminate_one hdo hlog (h.2.append (by simp [NoReply, isAcceptedReply]))
  frame p c' hl h hf := by
    obtain ⟨es, h1, h2⟩ := hf.log
    refine ⟨h.1, ?_⟩
    show NoReply c'.log
    rw [h1]
    exact h.2.append (filter_noReply h2)
  frameD p c' hl h hf := by
    obtain ⟨es, h1, h2⟩ := hf.log
    show OneReply c'.log
    rw [h1]
    exact h.append (filter_noReply h2)
  lateD p token s z hd h hg := h.append (by simp [NoReply, isAcceptedReply])
  answerD p token s z id guard hd h hg := by
    rw [dropped_log]
    exact (h.append (by simp [NoReply, isAcceptedReply])).append (by simp [NoReply, isAcceptedReply])

/-- A property of typed actions passes to the compiled actions. -/
theorem Compiled.all {parse services} {Q : TypedAction → Prop} {R : Action → Prop}
    (hQR : ∀ id a x, Compiled parse services id a x → Q a → R x)
    {id : Text} {a : TypedAction} {x : Action} (h : Compiled parse services id a x)
    (ha : EveryAction Q a) : Action.All R x := by
  induction h with
  | grpc id h service var message onReply pred kind svc deny msg replies hp hs hm hl hseq hr ih =>
    obtain ⟨h1, h2⟩ : Q _ ∧ ∀ b ∈ onReply, EveryAction Q b := by
      cases ha with
      | mk _ h hr => exact ⟨h, hr _ _ _ _ _ rfl⟩
    refine .mk _ (hQR _ _ _ (.grpc _ _ _ _ _ _ _ _ _ _ _ _ hp hs hm hl hseq hr) h1) ?_
    intro head svc' var' msg' acts heq b hb
    cases heq
    obtain ⟨i, hi, hb⟩ := List.mem_iff_getElem.1 hb
    have hi' : i < onReply.length := by omega
    exact ih i onReply[i] b (by simp [hi']) (by simp [hi, hb]) (h2 _ (List.getElem_mem hi'))
  | deny id h denyWith pred e hp he =>
    cases ha with
    | mk _ hq _ => exact .mk _ (hQR _ _ _ (.deny _ _ _ _ _ hp he) hq) (by simp)
  | headers id h target value pred e hp he =>
    cases ha with
    | mk _ hq _ => exact .mk _ (hQR _ _ _ (.headers _ _ _ _ _ _ hp he) hq) (by simp)
  | store id h path value x pred e hp he =>
    cases ha with
    | mk _ hq _ => exact .mk _ (hQR _ _ _ (.store _ _ _ _ _ _ _ hp he) hq) (by simp)
  | fail id h pred hp =>
    cases ha with
    | mk _ hq _ => exact .mk _ (hQR _ _ _ (.fail _ _ _ hp) hq) (by simp)

theorem Action.All.withDeps {R : Action → Prop} {x : Action} {deps : List Text}
    (hR : R x → R (x.withDeps deps)) (h : Action.All R x) : Action.All R (x.withDeps deps) := by
  cases h with
  | mk _ h hc =>
    refine .mk _ (hR h) ?_
    intro head svc var msg acts heq b hb
    cases x <;> simp only [Action.withDeps, Action.grpc.injEq, reduceCtorEq] at heq
    exact hc _ _ _ _ _ rfl b (by rw [heq.2.2.2.2]; exact hb)

/-- The action of developer mode. -/
theorem devMode_shape {cfg : PluginConfig} {a : Action} (h : devModeAction cfg = some a) :
    ∃ head service var, a = .grpc head service var truePred [] ∧ head.id = "kuadrant.devMode".toList ∧
      head.deps = [] := by
  simp only [devModeAction, Option.map_eq_some_iff] at h
  obtain ⟨header, _, rfl⟩ := h
  exact ⟨_, _, _, rfl, rfl, rfl⟩

/-- A property of the actions of a compiled action set. -/
theorem set_all {parse : Text → Option Expr} {cfg : PluginConfig} {s : ActionSet} {b : Blueprint}
    (hfs : FromSet parse cfg s b) {R : Action → Prop}
    (hset : ∀ i a deps, s.actions[i]? = some a → (computeDeps s.actions)[i]? = some deps →
      ∀ t x, StandsFor cfg.services a t → Compiled parse cfg.services (natText i) t x →
      Action.All R (x.withDeps deps))
    (hdev : ∀ a, devModeAction cfg = some a → Action.All R a) : ∀ a ∈ b.actions, Action.All R a := by
  obtain ⟨xs, hxs, hc⟩ := hfs.actions
  intro a ha
  rw [hxs] at ha
  rcases List.mem_append.1 ha with ha | ha
  · obtain ⟨hl, hr⟩ := compileLoop_compiled parse cfg.services 0 _ xs hc
    obtain ⟨i, hi, rfl⟩ := List.mem_iff_getElem.1 ha
    have hi' : i < (s.actions.zip (computeDeps s.actions)).length := by omega
    have hi1 : i < s.actions.length := by
      rw [List.length_zip] at hi'; omega
    have hi2 : i < (computeDeps s.actions).length := by
      rw [List.length_zip] at hi'; omega
    obtain ⟨t, y, hst, hco, heq⟩ := hr i s.actions[i] (computeDeps s.actions)[i] xs[i]
      (by rw [List.getElem?_zip_eq_some]; simp [hi1, hi2]) (by simp [hi])
    rw [heq]
    rw [Nat.zero_add] at hco
    exact hset i _ _ (by simp [hi1]) (by simp [hi2]) t y hst hco
  · exact hdev a (by simpa using ha)

theorem dev_all {R : Action → Prop} {cfg : PluginConfig}
    (hdev : ∀ head service var, head.id = "kuadrant.devMode".toList → head.deps = [] →
      R (.grpc head service var truePred [])) :
    ∀ a, devModeAction cfg = some a → Action.All R a := by
  intro a ha
  obtain ⟨head, service, var, rfl, h1, h2⟩ := devMode_shape ha
  refine .mk _ (hdev _ _ _ h1 h2) ?_
  intro _ _ _ _ acts heq b hb
  cases heq
  simp at hb

/-- Tasks of a new pipeline inherit properties of the actions. -/
theorem built_all' {c : Ctx H} {b : Blueprint} {p : Pipe H} (hb : Built c b p)
    {R : Action → Prop} {P : Core → Prop} (hacts : ∀ a ∈ b.actions, Action.All R a)
    (hRP : ∀ a k, R a → Made a k → P k) (htok : ∀ fields, P (.tokenUsage none fields)) :
    Tasks P p [] := by
  intro t ht
  simp only [Pipe.tasks, hb.deferred, List.append_nil, List.map_nil] at ht
  rcases hb.tops.mem t ht with ⟨fields, rfl⟩ | ⟨a, ha, hm⟩
  · exact .mk _ (htok fields) (by simp [Core.children, PTask.strip])
  · exact hm.all hRP (hacts a ha)

/-- A property of all tasks of a new pipeline, from the configuration. -/
theorem built_all (parse : Text → Option Expr) (cfg : PluginConfig) (f : Factory)
    (hf : Factory.tryFrom parse cfg = some f) (c : Ctx H) (p : Pipe H)
    (h : f.build o c = .pipeline p) {R : Action → Prop} {P : Core → Prop}
    (hset : ∀ s ∈ cfg.actionSets, ∀ a ∈ s.actions, ∀ i t x deps, StandsFor cfg.services a t →
      Compiled parse cfg.services (natText i) t x → Action.All R (x.withDeps deps))
    (hdev : ∀ head service var, R (.grpc head service var truePred []))
    (hRP : ∀ a k, R a → Made a k → P k) (htok : ∀ fields, P (.tokenUsage none fields)) :
    Tasks P p [] := by
  obtain ⟨b, hb, hor⟩ := build_origin parse cfg f hf c p h
  have hd := dev_all (R := R) (cfg := cfg) (fun head service var _ _ => hdev head service var)
  refine built_all' hb ?_ hRP htok
  rcases hor with ⟨s, hs, hfs⟩ | ⟨a, ha, hx⟩
  · exact set_all hfs (fun i a deps ha _ t x hst hc =>
      hset s hs a (List.mem_of_getElem? ha) i t x deps hst hc) hd
  · rw [hx]
    intro y hy
    simp only [List.mem_singleton] at hy
    subst hy
    exact hd _ ha

end Verif
