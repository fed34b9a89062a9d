import Verif.Lemmas.Truth
import Verif.Lemmas.Fail
/-! Causes of failing calls. -/
set_option linter.unusedSimpArgs false
namespace Verif
open Spec

variable {H : Type} {o : Oracle H}

theorem Core.all_of {P : Core → Prop} (h : ∀ k, P k) (k : Core) : Core.All P k :=
  .mk k (h k) fun c _ => Core.all_of h c
termination_by k
decreasing_by
  rename_i hc
  cases k <;> simp only [Core.children, List.not_mem_nil] at hc
  all_goals
    have := List.sizeOf_lt_of_mem hc
    simp
    omega

/-- Tasks of the action are this call, or wait for its response. -/
def theCall (x : Text) (pred msg : Expr) (svc : Svc) (rep : Prop) (k : Core) : Prop :=
  k.id = x →
    (k.waits = false → ∃ deps guard var kids, k = .grpc x deps guard pred msg var svc kids ∧ (rep → kids ≠ [])) ∧
    (k.isCall = true → k.waits = true → ∃ guard var kids, k = .pending x guard svc var kids ∧ (rep → kids ≠ []))

theorem theCall_closed (x : Text) (pred msg : Expr) (svc : Svc) (rep : Prop) :
    Closed (theCall x pred msg svc rep) where
  again k k' h ha := by
    cases ha with
    | same => exact h
    | store id pred' e path y terminal s s' =>
      intro hid
      have hid' : id = x := hid
      obtain ⟨_, _, _, _, h2, _⟩ := (h hid').1 rfl
      simp at h2
    | tokenUsage =>
      intro hid
      obtain ⟨_, _, _, _, h2, _⟩ := (h hid).1 rfl
      simp at h2
  sent := by
    intro id deps guard pred' msg' var svc' r h hid
    refine ⟨by simp [Core.waits], ?_⟩
    intro _ _
    have hid' : id = x := hid
    obtain ⟨_, _, _, _, h2, h3⟩ := (h hid').1 rfl
    cases h2
    exact ⟨_, _, _, rfl, h3⟩
  noop := by
    intro id guard hid
    exact ⟨by simp [Core.waits], by simp [Core.isCall]⟩

/-- The tasks of a call of the set. -/
theorem fromSet_theCall {parse : Text → Option Expr} {cfg : PluginConfig} {s : ActionSet} {b : Blueprint}
    {c : Ctx H} {p : Pipe H} (hb : Built c b p) (hfs : FromSet parse cfg s b) (i : Nat) (a : ActionConfig)
    (ha : s.actions[i]? = some a) (pred msg : Expr) (svc : Svc)
    (hc : CallOf parse cfg.services pred msg svc a) :
    Tasks (theCall (natText i) pred msg svc (HasReplies a)) p [] := by
  refine built_all' hb (R := fun y => y.head.id = natText i → ∃ head kind deny var acts,
    y = .grpc head (.call kind svc deny) var msg acts ∧ head.pred = pred ∧ (HasReplies a → acts ≠ [])) ?_ ?_ ?_
  · refine set_only hfs i (fun y hy h => absurd h hy) ?_
    intro a' deps' t y ha' hd' hst hco _
    rw [ha] at ha'
    cases ha'
    have hcall : ∃ head service var message replies, t = .grpc head service var message replies ∧
        parse head.predicate = some pred ∧ parse message = some msg ∧
        (∃ kind deny, cfg.services service = some (.call kind svc deny)) ∧ (HasReplies a → replies ≠ []) := by
      cases hst with
      | typed t =>
        cases t with
        | grpc => exact ⟨_, _, _, _, _, rfl, hc.1, hc.2.1, hc.2.2, fun h => h⟩
        | _ => exact hc.elim
      | legacy _ _ kind =>
        obtain ⟨h, s, v, m, r, h1, h2, h3, h4⟩ := hc kind
        refine ⟨h, s, v, m, r, h1, h2, h3, h4, ?_⟩
        intro hr
        obtain ⟨_, _, _, _, _, h5, h6⟩ := hr kind
        rw [h1] at h5
        cases h5
        exact h6
    obtain ⟨head, service, var, message, replies, rfl, h1, h2, ⟨kind, deny, h3⟩, h4⟩ := hcall
    cases hco with
    | grpc _ _ _ _ _ _ pred' kind' svc' deny' msg' acts hp hs hm hl hseq hr =>
      rw [h3] at hs
      rw [h1] at hp
      rw [h2] at hm
      cases hs; cases hp; cases hm
      refine ⟨_, _, _, _, _, rfl, rfl, ?_⟩
      intro hrep hnil
      rw [hnil] at hl
      exact h4 hrep (List.length_eq_zero_iff.1 hl)
  · intro y k hR hm hid
    rw [hm.id] at hid
    obtain ⟨head, kind, deny, var, acts, rfl, rfl, h2⟩ := hR hid
    replace hid : head.id = natText i := hid
    cases hm with
    | call _ _ _ _ _ _ _ kids hl hk =>
      refine ⟨fun _ => ⟨_, _, _, _, by rw [hid], ?_⟩, by simp [Core.waits]⟩
      intro hrep hnil
      rw [hnil] at hl
      exact h2 hrep (List.length_eq_zero_iff.1 hl)
  · intro fields hid
    exact absurd hid.symm (natText_ne (c := 't') (show 't' ∈ "token_usage".toList by decide) rfl).symm

/-- The history of a decorated task begins with that of its core. -/
theorem apply_strip (t : PTask) (c : Ctx H) : ∃ fs, (t.apply o c).2.log = (t.strip.apply o c).2.log ++ fs := by
  induction t with
  | core k => exact ⟨[], by simp [PTask.strip, PTask.apply]⟩
  | failureMode t a ih =>
    obtain ⟨fs, hfs⟩ := ih
    show ∃ fs, (match t.apply o c with
      | (.failed, c) => if a then (Outcome.terminate defaultReply, c.push .errors) else (.done, c.push .errors)
      | (.deferred token p, c) => (.deferred token (.failureMode p a), c)
      | r => r).2.log = (t.strip.apply o c).2.log ++ fs
    generalize t.apply o c = r at hfs ⊢
    obtain ⟨out, c'⟩ := r
    cases out with
    | failed =>
      refine ⟨fs ++ [.errors], ?_⟩
      replace hfs : c'.log = (t.strip.apply o c).2.log ++ fs := hfs
      cases a <;> simp [Ctx.push, hfs]
    | _ => exact ⟨fs, hfs⟩
  | tracing t ih =>
    obtain ⟨fs, hfs⟩ := ih
    show ∃ fs, (match t.apply o c with
      | (.deferred token p, c) => (Outcome.deferred token (.tracing p), c)
      | (.requeued ts, c) => (.requeued (ts.map .tracing), c)
      | (.terminate t, c) => (.terminate (.tracing t), c)
      | r => r).2.log = (t.strip.apply o c).2.log ++ fs
    generalize t.apply o c = r at hfs ⊢
    obtain ⟨out, c'⟩ := r
    cases out <;> exact ⟨fs, hfs⟩

/-- A task gives up exactly when it is too late. -/
theorem givesUp_tooLate (c : Ctx H) (e : Expr) : givesUp c e = true ↔ TooLate c e := by
  unfold givesUp TooLate
  simp only [Bool.or_eq_true, Bool.and_eq_true, Bool.not_eq_true', List.isEmpty_eq_false_iff]

/-- A failing call is reported. -/
theorem callFails_log (c : Ctx H) (x : Text) (deps : List Text) (guard : Bool) (pred msg : Expr) (var : Text)
    (svc : Svc) (kids : List Core) (h : CallFails o c x pred msg svc) :
    ((Core.grpc x deps guard pred msg var svc kids).apply o c).2.log = c.log ++ [.callFailed x] := by
  show (applyGrpc o c x deps guard pred msg var svc kids).2.log = _
  unfold applyGrpc
  have h1 := testPred_log o c x pred
  rw [testPred_tests] at h1 ⊢
  cases h with
  | predicate c' h => rw [h] at h1 ⊢; simp only [Ctx.push]; rw [h1]
  | predicateLate c' h hg => rw [h] at h1 ⊢; simp only [(givesUp_tooLate _ _).2 hg, if_true, Ctx.push]; rw [h1]
  | message c' c'' h hm =>
    have h2 := evalExpr_log o c' x msg
    rw [h] at h1 ⊢; dsimp only; rw [hm] at h2 ⊢; simp only [Ctx.push]; rw [h2, h1]
  | messageLate c' c'' h hm hg =>
    have h2 := evalExpr_log o c' x msg
    rw [h] at h1 ⊢; dsimp only; rw [hm] at h2 ⊢; simp only [(givesUp_tooLate _ _).2 hg, if_true, Ctx.push]; rw [h2, h1]
  | dispatch c' c'' v h hm hd =>
    have h2 := evalExpr_log o c' x msg
    have h3 := dispatchValue_log o c'' svc v
    rw [h] at h1 ⊢; dsimp only; rw [hm] at h2 ⊢; dsimp only
    generalize dispatchValue o c'' svc v = r at h3 hd ⊢
    obtain ⟨a, c3⟩ := r
    replace hd : a = none := hd
    subst hd
    simp only [Ctx.push]
    rw [show c3.log = c''.log from h3, h2, h1]

/-- The response of a call with reply actions that cannot be decoded is reported. -/
theorem undecodable_log (c : Ctx H) (x : Text) (guard : Bool) (var : Text) (svc : Svc) (kids : List Core)
    (size : Nat) (hg : c.grpc = some (0, size)) (hk : kids ≠ [])
    (h : (o.response { c with grpc := none } svc size).1 = none) :
    ((Core.pending x guard svc var kids).apply o c).2.log = c.log ++ [.callFailed x] := by
  show (applyPending o c x guard svc var kids).2.log = _
  unfold applyPending processResponse
  rw [hg]
  dsimp only
  have hk' : kids.isEmpty = false := by cases kids <;> simp_all
  simp only [ne_eq, not_true_eq_false, if_false, hk', Bool.false_eq_true]
  have := h
  generalize o.response { c with grpc := none } svc size = r at this ⊢
  obtain ⟨a, hh⟩ := r
  replace this : a = none := this
  subst this
  cases guard <;> rfl

variable {S : Ctx H → Prop} {R : Nat → Nat → Nat → Ctx H → Prop}

/-- Failing attempts are reported. -/
def Attempts (o : Oracle H) (S : Ctx H → Prop) (x : Text) (pred msg : Expr) (svc : Svc) (log : List Effect) : Prop :=
  ∀ pre post, log = pre ++ .applied x :: post →
    (∀ c : Ctx H, S c → c.log = pre ++ [.applied x] → CallFails o c x pred msg svc) →
    ∃ rest, post = .callFailed x :: rest

theorem Attempts.append {x : Text} {pred msg : Expr} {svc : Svc} {a es : List Effect}
    (h : Attempts o S x pred msg svc a)
    (hes : ∀ u v, es = u ++ .applied x :: v →
      (∀ c : Ctx H, S c → c.log = a ++ u ++ [.applied x] → CallFails o c x pred msg svc) →
      ∃ rest, v = .callFailed x :: rest) : Attempts o S x pred msg svc (a ++ es) := by
  intro pre post hlog hf
  rcases List.append_eq_append_iff.1 hlog with ⟨u, rfl, h4⟩ | ⟨bs, h3, h4⟩
  · exact hes u post h4 hf
  · cases bs with
    | nil =>
      simp only [List.append_nil, List.nil_append] at h3 h4
      subst h3
      exact hes [] post h4.symm (by simpa using hf)
    | cons y bs =>
      simp only [List.cons_append, List.cons.injEq] at h4
      obtain ⟨rfl, rfl⟩ := h4
      obtain ⟨rest, rfl⟩ := h pre bs h3 hf
      exact ⟨rest ++ es, rfl⟩

theorem Attempts.quiet {x : Text} {pred msg : Expr} {svc : Svc} {a es : List Effect}
    (h : Attempts o S x pred msg svc a) (hes : .applied x ∉ es) : Attempts o S x pred msg svc (a ++ es) :=
  h.append fun u v hx _ => absurd (by rw [hx]; simp) hes

theorem attempts_apply {p : Pipe H} {t : PTask} {ts : List PTask} {x : Text} {pred msg : Expr} {svc : Svc}
    {rep : Prop} {es fs : List Effect} (hS : S (p.ctx.push (.applied t.id))) (hl : Live p (t :: ts)) (ht : Tasks (theCall x pred msg svc rep) p (t :: ts))
    (h : Attempts o S x pred msg svc p.ctx.log)
    (hlog : (t.apply o (p.ctx.push (.applied t.id))).2.log = p.ctx.log ++ [.applied t.id] ++ es)
    (hes : Effect.applied x ∉ es) (hfs : Effect.applied x ∉ fs) :
    Attempts o S x pred msg svc (p.ctx.log ++ [.applied t.id] ++ es ++ fs) := by
  rw [List.append_assoc, List.append_assoc]
  refine h.append ?_
  intro u v hu hf
  cases u with
  | nil =>
    simp only [List.nil_append, List.cons_append, List.cons.injEq, Effect.applied.injEq] at hu
    obtain ⟨hid, rfl⟩ := hu
    obtain ⟨deps, guard, var, kids, hk, _⟩ := ((ht t (by simp [Pipe.tasks])).here (by rw [strip_id]; exact hid)).1
      (hl.queueW t (by simp))
    obtain ⟨gs, hgs⟩ := apply_strip (o := o) t (p.ctx.push (.applied t.id))
    rw [hk, callFails_log _ _ _ _ _ _ _ _ _ (hf (p.ctx.push (.applied t.id)) hS (by simp [Ctx.push, hid])), hlog] at hgs
    have : es = .callFailed x :: gs := by simpa [Ctx.push] using hgs
    exact ⟨gs ++ fs, by rw [this]; rfl⟩
  | cons y u =>
    exfalso
    simp only [List.cons_append, List.nil_append, List.cons.injEq] at hu
    have hm : Effect.applied x ∈ es ++ fs := by rw [hu.2]; simp
    rcases List.mem_append.1 hm with hm | hm
    · exact hes hm
    · exact hfs hm

theorem does_unapplied {t : PTask} {out : Outcome} {es : List Effect} (h : TDoes t out es) (x : Text) :
    Effect.applied x ∉ es := by
  intro hm
  rcases does_effects h with hloc | ⟨_, _, _, _, _, _, rfl, _⟩
  · simpa [Effect.isLocal] using hloc _ hm
  · simp at hm

theorem attempts_extra (x : Text) (pred msg : Expr) (svc : Svc) (rep : Prop) : ExtraAt o S R
    (fun (p : Pipe H) todo => Tasks (theCall x pred msg svc rep) p todo ∧ Attempts o S x pred msg svc p.ctx.log)
    (fun p => Attempts o S x pred msg svc p.ctx.log) (fun p => Attempts o S x pred msg svc p.ctx.log) where
  opens p hl h := ⟨(tasks_extra (o := o) (theCall_closed x pred msg svc rep)).opens p hl h.1, h.2⟩
  skip p t ts hl h hd := ⟨(tasks_extra (o := o) (theCall_closed x pred msg svc rep)).skip p t ts hl h.1 hd, h.2⟩
  go p t ts out c es hS hl h hd ha hs hlog hdo := by
    refine ⟨(tasks_extra (o := o) (theCall_closed x pred msg svc rep)).go p t ts out c es hl h.1 hd ha hs hlog hdo, ?_⟩
    have key := fun fs hfs => attempts_apply (o := o) (fs := fs) hS hl h.1 h.2 (by rw [ha]; exact hlog)
      (does_unapplied hdo x) hfs
    rw [← hlog] at key
    cases out with
    | done => exact key [.completed t.id] (by simp)
    | failed => exact key [.failed t.id] (by simp)
    | requeued new => simpa [Pipe.after] using key [] (by simp)
    | deferred tok t' => simpa [Pipe.after, Pipe.defer] using key [] (by simp)
    | terminate t' => simp [Outcome.stops] at hs
  stop p t ts t' c es hS hl h hd ha hlog hdo := by
    have key := fun fs hfs => attempts_apply (o := o) (fs := fs) hS hl h.1 h.2 (by rw [ha]; exact hlog)
      (does_unapplied hdo x) hfs
    rw [← hlog] at key
    rcases terminate_cases (o := o) (p := { p with ctx := c })
      ((does_terminate hdo t' rfl).imp (·.1) (·.1)) with ⟨h1, _⟩ | ⟨hs, a, h1, _⟩
    · rw [h1]; exact key _ (by simp)
    · rw [h1, List.append_assoc]; exact key _ (by simp)
  tear p hl h hq hd := by
    obtain ⟨es, h1, h2, _⟩ := (tornDown (o := o) p).log
    refine ⟨(tasks_extra (o := o) (theCall_closed x pred msg svc rep)).tear p hl h.1 hq hd, ?_⟩
    rw [h1]; exact h.2.quiet fun he => by simpa [Effect.isTear] using h2 _ he
  bury p hd h := by
    obtain ⟨es, h1, h2, _⟩ := (tornDown (o := o) p).log
    rw [h1]; exact h.quiet fun he => by simpa [Effect.isTear] using h2 _ he
  late p token s z hl h hg := ⟨h.1, h.2.quiet (es := [_]) (by simp)⟩
  answer p token s z t out c es _ hl h hg ha hs hlog hdo := by
    refine ⟨(tasks_extra (o := o) (theCall_closed x pred msg svc rep)).answer p token s z t out c es hl h.1 hg ha hs hlog hdo, ?_⟩
    have key : ∀ fs, Effect.applied x ∉ fs → Attempts o S x pred msg svc (c.log ++ fs) := by
      intro fs hfs
      rw [hlog, List.append_assoc, List.append_assoc]
      refine h.2.quiet ?_
      simp [does_unapplied hdo x, hfs]
    cases out with
    | done => exact key [.completed t.id] (by simp)
    | failed => exact key [.failed t.id] (by simp)
    | requeued new => exact key [.completed t.id] (by simp)
    | deferred tok t' => simpa [Pipe.replied, Pipe.defer] using key [] (by simp)
    | terminate t' => simp [Outcome.stops] at hs
  answerStop p token s z t t' c es _ hl h hg ha hlog hdo := by
    have key : ∀ fs, Effect.applied x ∉ fs → Attempts o S x pred msg svc (c.log ++ fs) := by
      intro fs hfs
      rw [hlog, List.append_assoc, List.append_assoc]
      refine h.2.quiet ?_
      simp [does_unapplied hdo x, hfs]
    rcases terminate_cases (o := o) (p := { p.answering token s z with ctx := c })
      ((does_terminate hdo t' rfl).imp (·.1) (·.1)) with ⟨h1, _⟩ | ⟨hs, a, h1, _⟩
    · rw [h1]; exact key _ (by simp)
    · rw [h1, List.append_assoc]; exact key _ (by simp)
  frame p c' hl h hf := by
    obtain ⟨es, h1, h2⟩ := hf.log
    refine ⟨h.1, ?_⟩
    show Attempts o S x pred msg svc c'.log
    rw [h1]; exact h.2.quiet fun he => by simpa [Effect.isFilter] using h2 _ he
  frameD p c' hd h hf := by
    obtain ⟨es, h1, h2⟩ := hf.log
    show Attempts o S x pred msg svc c'.log
    rw [h1]; exact h.quiet fun he => by simpa [Effect.isFilter] using h2 _ he
  lateD p token s z hd h hg := h.quiet (es := [_]) (by simp)
  answerD p token s z id guard hd h hg := by
    rw [dropped_log, List.append_assoc]
    exact h.quiet (by simp)

/-- Responses that cannot be decoded. -/
theorem undecodable_key (x : Text) (pred msg : Expr) (svc : Svc) :
    Answers o R (theCall x pred msg svc True)
      (fun pre tok s z y => y = x ∧ s = 0 ∧
        ∀ c : Ctx H, R tok s z c → c.log = pre ++ [.responded tok s z] → (o.response c svc z).1 = none)
      (fun y es => ∃ rest, es = .callFailed y :: rest) := by
  rintro t c pre tok s z hw hc hall hg hR hlog ⟨hid, rfl, h⟩
  obtain ⟨guard, var, kids, hk, hne⟩ := (hall.here (by rw [strip_id]; exact hid)).2 hc hw
  obtain ⟨gs, hgs⟩ := apply_strip (o := o) t c
  rw [hk, undecodable_log c x guard var svc kids z hg (hne trivial) (h _ hR hlog)] at hgs
  exact ⟨.callFailed t.id :: gs, by rw [hgs, hid]; simp, _, rfl⟩

theorem answered_apply (t : PTask) (c : Ctx H) (x : Text) (guard : Bool) (svc : Svc) (var : Text)
    (kids : List Core) (z : Nat) (hk : t.strip = .pending x guard svc var kids) (hg : c.grpc = some (0, z))
    (h : (o.response { c with grpc := none } svc z).1.isSome = true) :
    (t.apply o c).2.log = c.log ∧
      ((t.apply o c).1 = .done ∨ ∃ ts, (t.apply o c).1 = .requeued ts) := by
  induction t with
  | core k =>
    simp only [PTask.strip] at hk
    subst hk
    show (applyPending o c x guard svc var kids).2.log = _ ∧ _
    have h' := h
    simp only [PTask.apply, Core.apply]
    unfold applyPending processResponse
    rw [hg]
    simp only [ne_eq, not_true_eq_false, if_false]
    cases hk' : kids.isEmpty with
    | true =>
      simp only [if_true]
      exact ⟨by cases guard <;> rfl, .inl (by simp)⟩
    | false =>
      simp only [Bool.false_eq_true, if_false]
      generalize o.response { c with grpc := none } svc z = r at h'
      obtain ⟨v, hh⟩ := r
      cases v with
      | none => simp at h'
      | some v => exact ⟨by cases guard <;> rfl, .inr ⟨_, rfl⟩⟩
  | failureMode t a ih =>
    obtain ⟨h1, h2⟩ := ih hk
    show (match t.apply o c with
      | (.failed, c) => if a then (Outcome.terminate defaultReply, c.push .errors) else (.done, c.push .errors)
      | (.deferred token p, c) => (.deferred token (.failureMode p a), c)
      | r => r).2.log = _ ∧ ((match t.apply o c with
      | (.failed, c) => if a then (Outcome.terminate defaultReply, c.push .errors) else (.done, c.push .errors)
      | (.deferred token p, c) => (.deferred token (.failureMode p a), c)
      | r => r).1 = _ ∨ ∃ ts, (match t.apply o c with
      | (.failed, c) => if a then (Outcome.terminate defaultReply, c.push .errors) else (.done, c.push .errors)
      | (.deferred token p, c) => (.deferred token (.failureMode p a), c)
      | r => r).1 = _)
    generalize t.apply o c = r at h1 h2 ⊢
    obtain ⟨out, c'⟩ := r
    rcases h2 with rfl | ⟨ts, rfl⟩
    · exact ⟨h1, .inl rfl⟩
    · exact ⟨h1, .inr ⟨_, rfl⟩⟩
  | tracing t ih =>
    obtain ⟨h1, h2⟩ := ih hk
    show (match t.apply o c with
      | (.deferred token p, c) => (Outcome.deferred token (.tracing p), c)
      | (.requeued ts, c) => (.requeued (ts.map .tracing), c)
      | (.terminate t, c) => (.terminate (.tracing t), c)
      | r => r).2.log = _ ∧ ((match t.apply o c with
      | (.deferred token p, c) => (Outcome.deferred token (.tracing p), c)
      | (.requeued ts, c) => (.requeued (ts.map .tracing), c)
      | (.terminate t, c) => (.terminate (.tracing t), c)
      | r => r).1 = _ ∨ ∃ ts, (match t.apply o c with
      | (.deferred token p, c) => (Outcome.deferred token (.tracing p), c)
      | (.requeued ts, c) => (.requeued (ts.map .tracing), c)
      | (.terminate t, c) => (.terminate (.tracing t), c)
      | r => r).1 = _)
    generalize t.apply o c = r at h1 h2 ⊢
    obtain ⟨out, c'⟩ := r
    rcases h2 with rfl | ⟨ts, rfl⟩
    · exact ⟨h1, .inl rfl⟩
    · exact ⟨h1, .inr ⟨_, rfl⟩⟩

/-- Responses that can be decoded. -/
theorem answered_key (x : Text) (pred msg : Expr) (svc : Svc) (rep : Prop) :
    Answers o R (theCall x pred msg svc rep)
      (fun pre tok s z y => y = x ∧ s = 0 ∧
        ∀ c : Ctx H, R tok s z c → c.log = pre ++ [.responded tok s z] → (o.response c svc z).1.isSome = true)
      (fun y es => ∃ rest, es = .completed y :: rest) := by
  rintro t c pre tok s z hw hc hall hg hR hlog ⟨hid, rfl, h⟩
  obtain ⟨guard, var, kids, hk, hne⟩ := (hall.here (by rw [strip_id]; exact hid)).2 hc hw
  obtain ⟨h1, h2⟩ := answered_apply (o := o) t c x guard svc var kids z hk hg
    (h _ hR hlog)
  refine ⟨[], by rw [h1]; simp, ?_⟩
  rcases h2 with h2 | ⟨ts, h2⟩ <;> rw [h2] <;> exact ⟨[], rfl⟩

end Verif
