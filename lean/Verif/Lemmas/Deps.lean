import Verif.Lemmas.Order
/-! Dependencies of the top-level actions. -/
set_option linter.unusedSimpArgs false
namespace Verif
open Spec

variable {H : Type} {o : Oracle H}

/-- Tasks of the action have these dependencies. -/
def depsOf (x : Text) (D : List Text) (k : Core) : Prop := k.waits = false → k.id = x → k.deps = D

theorem depsOf_closed (x : Text) (D : List Text) : Closed (depsOf x D) where
  again k k' h ha := by
    cases ha with
    | same => exact h
    | store => exact h
    | tokenUsage => exact h
  sent := by intro id deps guard pred msg var svc r h; simp [depsOf, Core.waits]
  noop := by simp [depsOf, Core.waits]

/-- The action starts and sends its call after its dependencies. -/
def Awaits (x : Text) (D : List Text) (pre : List Effect) (e : Effect) : Prop :=
  (e = .applied x ∨ ∃ g tok svc b rid, e = .dispatch x g tok svc b rid) → ∀ d ∈ D, .completed d ∈ pre

structure Waiting (x : Text) (D : List Text) (p : Pipe H) (todo : List PTask) : Prop where
  tasks : Tasks (depsOf x D) p todo
  done : ∀ d ∈ p.completed, .completed d ∈ p.ctx.log
  evs : Everywhere (Awaits x D) p.ctx.log

/-- Neither a start nor a call. -/
def Effect.passive : Effect → Bool
  | .applied _ => false
  | .dispatch .. => false
  | _ => true

theorem awaits_passive {x : Text} {D : List Text} {e : Effect} (h : e.passive = true) (pre : List Effect) :
    Awaits x D pre e := by
  rintro (rfl | ⟨_, _, _, _, _, rfl⟩) <;> simp [Effect.passive] at h

theorem local_passive {e : Effect} (h : e.isLocal = true) : e.passive = true := by
  cases e <;> simp_all [Effect.isLocal, Effect.passive]

theorem filter_passive {e : Effect} (h : e.isFilter = true) : e.passive = true := by
  cases e <;> simp_all [Effect.isFilter, Effect.passive]

theorem tear_passive {e : Effect} (h : e.isTear = true) : e.passive = true := by
  cases e <;> simp_all [Effect.isTear, Effect.passive]

theorem Spec.Everywhere.passive {x : Text} {D : List Text} {a es : List Effect}
    (h : Everywhere (Awaits x D) a) (hes : ∀ e ∈ es, e.passive = true) : Everywhere (Awaits x D) (a ++ es) :=
  h.append_all fun e he pre => awaits_passive (hes e he) pre

/-- The effects of applying a queued task whose dependencies are complete. -/
theorem waiting_apply {x : Text} {D : List Text} {p : Pipe H} {t : PTask} {ts : List PTask} {out : Outcome}
    {es : List Effect} (hl : Live p (t :: ts)) (h : Waiting x D p (t :: ts))
    (hd : ∀ d ∈ t.deps, d ∈ p.completed) (hdo : TDoes t out es) :
    Everywhere (Awaits x D) (p.ctx.log ++ [.applied t.id] ++ es) := by
  have hD : t.id = x → ∀ d ∈ D, Effect.completed d ∈ p.ctx.log := by
    intro hx d hd'
    have := (h.tasks t (by simp [Pipe.tasks])).here (hl.queueW t (by simp)) (by rw [strip_id, hx])
    rw [strip_deps] at this
    exact h.done d (hd d (by rw [this]; exact hd'))
  have h1 : Everywhere (Awaits x D) (p.ctx.log ++ [.applied t.id]) := by
    refine everywhere_snoc.mpr ⟨h.evs, ?_⟩
    rintro (hx | ⟨_, _, _, _, _, hx⟩)
    · simp only [Effect.applied.injEq] at hx; exact hD hx
    · simp at hx
  rcases does_effects hdo with hloc | ⟨g, tok, svc, b, rid, p', rfl, _⟩
  · exact h1.passive fun e he => local_passive (hloc e he)
  · refine everywhere_snoc.mpr ⟨h1, ?_⟩
    rintro (hx | ⟨_, _, _, _, _, hx⟩)
    · simp at hx
    · simp only [Effect.dispatch.injEq] at hx
      intro d hd'
      exact List.mem_append_left _ (hD hx.1 d hd')

theorem done_append {p : Pipe H} {a es : List Effect} (h : ∀ d ∈ p.completed, Effect.completed d ∈ a) :
    ∀ d ∈ p.completed, Effect.completed d ∈ a ++ es := fun d hd => List.mem_append_left _ (h d hd)

theorem waiting_extra (x : Text) (D : List Text) : Extra o
    (fun (p : Pipe H) todo => Waiting x D p todo)
    (fun p => Everywhere (Awaits x D) p.ctx.log) (fun p => Everywhere (Awaits x D) p.ctx.log) where
  opens p hl h := ⟨(tasks_extra (o := o) (depsOf_closed x D)).opens p hl h.tasks, h.done, h.evs⟩
  skip p t ts hl h hd := ⟨(tasks_extra (o := o) (depsOf_closed x D)).skip p t ts hl h.tasks hd, h.done, h.evs⟩
  go p t ts out c es hl h hd ha hs hlog hdo := by
    have ht := (tasks_extra (o := o) (depsOf_closed x D)).go p t ts out c es hl h.tasks hd ha hs hlog hdo
    have he := waiting_apply hl h hd hdo
    rw [← hlog] at he
    have hc : ∀ d ∈ p.completed, Effect.completed d ∈ c.log := by
      rw [hlog, List.append_assoc]; exact done_append h.done
    cases out with
    | done =>
      refine ⟨ht, ?_, he.passive (es := [.completed t.id]) (by simp [Effect.passive])⟩
      intro d hd'
      show Effect.completed d ∈ c.log ++ [.completed t.id]
      rcases List.mem_cons.1 hd' with rfl | hd'
      · simp
      · exact List.mem_append_left _ (hc d hd')
    | failed =>
      exact ⟨ht, done_append (p := p) hc, he.passive (es := [.failed t.id]) (by simp [Effect.passive])⟩
    | requeued new => exact ⟨ht, hc, he⟩
    | deferred tok t' => exact ⟨ht, hc, he⟩
    | terminate t' => simp [Outcome.stops] at hs
  stop p t ts t' c es hl h hd ha hlog hdo := by
    have he := waiting_apply hl h hd hdo
    rw [← hlog] at he
    rcases terminate_cases (o := o) (p := { p with ctx := c })
      ((does_terminate hdo t' rfl).imp (·.1) (·.1)) with ⟨h1, _⟩ | ⟨hs, a, h1, _⟩
    · rw [h1]; exact he.passive (by simp [Effect.passive])
    · rw [h1, List.append_assoc]; exact he.passive (by simp [Effect.passive])
  tear p hl h hq hd := by
    have ht := tornDown (o := o) p
    obtain ⟨es, h1, h2, _⟩ := ht.log
    refine ⟨(tasks_extra (o := o) (depsOf_closed x D)).tear p hl h.tasks hq hd, ?_, ?_⟩
    · rw [ht.completed, h1]; exact done_append h.done
    · rw [h1]; exact h.evs.passive fun e he => tear_passive (h2 e he)
  bury p hd h := by
    obtain ⟨es, h1, h2, _⟩ := (tornDown (o := o) p).log
    rw [h1]; exact h.passive fun e he => tear_passive (h2 e he)
  late p token s z hl h hg :=
    ⟨h.tasks, done_append h.done, h.evs.passive (es := [.responded token s z]) (by simp [Effect.passive])⟩
  answer p token s z t out c es hl h hg ha hs hlog hdo := by
    have ht := (tasks_extra (o := o) (depsOf_closed x D)).answer p token s z t out c es hl h.tasks hg ha hs hlog hdo
    have hw : t.strip.waits = true := hl.deferW _ (mapGet_mem hg)
    have he : Everywhere (Awaits x D) c.log := by
      rw [hlog, List.append_assoc]
      refine h.evs.passive ?_
      intro e he
      rcases List.mem_append.1 he with he | he
      · simp only [List.mem_singleton] at he; subst he; rfl
      · rcases does_effects hdo with hloc | ⟨_, _, _, _, _, _, _, _, _, h2, _⟩
        · exact local_passive (hloc e he)
        · rw [hw] at h2; simp at h2
    have hc : ∀ d ∈ p.completed, Effect.completed d ∈ c.log := by
      rw [hlog, List.append_assoc]; exact done_append h.done
    have hc' : ∀ d ∈ t.id :: p.completed, Effect.completed d ∈ c.log ++ [.completed t.id] := by
      intro d hd'
      rcases List.mem_cons.1 hd' with rfl | hd'
      · simp
      · exact List.mem_append_left _ (hc d hd')
    cases out with
    | done => exact ⟨ht, hc', he.passive (es := [.completed t.id]) (by simp [Effect.passive])⟩
    | requeued new => exact ⟨ht, hc', he.passive (es := [.completed t.id]) (by simp [Effect.passive])⟩
    | failed =>
      exact ⟨ht, done_append (p := p) hc, he.passive (es := [.failed t.id]) (by simp [Effect.passive])⟩
    | deferred tok t' => exact ⟨ht, hc, he⟩
    | terminate t' => simp [Outcome.stops] at hs
  answerStop p token s z t t' c es hl h hg ha hlog hdo := by
    have hw : t.strip.waits = true := hl.deferW _ (mapGet_mem hg)
    have he : Everywhere (Awaits x D) c.log := by
      rw [hlog, List.append_assoc]
      refine h.evs.passive ?_
      intro e he
      rcases List.mem_append.1 he with he | he
      · simp only [List.mem_singleton] at he; subst he; rfl
      · rcases does_effects hdo with hloc | ⟨_, _, _, _, _, _, _, _, _, h2, _⟩
        · exact local_passive (hloc e he)
        · rw [hw] at h2; simp at h2
    rcases terminate_cases (o := o) (p := { p.answering token s z with ctx := c })
      ((does_terminate hdo t' rfl).imp (·.1) (·.1)) with ⟨h1, _⟩ | ⟨hs, a, h1, _⟩
    · rw [h1]; exact he.passive (by simp [Effect.passive])
    · rw [h1, List.append_assoc]; exact he.passive (by simp [Effect.passive])
  frame p c' hl h hf := by
    obtain ⟨es, h1, h2⟩ := hf.log
    refine ⟨h.tasks, ?_, ?_⟩
    · show ∀ d ∈ p.completed, Effect.completed d ∈ c'.log
      rw [h1]; exact done_append h.done
    · show Everywhere _ c'.log
      rw [h1]; exact h.evs.passive fun e he => filter_passive (h2 e he)
  frameD p c' hd h hf := by
    obtain ⟨es, h1, h2⟩ := hf.log
    show Everywhere _ c'.log
    rw [h1]; exact h.passive fun e he => filter_passive (h2 e he)
  lateD p token s z hd h hg := h.passive (es := [.responded token s z]) (by simp [Effect.passive])
  answerD p token s z id guard hd h hg := by
    rw [dropped_log, List.append_assoc]
    exact h.passive (by simp [Effect.passive])

/-- How often an action is among the tasks of new pipelines. -/
theorem tops_cnt {as : List Action} {ts : List PTask} (h : Tops as ts) (n : Nat) :
    cnt (natText n) ts = as.countP (fun a => decide (a.head.id = natText n)) := by
  have htok : ("token_usage".toList : Text) ≠ natText n :=
    natText_ne (c := 't') (by decide) rfl
  have hid : ∀ {a k}, Made a k → k.id = a.head.id := fun h => h.id
  induction h with
  | nil => rfl
  | cons a as ts ts' h hs ih =>
    rw [cnt_append, ih, List.countP_cons]
    have : cnt (natText n) ts = if a.head.id = natText n then 1 else 0 := by
      cases h with
      | call head kind svc deny var msg acts k pre w hk hp =>
        have hpre : cnt (natText n) pre = 0 := by
          rcases hp with rfl | ⟨fields, rfl⟩
          · rfl
          · rw [cnt_zero]
            intro t ht
            simp only [List.mem_singleton] at ht
            subst ht
            exact htok
        rw [cnt_append, hpre, Nat.zero_add, cnt_cons, cnt_nil, Nat.zero_add]
        have : (if w = true then PTask.tracing (.failureMode (.core k) deny) else .failureMode (.core k) deny).id
            = head.id := by
          have := hid hk
          cases w <;> exact this
        rw [this]; rfl
      | other _ k hk _ =>
        rw [cnt_cons, cnt_nil, Nat.zero_add]
        have : (PTask.core k).id = a.head.id := hid hk
        rw [this]
    rw [this]
    simp only [decide_eq_true_eq]
    omega

/-- The actions of a compiled set, with their position. -/
theorem fromSet_get {parse : Text → Option Expr} {cfg : PluginConfig} {s : ActionSet} {b : Blueprint}
    (hfs : FromSet parse cfg s b) :
    ∃ xs, b.actions = xs ++ (devModeAction cfg).toList ∧ xs.length = s.actions.length ∧
      ∀ (i : Nat) (hi : i < xs.length), ∃ a deps t y, s.actions[i]? = some a ∧
        (computeDeps s.actions)[i]? = some deps ∧
        StandsFor cfg.services a t ∧ Compiled parse cfg.services (natText i) t y ∧ xs[i] = y.withDeps deps := by
  obtain ⟨xs, hxs, hc⟩ := hfs.actions
  obtain ⟨hl, hr⟩ := compileLoop_compiled parse cfg.services 0 _ xs hc
  have hlen : xs.length = s.actions.length := by
    rw [← hl, List.length_zip, computeDeps_length, Nat.min_self]
  refine ⟨xs, hxs, hlen, ?_⟩
  intro i hi
  have hi1 : i < s.actions.length := by omega
  have hi2 : i < (computeDeps s.actions).length := by rw [computeDeps_length]; exact hi1
  obtain ⟨t, y, hst, hco, heq⟩ := hr i s.actions[i] (computeDeps s.actions)[i] xs[i]
    (by rw [List.getElem?_zip_eq_some]; simp [hi1, hi2]) (by simp [hi])
  rw [Nat.zero_add] at hco
  exact ⟨_, _, t, y, by simp [hi1], by simp [hi2], hst, hco, heq⟩

theorem fromSet_ids {parse : Text → Option Expr} {cfg : PluginConfig} {s : ActionSet} {b : Blueprint}
    (hfs : FromSet parse cfg s b) (n : Nat) :
    b.actions.countP (fun a => decide (a.head.id = natText n)) ≤ 1 := by
  obtain ⟨xs, hxs, _, hget⟩ := fromSet_get hfs
  have hids : xs.map (·.head.id) = (List.range xs.length).map natText := by
    apply List.ext_getElem
    · simp
    · intro i h1 h2
      simp only [List.getElem_map, List.getElem_range]
      obtain ⟨_, _, _, y, _, _, _, hco, heq⟩ := hget i (by simpa using h1)
      rw [heq, withDeps_id, hco.head_id]
  have hnd : (xs.map (·.head.id)).Nodup := by
    rw [hids]
    exact List.pairwise_map.2 (List.nodup_range.imp fun hne h => hne (natText_inj h))
  have h1 : xs.countP (fun a => decide (a.head.id = natText n)) ≤ 1 := by
    have := List.nodup_iff_count.1 hnd (natText n)
    rw [List.count, List.countP_map] at this
    refine Nat.le_trans (Nat.le_of_eq (List.countP_congr ?_)) this
    intro a _
    simp [Function.comp_def]
  have h2 : (devModeAction cfg).toList.countP (fun a => decide (a.head.id = natText n)) = 0 := by
    rw [List.countP_eq_zero]
    intro a ha
    obtain ⟨head, service, var, rfl, hid, _⟩ := devMode_shape (by simpa using ha)
    have : ("kuadrant.devMode".toList : Text) ≠ natText n := natText_ne (c := 'k') (by decide) rfl
    simp only [Action.head, hid, decide_eq_true_eq]
    exact this
  rw [hxs, List.countP_append]
  omega

/-- No reply action has a top-level id. -/
theorem fromSet_kidless {parse : Text → Option Expr} {cfg : PluginConfig} {s : ActionSet} {b : Blueprint}
    {c : Ctx H} {p : Pipe H} (hb : Built c b p) (hfs : FromSet parse cfg s b) (n : Nat) :
    Tasks (kidless (natText n)) p [] := by
  refine built_all' hb (R := fun y => ∀ head svc var msg acts, y = .grpc head svc var msg acts →
    ∀ a ∈ acts, a.head.id ≠ natText n) ?_ ?_ (by simp [kidless, Core.children])
  · refine set_all hfs ?_ ?_
    · intro i a deps ha hd t x hst hco
      have key : ∀ {id t x}, Compiled parse cfg.services id t x →
          Action.All (fun y => ∀ head svc var msg acts, y = .grpc head svc var msg acts →
            ∀ a ∈ acts, a.head.id ≠ natText n) x := by
        intro id t x h
        induction h with
        | grpc id h service var message onReply pred kind svc deny msg replies hp hs hm hl hseq hr ih =>
          have hkid : ∀ a ∈ replies, a.head.id ≠ natText n := by
            intro a ha
            obtain ⟨i, hi, rfl⟩ := List.mem_iff_getElem.1 ha
            have hi' : i < onReply.length := by omega
            rw [(hr i onReply[i] _ (by simp [hi']) (by simp [hi])).head_id]
            exact Below.ne ⟨natText i, rfl⟩ n
          refine .mk _ ?_ ?_
          · intro head svc var msg acts heq a ha
            cases heq
            exact hkid a ha
          · intro head svc var msg acts heq b hb
            cases heq
            obtain ⟨i, hi, rfl⟩ := List.mem_iff_getElem.1 hb
            have hi' : i < onReply.length := by omega
            exact ih i onReply[i] _ (by simp [hi']) (by simp [hi])
        | _ => exact .mk _ (by simp) (by simp)
      refine Action.All.withDeps ?_ (key hco)
      intro hx head svc var msg acts heq
      cases x <;> simp only [Action.withDeps, Action.grpc.injEq, reduceCtorEq] at heq
      rw [← heq.2.2.2.2]
      exact hx _ _ _ _ _ rfl
    · refine dev_all ?_
      intro head service var _ _ head' svc var' msg acts heq
      cases heq
      simp
  · intro a k hr hm c hc
    cases hm with
    | call head kind svc deny var msg acts kids hid hk =>
      obtain ⟨b, hb, hz⟩ := zip_partner hid hc
      rw [(hk _ hz).id]
      exact hr _ _ _ _ _ rfl b hb
    | _ => simp [Core.children] at hc

theorem servedBy_fromSet {parse : Text → Option Expr} {cfg : PluginConfig} {factory : Factory} {host : H}
    {s : ActionSet} (hs : ServedBy o parse cfg factory host s) {p : Pipe H}
    (hp : factory.build o { host := host } = .pipeline p) :
    ∃ b, Built ({ host := host } : Ctx H) b p ∧ FromSet parse cfg s b := by
  obtain ⟨b, b', h1, h2, rfl⟩ := hs
  obtain ⟨b2, h3, hb⟩ := build_built o factory _ p hp
  rw [h1] at h3
  cases h3
  exact ⟨_, hb, compile_fromSet parse cfg s b' h2⟩

/-- A blueprint selected by a compiled factory is that of one of the action sets, or the developer-mode
fallback. -/
theorem servedBy_exists {parse : Text → Option Expr} {cfg : PluginConfig} {factory : Factory} {host : H}
    (hf : Factory.tryFrom parse cfg = some factory) {b : Blueprint}
    (hb : (factory.select o { host := host }).1 = .found b) :
    (∃ s ∈ cfg.actionSets, ServedBy o parse cfg factory host s) ∨
      ∃ a, devModeAction cfg = some a ∧ b.actions = [a] := by
  unfold Factory.tryFrom at hf
  split at hf
  · simp at hf
  · rename_i index hix
    simp only [Option.some.injEq] at hf
    rcases select_mem (o := o) factory _ b hb with ⟨e, he, hbe⟩ | hfb
    · subst hf
      left
      obtain ⟨s, hs, b', hb', rfl⟩ := indexLoop_mem parse cfg [] cfg.actionSets
        (fun b => ∃ s ∈ cfg.actionSets, ∃ b', Blueprint.compile parse cfg.services s = some b' ∧
          b = { b' with actions := b'.actions ++ (devModeAction cfg).toList }) (by simp)
        (fun s hs b hb => ⟨s, hs, b, hb, rfl⟩) index hix e he b hbe
      exact ⟨s, hs, _, b', hb, hb', rfl⟩
    · subst hf
      right
      simp only [Option.map_eq_some_iff] at hfb
      obtain ⟨a, ha, rfl⟩ := hfb
      exact ⟨a, ha, rfl⟩

/-- New pipelines satisfy the invariant of a top-level action. -/
theorem tracked_new {parse : Text → Option Expr} {cfg : PluginConfig} {s : ActionSet} {b : Blueprint}
    {host : H} {p : Pipe H} (hb : Built ({ host := host } : Ctx H) b p) (hfs : FromSet parse cfg s b) (n : Nat) :
    Tracked (natText n) (p.push .hits) [] := by
  have hlog : (p.push .hits).ctx.log = [.hits] := by
    simp [Pipe.push, Ctx.push, hb.quiet.log]
  have hcnt : cnt (natText n) (p.tasks []) ≤ 1 := by
    simp only [Pipe.tasks, hb.deferred, List.map_nil, List.append_nil, tops_cnt hb.tops n]
    exact fromSet_ids hfs n
  refine ⟨fromSet_kidless hb hfs n, hcnt, ?_, ?_, ?_⟩
  · rw [hlog]; simp
  · intro u g tok svc b rid v h
    rw [hlog] at h
    have : Effect.dispatch (natText n) g tok svc b rid ∈ [Effect.hits] := by rw [h]; simp
    simp at this
  · rw [hlog]
    exact (everywhere_nil _).append_all (b := [.hits]) (by
      intro e he pre; simp only [List.mem_singleton] at he; subst he; exact orderly_aside rfl _)

/-- An action sends its call and completes only after it was started. -/
def FromStart (x : Text) (pre : List Effect) (e : Effect) : Prop :=
  (e = .completed x ∨ ∃ g tok svc b rid, e = .dispatch x g tok svc b rid) → .applied x ∈ pre

structure Started (x : Text) (p : Pipe H) : Prop where
  calls : ∀ e ∈ p.deferred, e.2.id = x → .applied x ∈ p.ctx.log
  evs : Everywhere (FromStart x) p.ctx.log

theorem fromStart_aside {x : Text} {e : Effect} (h : e.aside x = true) (pre : List Effect) :
    FromStart x pre e := by
  rintro (rfl | ⟨_, _, _, _, _, rfl⟩) <;> simp [Effect.aside] at h

theorem Started.mono {x : Text} {p q : Pipe H} {es : List Effect} (h : Started x p)
    (hlog : q.ctx.log = p.ctx.log ++ es) (hes : ∀ e ∈ es, e.aside x = true)
    (hd : ∀ e ∈ q.deferred, e.2.id = x → ∃ e' ∈ p.deferred, e'.2.id = x) : Started x q where
  calls e he hid := by
    obtain ⟨e', he', hid'⟩ := hd e he hid
    rw [hlog]
    exact List.mem_append_left _ (h.calls e' he' hid')
  evs := by
    rw [hlog]
    exact h.evs.append_all fun e he pre => fromStart_aside (hes e he) pre

theorem Started.finish {x : Text} {p : Pipe H} (h : Started x p) (hx : .applied x ∈ p.ctx.log)
    (e : Effect) (done : List Text) : Started x { p with completed := done, ctx := p.ctx.push e } where
  calls e' he' hid' := List.mem_append_left _ hx
  evs := everywhere_snoc.mpr ⟨h.evs, fun _ => hx⟩

theorem Started.complete {x : Text} {p : Pipe H} (h : Started x p) (id : Text)
    (hx : id = x → .applied x ∈ p.ctx.log) : Started x (p.complete id) := by
  by_cases hid : id = x
  · exact h.finish (hx hid) _ _
  · exact h.mono (es := [.completed id]) rfl (by simp [Effect.aside, hid]) (fun e he hid => ⟨e, he, hid⟩)

theorem started_tear {n : Nat} {p : Pipe H} (h : Started (natText n) p) :
    Started (natText n) (p.executeTeardown o) := by
  unfold Pipe.executeTeardown
  dsimp only
  have key : ∀ (us : List Text) (q : Pipe H), Started (natText n) q →
      Started (natText n) (us.foldl (Pipe.runTeardownAction o) q) := by
    intro us
    induction us with
    | nil => intro q hq; exact hq
    | cons u us ih =>
      intro q hq
      refine ih _ ?_
      unfold Pipe.runTeardownAction
      dsimp only
      split
      · exact hq.mono (es := [.teardown]) rfl (by simp [Effect.aside]) (fun e he hid => ⟨e, he, hid⟩)
      · rename_i token hh _
        refine hq.mono (es := [.teardown, .exported token]) (by simp [Pipe.defer, Pipe.push, Ctx.push, Ctx.withHost])
          (by simp [Effect.aside]) ?_
        intro e he hid
        rcases mem_mapInsert he with rfl | he
        · exact absurd hid (teardownId_ne token n)
        · exact ⟨e, he, hid⟩
  refine key _ _ (h.mono (es := []) (by simp [Pipe.replaceNoop]) (by simp) ?_)
  intro e he hid
  simp only [Pipe.replaceNoop, List.mem_map] at he
  obtain ⟨e', he', rfl⟩ := he
  exact ⟨e', he', hid⟩

theorem started_extra (n : Nat) : Extra o (fun (p : Pipe H) _ => Started (natText n) p)
    (fun p => Started (natText n) p) (fun p => Started (natText n) p) where
  opens p hl h := ⟨h.calls, h.evs⟩
  skip p t ts hl h hd := ⟨h.calls, h.evs⟩
  go p t ts out c es hl h hd ha hs hlog hdo := by
    have h0 : Started (natText n) (p.push (.applied t.id)) :=
      h.mono (es := [.applied t.id]) rfl (by simp [Effect.aside]) (fun e he hid => ⟨e, he, hid⟩)
    rcases does_effects hdo with hloc | ⟨g, tok, svc, b, rid, p', rfl, rfl, hid, _, _⟩
    · have h1 : Started (natText n) { p with ctx := c } :=
        h0.mono (es := es) hlog (fun e he => local_aside (hloc e he)) (fun e he hid => ⟨e, he, hid⟩)
      cases out with
      | done =>
        refine h1.complete t.id ?_
        intro hx
        show _ ∈ c.log
        rw [hlog, ← hx]; simp
      | failed => exact h1.mono (es := [.failed t.id]) rfl (by simp [Effect.aside]) (fun e he hid => ⟨e, he, hid⟩)
      | requeued new => exact ⟨h1.calls, h1.evs⟩
      | deferred tok t' =>
        refine ⟨?_, h1.evs⟩
        intro e he hid
        rcases mem_mapInsert he with rfl | he
        · have : t'.id = t.id := by
            rcases does_out hdo with h2 | ⟨t2, h2, h3, _⟩ | ⟨_, ⟨_, h2⟩, _⟩
            · simp [Outcome.tasks] at h2
            · simp only [Outcome.tasks, List.cons.injEq, and_true] at h2
              subst h2; exact h3
            · simp at h2
          show _ ∈ c.log
          rw [hlog, ← hid, this]; simp
        · exact h1.calls e he hid
      | terminate t' => simp [Outcome.stops] at hs
    · refine ⟨?_, ?_⟩
      · intro e he hide
        rcases mem_mapInsert he with rfl | he
        · show _ ∈ c.log
          rw [hlog, ← hide, hid]; simp
        · show _ ∈ c.log
          rw [hlog, List.append_assoc]
          exact List.mem_append_left _ (h.calls e he hide)
      · show Everywhere _ c.log
        rw [hlog, everywhere_snoc]
        refine ⟨h0.evs, ?_⟩
        rintro (hx | ⟨_, _, _, _, _, hx⟩)
        · simp at hx
        · simp only [Effect.dispatch.injEq] at hx
          rw [← hx.1]; simp
  stop p t ts t' c es hl h hd ha hlog hdo := by
    rcases does_effects hdo with hloc | ⟨_, _, _, _, _, _, _, h2, _⟩
    · have h1 : Started (natText n) { p with ctx := c } :=
        h.mono (es := [.applied t.id] ++ es) (by rw [← List.append_assoc]; exact hlog) (by
          intro e he
          rcases List.mem_append.1 he with he | he
          · simp only [List.mem_singleton] at he; subst he; rfl
          · exact local_aside (hloc e he)) (fun e he hid => ⟨e, he, hid⟩)
      rcases terminate_cases (o := o) (p := { p with ctx := c })
        ((does_terminate hdo t' rfl).imp (·.1) (·.1)) with ⟨h2, _⟩ | ⟨hs, a, h2, _⟩
      · exact h1.mono h2 (by simp [Effect.aside]) (fun e he hid => ⟨e, he, hid⟩)
      · exact h1.mono (by rw [h2, List.append_assoc]) (by simp [Effect.aside]) (fun e he hid => ⟨e, he, hid⟩)
    · simp at h2
  tear p hl h hq hd := started_tear h
  bury p hd h := started_tear h
  late p token s z hl h hg :=
    h.mono (es := [.responded token s z]) rfl (by simp [Effect.aside]) (fun e he hid => ⟨e, he, hid⟩)
  answer p token s z t out c es hl h hg ha hs hlog hdo := by
    have hw : t.strip.waits = true := hl.deferW _ (mapGet_mem hg)
    rcases does_effects hdo with hloc | ⟨_, _, _, _, _, _, _, _, _, h2, _⟩
    · have h1 : Started (natText n) { p.answering token s z with ctx := c } :=
        h.mono (es := [.responded token s z] ++ es) (by rw [← List.append_assoc]; exact hlog) (by
          intro e he
          rcases List.mem_append.1 he with he | he
          · simp only [List.mem_singleton] at he; subst he; rfl
          · exact local_aside (hloc e he)) (fun e he hid => ⟨e, (List.mem_filter.1 he).1, hid⟩)
      have hap : t.id = natText n → Effect.applied (natText n) ∈ c.log := by
        intro hx
        rw [hlog, List.append_assoc]
        exact List.mem_append_left _ (h.calls _ (mapGet_mem hg) hx)
      cases out with
      | done => exact h1.complete t.id hap
      | requeued ts =>
        have := h1.complete t.id hap
        exact ⟨this.calls, this.evs⟩
      | failed => exact h1.mono (es := [.failed t.id]) rfl (by simp [Effect.aside]) (fun e he hid => ⟨e, he, hid⟩)
      | deferred tok t' =>
        exfalso
        rcases does_out hdo with h2 | ⟨t2, h2, h3, h4⟩ | ⟨_, ⟨_, h2⟩, _⟩
        · simp [Outcome.tasks] at h2
        · rw [hw] at h4; simp at h4
        · simp at h2
      | terminate t' => simp [Outcome.stops] at hs
    · rw [hw] at h2; simp at h2
  answerStop p token s z t t' c es hl h hg ha hlog hdo := by
    rcases does_effects hdo with hloc | ⟨_, _, _, _, _, _, _, h2, _⟩
    · have h1 : Started (natText n) { p.answering token s z with ctx := c } :=
        h.mono (es := [.responded token s z] ++ es) (by rw [← List.append_assoc]; exact hlog) (by
          intro e he
          rcases List.mem_append.1 he with he | he
          · simp only [List.mem_singleton] at he; subst he; rfl
          · exact local_aside (hloc e he)) (fun e he hid => ⟨e, (List.mem_filter.1 he).1, hid⟩)
      rcases terminate_cases (o := o) (p := { p.answering token s z with ctx := c })
        ((does_terminate hdo t' rfl).imp (·.1) (·.1)) with ⟨h2, _⟩ | ⟨hs, a, h2, _⟩
      · exact h1.mono h2 (by simp [Effect.aside]) (fun e he hid => ⟨e, he, hid⟩)
      · exact h1.mono (by rw [h2, List.append_assoc]) (by simp [Effect.aside]) (fun e he hid => ⟨e, he, hid⟩)
    · simp at h2
  frame p c' hl h hf := by
    obtain ⟨es, h1, h2⟩ := hf.log
    exact h.mono (q := { p with ctx := c' }) h1 (fun e he => by
      have := h2 e he; cases e <;> simp_all [Effect.isFilter, Effect.aside]) (fun e he hid => ⟨e, he, hid⟩)
  frameD p c' hl h hf := by
    obtain ⟨es, h1, h2⟩ := hf.log
    exact h.mono (q := { p with ctx := c' }) h1 (fun e he => by
      have := h2 e he; cases e <;> simp_all [Effect.isFilter, Effect.aside]) (fun e he hid => ⟨e, he, hid⟩)
  lateD p token s z hl h hg :=
    h.mono (es := [.responded token s z]) rfl (by simp [Effect.aside]) (fun e he hid => ⟨e, he, hid⟩)
  answerD p token s z id guard hd h hg := by
    refine Started.complete (p := { p.answering token s z with ctx := (applyNoop (p.answering token s z).ctx guard).2 }) ?_ id ?_
    · exact h.mono (es := [.responded token s z]) (by cases guard <;> rfl) (by simp [Effect.aside])
        (fun e he hid => ⟨e, (List.mem_filter.1 he).1, hid⟩)
    · intro hx
      have := h.calls _ (mapGet_mem hg) hx
      have hlog : (applyNoop (p.answering token s z).ctx guard).2.log = p.ctx.log ++ [.responded token s z] := by
        cases guard <;> rfl
      show _ ∈ (applyNoop (p.answering token s z).ctx guard).2.log
      rw [hlog]
      exact List.mem_append_left _ this

/-- Effects that concern no action. -/
def Effect.unrelated : Effect → Bool
  | .dispatch .. | .applied _ | .completed _ | .failed _ | .callFailed _ | .exported _ | .teardown
  | .stored .. | .headersSet .. | .attrSet .. | .ended | .hits | .resumeRequest | .resumeResponse => false
  | _ => true

theorem unrelated_run_idle (factory : Factory) (host : H) (events : List (Event H))
    (hno : ∀ p, factory.build o { host := host } ≠ .pipeline p) :
    ∀ e ∈ (Filter.run o factory host events).log, e.unrelated = true := by
  obtain ⟨w, es, hl, hes, hw⟩ := run_idle_log (o := o) factory host events hno
  rw [hl]
  intro x hx
  rcases List.mem_append.1 hx with hx | hx
  · rcases hw with rfl | ⟨_, rfl⟩ | rfl
    · simp at hx; rcases hx with rfl | rfl <;> rfl
    · simp at hx; rcases hx with rfl | rfl <;> rfl
    · simp at hx
  · have := hes x hx
    cases x <;> simp_all [Effect.isIdle, Effect.unrelated]

theorem orderly_run (parse : Text → Option Expr) (cfg : PluginConfig) (factory : Factory)
    (host : H) (s : ActionSet) (hs : ServedBy o parse cfg factory host s) (events : List (Event H)) (n : Nat) :
    Everywhere (Orderly (natText n)) (Filter.run o factory host events).log := by
  by_cases hb : ∃ p, factory.build o { host := host } = .pipeline p
  · obtain ⟨p, hb⟩ := hb
    obtain ⟨b, hbuilt, hfs⟩ := servedBy_fromSet hs hb
    have hg := (tracked_extra (o := o) n).run factory host p hb (tracked_new hbuilt hfs n) events
    refine hg.log (Q := Everywhere (Orderly (natText n))) ?_
    rintro q (⟨_, h⟩ | ⟨_, h⟩)
    · exact h.evs
    · exact h.evs
  · have hp := unrelated_run_idle (o := o) factory host events (fun p hp => hb ⟨p, hp⟩)
    intro pre e post hlog
    have he := hp e (by rw [hlog]; simp)
    refine ⟨?_, ?_⟩
    · rintro g tok svc b rid rfl; simp [Effect.unrelated] at he
    · intro hx u g tok svc b rid v hu
      have := hp (.dispatch (natText n) g tok svc b rid) (by rw [hlog, hu]; simp)
      simp [Effect.unrelated] at this

theorem fromStart_run (parse : Text → Option Expr) (cfg : PluginConfig) (factory : Factory)
    (host : H) (s : ActionSet) (hs : ServedBy o parse cfg factory host s) (events : List (Event H)) (n : Nat) :
    Everywhere (FromStart (natText n)) (Filter.run o factory host events).log := by
  by_cases hb : ∃ p, factory.build o { host := host } = .pipeline p
  · obtain ⟨p, hb⟩ := hb
    obtain ⟨b, hbuilt, hfs⟩ := servedBy_fromSet hs hb
    have hg := (started_extra (o := o) n).run factory host p hb ?_ events
    · refine hg.log (Q := Everywhere (FromStart (natText n))) ?_
      rintro q (⟨_, h⟩ | ⟨_, h⟩)
      · exact h.evs
      · exact h.evs
    · refine ⟨by simp [Pipe.push, hbuilt.deferred], ?_⟩
      have hlog0 : (p.push .hits).ctx.log = [.hits] := by simp [Pipe.push, Ctx.push, hbuilt.quiet.log]
      rw [hlog0]
      exact (everywhere_nil _).append_all (b := [.hits]) (by simp [FromStart])
  · have hp := unrelated_run_idle (o := o) factory host events (fun p hp => hb ⟨p, hp⟩)
    intro pre e post hlog hx
    have he := hp e (by rw [hlog]; simp)
    rcases hx with rfl | ⟨_, _, _, _, _, rfl⟩ <;> simp [Effect.unrelated] at he

/-- Finished actions stay finished: they send no further calls. -/
theorem Finished.mono {a b : List Effect} {x : Text} (h : Finished a x)
    (ho : Everywhere (Orderly x) (a ++ b)) : Finished (a ++ b) x := by
  refine ⟨List.mem_append_left _ h.1, ?_⟩
  intro u g tok svc bs rid v hu
  rcases List.append_eq_append_iff.1 hu with ⟨as, h3, h4⟩ | ⟨bs', h3, h4⟩
  · exact absurd (by rw [h3]; exact List.mem_append_left _ h.1) ((ho u _ v hu).1 g tok svc bs rid rfl)
  · cases bs' with
    | nil =>
      simp only [List.append_nil] at h3
      subst h3
      exact absurd h.1 ((ho _ _ v hu).1 g tok svc bs rid rfl)
    | cons y bs' =>
      simp only [List.cons_append, List.cons.injEq] at h4
      obtain ⟨rfl, rfl⟩ := h4
      obtain ⟨s, z, hr⟩ := h.2 u g tok svc bs rid bs' h3
      exact ⟨s, z, List.mem_append_left _ hr⟩

end Verif
