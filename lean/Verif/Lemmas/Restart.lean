import Verif.Lemmas.Unique
/-! An action that did something is not started again. -/
set_option linter.unusedSimpArgs false
namespace Verif
open Spec

variable {H : Type} {o : Oracle H}

/-- The action was started and did something. -/
def Spent (x : Text) (log : List Effect) : Prop :=
  ∃ pre e post, log = pre ++ .applied x :: e :: post ∧ byAction e = true

/-- An action that did something is not started again. -/
def Settled (x : Text) (log : List Effect) : Prop :=
  ∀ pre e post, log = pre ++ .applied x :: e :: post → byAction e = true → .applied x ∉ post

theorem snoc_split {a b : List Effect} {e x y : Effect} (h : a ++ [e] = b ++ x :: y :: []) : a = b ++ [x] ∧ e = y := by
  have : b ++ x :: y :: [] = (b ++ [x]) ++ [y] := by simp
  rw [this] at h
  have := List.append_inj' h rfl
  simpa using this

theorem spent_snoc {x : Text} {log : List Effect} {e : Effect} (h : Spent x (log ++ [e])) :
    Spent x log ∨ (byAction e = true ∧ ∃ l, log = l ++ [.applied x]) := by
  obtain ⟨pre, e', post, heq, hb⟩ := h
  rcases List.eq_nil_or_concat post with rfl | ⟨post, y, rfl⟩
  · obtain ⟨rfl, rfl⟩ := snoc_split heq
    exact .inr ⟨hb, pre, rfl⟩
  · left
    have : pre ++ .applied x :: e' :: (post ++ [y]) = (pre ++ .applied x :: e' :: post) ++ [y] := by simp
    rw [List.concat_eq_append, this] at heq
    obtain ⟨rfl, _⟩ := List.append_inj' heq rfl
    exact ⟨pre, e', post, rfl, hb⟩

theorem Spent.more {x : Text} {log : List Effect} (h : Spent x log) (es : List Effect) : Spent x (log ++ es) := by
  obtain ⟨pre, e', post, rfl, hb⟩ := h
  exact ⟨pre, e', post ++ es, by simp, hb⟩

theorem spent_quiet {x : Text} {log es : List Effect} (hes : .applied x ∉ es)
    (hh : ∀ e, es.head? = some e → byAction e = false) (h : Spent x (log ++ es)) : Spent x log := by
  induction es using snoc_ind with
  | nil => simpa using h
  | snoc es e ih =>
    rw [← List.append_assoc] at h
    rcases spent_snoc h with h | ⟨hb, l, hl⟩
    · refine ih (fun hm => hes (List.mem_append_left _ hm)) ?_ h
      intro e' he'
      cases es with
      | nil => simp at he'
      | cons y es => exact hh e' (by simpa using he')
    · rcases List.eq_nil_or_concat es with rfl | ⟨es', y, rfl⟩
      · have := hh e rfl
        rw [this] at hb; simp at hb
      · rw [List.concat_eq_append, ← List.append_assoc] at hl
        obtain ⟨_, h2⟩ := List.append_inj' hl rfl
        simp only [List.cons.injEq, and_true] at h2
        subst h2
        exact absurd (by simp) hes

theorem settled_snoc {x : Text} {log : List Effect} {e : Effect} (h : Settled x log)
    (he : e = .applied x → ¬Spent x log) : Settled x (log ++ [e]) := by
  intro pre e' post heq hb
  rcases List.eq_nil_or_concat post with rfl | ⟨post, y, rfl⟩
  · simp
  · have : pre ++ .applied x :: e' :: (post ++ [y]) = (pre ++ .applied x :: e' :: post) ++ [y] := by simp
    rw [List.concat_eq_append, this] at heq
    obtain ⟨rfl, h2⟩ := List.append_inj' heq rfl
    simp only [List.cons.injEq, and_true] at h2
    subst h2
    intro hm
    rw [List.concat_eq_append] at hm
    rcases List.mem_append.1 hm with hm | hm
    · exact h _ _ _ rfl hb hm
    · exact he (List.mem_singleton.1 hm).symm ⟨pre, e', post, rfl, hb⟩

theorem Settled.append {x : Text} {log es : List Effect} (h : Settled x log) (hes : .applied x ∉ es) :
    Settled x (log ++ es) := by
  induction es using snoc_ind with
  | nil => simpa using h
  | snoc es e ih =>
    rw [← List.append_assoc]
    refine settled_snoc (ih fun hm => hes (List.mem_append_left _ hm)) ?_
    rintro rfl
    exact absurd (by simp) hes

/-- The task is not started any more. -/
def Over (x : Text) (k : Core) : Prop := k.id = x → k.waits = true

theorem over_closed (x : Text) : Closed (Over x) where
  again k k' h ha := by
    cases ha with
    | same => exact h
    | store => exact h
    | tokenUsage => exact h
  sent id deps guard pred msg var svc r h := fun _ => rfl
  noop id guard := fun _ => rfl

theorem over_of_zero {x : Text} {k : Core} (h : k.count x = 0) : Core.All (Over x) k := by
  have := count_zero_all h
  induction this with
  | mk k h1 _ ih =>
    refine .mk k (fun hid => absurd hid h1) fun c hc => ih c hc ?_
    have := countList_mem (x := x) hc
    rw [Core.count_eq] at h
    omega

theorem does_requeued {t : PTask} {ts : List PTask} {es : List Effect} (h : TDoes t (.requeued ts) es)
    (hw : t.strip.waits = false) : es = [] := by
  generalize ho : Outcome.requeued ts = out at h
  induction h generalizing ts with
  | core h =>
    cases h with
    | again => rfl
    | replies => rfl
    | replied id pred e terminal status hs body => cases terminal <;> simp at ho
    | headers id pred e target terminal hs => cases terminal <;> simp at ho
    | stored id pred e path x terminal s v pre hp => cases terminal <;> simp at ho
    | _ => simp at ho
  | abort => simp at ho
  | allow => simp at ho
  | sent => simp at ho
  | done => simp at ho
  | again h ih => exact ih hw rfl
  | stop => simp at ho
  | @tracing t out es h ih =>
    cases out with
    | requeued ts' => exact ih hw rfl
    | _ => simp [Outcome.traced] at ho

theorem does_no_applied {t : PTask} {out : Outcome} {es : List Effect} (h : TDoes t out es) (x : Text) :
    .applied x ∉ es := by
  intro hm
  rcases does_effects h with h | ⟨_, _, _, _, _, _, rfl, _⟩
  · simpa [Effect.isLocal] using h _ hm
  · simp at hm

theorem settled_terminate {x : Text} {p : Pipe H} {t t' : PTask} {es : List Effect} (hd : TDoes t (.terminate t') es)
    (h : Settled x p.ctx.log) : Settled x (p.terminate o t').ctx.log := by
  rw [terminate_log]
  rcases does_terminate hd t' rfl with ⟨h1, _⟩ | ⟨h1, _⟩
  · rw [traced_log h1]; exact h.append (es := [.ended]) (by simp)
  · rw [traced_log h1]
    obtain ⟨es, h2, h3⟩ := core_does o p.ctx defaultCore
    rw [h2, List.append_assoc]
    refine h.append ?_
    have := does_no_applied (.core h3) x
    simp [this]

/-- The invariant: no task of an action that did something can be started, and none was started again. -/
theorem settled_extra (x : Text) (hx : ∀ n, Pipe.teardownId n ≠ x) :
    Extra o (fun (p : Pipe H) todo => p.load x todo ≤ 1 ∧ (Spent x p.ctx.log → Tasks (Over x) p todo) ∧ Settled x p.ctx.log)
      (fun p => Settled x p.ctx.log) (fun p => Settled x p.ctx.log) where
  opens p hl h := ⟨(load_extra (o := o) x hx 1).opens p hl h.1,
    fun hs => (tasks_extra (o := o) (over_closed x)).opens p hl (h.2.1 hs), h.2.2⟩
  skip p t ts hl h hd := ⟨(load_extra (o := o) x hx 1).skip p t ts hl h.1 hd,
    fun hs => (tasks_extra (o := o) (over_closed x)).skip p t ts hl (h.2.1 hs) hd, h.2.2⟩
  go p t ts out c es hl h hd ha hs hlog hdo := by
    have hload := (load_extra (o := o) x hx 1).go p t ts out c es hl h.1 hd ha hs hlog hdo
    have hna := does_no_applied hdo x
    refine ⟨hload, ?_⟩
    by_cases hid : t.id = x
    · have hw : t.strip.waits = false := hl.queueW t (by simp)
      have hns : ¬Spent x p.ctx.log := by
        intro hsp
        have := (h.2.1 hsp t (by simp [Pipe.tasks])).here
        rw [this (by rw [strip_id]; exact hid)] at hw
        simp at hw
      have hset : Settled x c.log := by
        rw [hlog]
        refine Settled.append (settled_snoc h.2.2 fun _ => hns) hna
      have h0 := h.1
      unfold Pipe.load at h0
      rw [pool_tasks, poolCount_cons, Core.count_eq, strip_id, if_pos hid] at h0
      have zero : ∀ t' ∈ p.queue ++ ts ++ p.deferred.map Prod.snd, t'.strip.count x = 0 := by
        intro t' ht'
        have := poolCount_mem (x := x) ht'
        rw [poolCount_append, poolCount_append] at this
        omega
      have allOver : Tasks (Over x) { p with ctx := c } ts := fun t' ht' => over_of_zero (zero t' ht')
      cases out with
      | done => exact ⟨fun _ => allOver, hset.append (es := [.completed t.id]) (by simp)⟩
      | failed => exact ⟨fun _ => allOver, hset.append (es := [.failed t.id]) (by simp)⟩
      | requeued new =>
        refine ⟨fun hsp => ?_, hset⟩
        replace hsp : Spent x c.log := hsp
        rw [does_requeued hdo hw, List.append_nil] at hlog
        rw [hlog] at hsp
        rcases spent_snoc hsp with hsp | ⟨hb, _⟩
        · exact absurd hsp hns
        · simp [byAction] at hb
      | deferred tok t' =>
        refine ⟨fun _ => ?_, hset⟩
        have h1 := apply_res o (p.ctx.push (.applied t.id)) t
        rw [ha] at h1
        intro t'' ht''
        simp only [Pipe.after, Pipe.defer, Pipe.tasks, List.mem_append, List.mem_map] at ht''
        rcases ht'' with ht'' | ⟨e, he, rfl⟩
        · exact over_of_zero (zero t'' (by simp only [List.mem_append]; exact .inl ht''))
        · rcases mem_mapInsert he with rfl | he
          · cases h1 with
            | plain _ _ _ _ ho => cases ho
            | sent id deps guard pred msg var svc onReply token bytes rid p' hk hp _ _ =>
              dsimp only
              rw [hp]
              refine .mk _ (fun _ => rfl) fun k hk' => over_of_zero ?_
              have := countList_mem (x := x) hk'
              simp only [Core.children] at this
              rw [hk] at h0
              simp only [Core.children] at h0
              omega
            | answered _ _ _ _ _ _ _ _ _ ho => cases ho
          · exact over_of_zero (zero e.2 (by
              simp only [List.mem_append, List.mem_map]; exact .inr ⟨e, he, rfl⟩))
      | terminate t' => simp [Outcome.stops] at hs
    · have hnew : ∀ fs : List Effect, .applied x ∉ fs → Spent x (c.log ++ fs) → Spent x p.ctx.log := by
        intro fs hfs hsp
        rw [hlog, List.append_assoc, List.append_assoc] at hsp
        refine spent_quiet ?_ ?_ hsp
        · simp only [List.singleton_append, List.mem_cons, Effect.applied.injEq, List.mem_append, not_or]
          exact ⟨fun e => hid e.symm, hna, hfs⟩
        · intro e he
          simp at he
          subst he; rfl
      have hset : Settled x c.log := by
        rw [hlog, List.append_assoc]
        refine h.2.2.append ?_
        simp only [List.singleton_append, List.mem_cons, Effect.applied.injEq, not_or]
        exact ⟨fun e => hid e.symm, hna⟩
      have tk := fun hsp => (tasks_extra (o := o) (over_closed x)).go p t ts out c es hl (h.2.1 hsp) hd ha hs hlog hdo
      cases out with
      | done => exact ⟨fun hsp => tk (hnew [.completed t.id] (by simp) hsp), hset.append (es := [.completed t.id]) (by simp)⟩
      | failed => exact ⟨fun hsp => tk (hnew [.failed t.id] (by simp) hsp), hset.append (es := [.failed t.id]) (by simp)⟩
      | requeued new => exact ⟨fun hsp => tk (hnew [] (by simp) ((List.append_nil c.log).symm ▸ hsp)), hset⟩
      | deferred tok t' => exact ⟨fun hsp => tk (hnew [] (by simp) ((List.append_nil c.log).symm ▸ hsp)), hset⟩
      | terminate t' => simp [Outcome.stops] at hs
  stop p t ts t' c es hl h hd ha hlog hdo := by
    have hna := does_no_applied hdo x
    have hset : Settled x c.log := by
      rw [hlog]
      refine Settled.append (settled_snoc h.2.2 ?_) hna
      intro heq hsp
      have hw : t.strip.waits = false := hl.queueW t (by simp)
      have := (h.2.1 hsp t (by simp [Pipe.tasks])).here
      rw [this (by rw [strip_id]; simpa using heq)] at hw
      simp at hw
    exact settled_terminate (p := { p with ctx := c }) hdo hset
  tear p hl h hq hd := by
    obtain ⟨es, h1, h2, _⟩ := (tornDown (o := o) p).log
    have h3 : .applied x ∉ es := fun hm => by simpa [Effect.isTear] using h2 _ hm
    refine ⟨(load_extra (o := o) x hx 1).tear p hl h.1 hq hd, fun hs => ?_, ?_⟩
    · refine (tasks_extra (o := o) (over_closed x)).tear p hl (h.2.1 ?_) hq hd
      rw [h1] at hs
      refine spent_quiet h3 ?_ hs
      intro e he
      have := h2 e (List.mem_of_mem_head? he)
      cases e <;> simp_all [Effect.isTear, byAction]
    · rw [h1]; exact h.2.2.append h3
  bury p hd h := by
    obtain ⟨es, h1, h2, _⟩ := (tornDown (o := o) p).log
    rw [h1]
    exact h.append fun hm => by simpa [Effect.isTear] using h2 _ hm
  late p token s z hl h hg := by
    refine ⟨(load_extra (o := o) x hx 1).late p token s z hl h.1 hg, fun hs => ?_, h.2.2.append (es := [.responded token s z]) (by simp)⟩
    exact h.2.1 (spent_quiet (es := [.responded token s z]) (by simp) (by intro e he; simp at he; subst he; rfl) hs)
  answer p token s z t out c es hl h hg ha hs hlog hdo := by
    have hna := does_no_applied hdo x
    have hnew : ∀ fs : List Effect, .applied x ∉ fs → Spent x (c.log ++ fs) → Spent x p.ctx.log := by
      intro fs hfs hsp
      rw [hlog, List.append_assoc, List.append_assoc] at hsp
      refine spent_quiet ?_ ?_ hsp
      · simp only [List.singleton_append, List.mem_cons, List.mem_append, not_or]
        exact ⟨by simp, hna, hfs⟩
      · intro e he
        simp at he
        subst he; rfl
    have hset : Settled x c.log := by
      rw [hlog, List.append_assoc]
      refine h.2.2.append ?_
      simp only [List.singleton_append, List.mem_cons, not_or]
      exact ⟨by simp, hna⟩
    refine ⟨(load_extra (o := o) x hx 1).answer p token s z t out c es hl h.1 hg ha hs hlog hdo, ?_⟩
    have tk := fun hsp => (tasks_extra (o := o) (over_closed x)).answer p token s z t out c es hl (h.2.1 hsp) hg ha hs hlog hdo
    cases out with
    | done => exact ⟨fun hsp => tk (hnew [.completed t.id] (by simp) hsp), hset.append (es := [.completed t.id]) (by simp)⟩
    | failed => exact ⟨fun hsp => tk (hnew [.failed t.id] (by simp) hsp), hset.append (es := [.failed t.id]) (by simp)⟩
    | requeued new => exact ⟨fun hsp => tk (hnew [.completed t.id] (by simp) hsp), hset.append (es := [.completed t.id]) (by simp)⟩
    | deferred tok t' => exact ⟨fun hsp => tk (hnew [] (by simp) ((List.append_nil c.log).symm ▸ hsp)), hset⟩
    | terminate t' => simp [Outcome.stops] at hs
  answerStop p token s z t t' c es hl h hg ha hlog hdo := by
    refine settled_terminate (p := { p.answering token s z with ctx := c }) hdo ?_
    show Settled x c.log
    rw [hlog, List.append_assoc]
    refine h.2.2.append ?_
    simp only [List.singleton_append, List.mem_cons, not_or]
    exact ⟨by simp, does_no_applied hdo x⟩
  frame p c' hl h hf := by
    obtain ⟨es, h1, h2⟩ := hf.log
    have h3 : .applied x ∉ es := fun hm => by simpa [Effect.isFilter] using h2 _ hm
    refine ⟨(load_extra (o := o) x hx 1).frame p c' hl h.1 hf, fun hs => ?_, ?_⟩
    · refine h.2.1 ?_
      replace hs : Spent x c'.log := hs
      rw [h1] at hs
      refine spent_quiet h3 ?_ hs
      intro e he
      have := h2 e (List.mem_of_mem_head? he)
      cases e <;> simp_all [Effect.isFilter, byAction]
    · show Settled x c'.log
      rw [h1]; exact h.2.2.append h3
  frameD p c' hd h hf := by
    obtain ⟨es, h1, h2⟩ := hf.log
    show Settled x c'.log
    rw [h1]; exact h.append fun hm => by simpa [Effect.isFilter] using h2 _ hm
  lateD p token s z hd h hg := h.append (es := [.responded token s z]) (by simp)
  answerD p token s z id guard hd h hg := by
    rw [dropped_log, List.append_assoc]
    exact h.append (by simp)

/-- A call of an action directly follows its start. -/
def Headed (log : List Effect) : Prop :=
  ∀ pre x g token svc bytes rid post, log = pre ++ .dispatch x g token svc bytes rid :: post →
    ∃ pre', pre = pre' ++ [.applied x]

theorem Headed.append {log es : List Effect} (h : Headed log)
    (hes : ∀ x g token svc bytes rid, Effect.dispatch x g token svc bytes rid ∉ es) : Headed (log ++ es) := by
  intro pre x g token svc bytes rid post he
  rcases List.append_eq_append_iff.1 he with ⟨as, h1, h2⟩ | ⟨as, h1, h2⟩
  · exact absurd (by rw [h2]; simp) (hes x g token svc bytes rid)
  · cases as with
    | nil => exact absurd (by rw [← List.nil_append es, ← h2]; simp) (hes x g token svc bytes rid)
    | cons a as =>
      simp only [List.cons_append, List.cons.injEq] at h2
      exact h pre x g token svc bytes rid as (by rw [h1, h2.1])

theorem does_uncalled {k : Core} {out : Outcome} {es : List Effect} (h : Does k out es) :
    (∀ x g token svc bytes rid, Effect.dispatch x g token svc bytes rid ∉ es) ∨
    ∃ g token svc bytes rid, es = [.dispatch k.id g token svc bytes rid] ∧ k.isCall = true ∧ k.waits = false := by
  cases h with
  | sent => exact .inr ⟨_, _, _, _, _, rfl, rfl, rfl⟩
  | stored id pred e path x terminal s v pre hp =>
    left
    rcases hp with ⟨rfl, _⟩ | ⟨b, w, rfl, _⟩ <;> simp
  | _ => left; simp

theorem headed_inv {P : Core → Prop} (hP : Closed P) : CtxInv o P (fun c => Headed c.log) where
  closed := hP
  start k c _ _ _ h := by
    obtain ⟨es, h1, h2⟩ := core_does o (c.push (.applied k.id)) k
    rw [h1]
    have h0 : Headed (c.log ++ [.applied k.id]) := h.append (by simp)
    rcases does_uncalled h2 with hu | ⟨g, token, svc, bytes, rid, rfl, _⟩
    · exact h0.append hu
    · intro pre x g' token' svc' bytes' rid' post he
      rcases List.eq_nil_or_concat post with rfl | ⟨post', e, rfl⟩
      · have := List.append_inj' he rfl
        simp only [List.cons.injEq, Effect.dispatch.injEq] at this
        exact ⟨c.log, by rw [← this.1, ← this.2.1.1]; rfl⟩
      · have he' : (c.log ++ [.applied k.id]) ++ [.dispatch k.id g token svc bytes rid]
            = (pre ++ .dispatch x g' token' svc' bytes' rid' :: post') ++ [e] := by
          refine Eq.trans he ?_
          simp
        exact h0 _ _ _ _ _ _ _ _ (List.append_inj' he' rfl).1
  respond k c token s z _ hw h := by
    obtain ⟨es, h1, h2⟩ := core_does o
      { c with grpc := some (s, z), log := c.log ++ [.responded token s z] } k
    rw [h1]
    refine Headed.append (h.append (by simp)) ?_
    rcases does_uncalled h2 with hu | ⟨_, _, _, _, _, _, _, hw'⟩
    · exact hu
    · rw [hw] at hw'; cases hw'
  last c h := by
    obtain ⟨es, h1, h2⟩ := core_does o c defaultCore
    rw [h1]
    refine h.append ?_
    rcases does_uncalled h2 with hu | ⟨_, _, _, _, _, _, hc, _⟩
    · exact hu
    · cases hc
  aside c c' h ha := by
    obtain ⟨es, h1, h2⟩ := ha.log
    rw [h1]
    refine h.append ?_
    intro x g token svc bytes rid he
    have := h2 _ he
    simp [Effect.plain, Effect.isFilter] at this

theorem countP_le_one {α} {f : α → Bool} : ∀ {l : List α},
    (∀ a x b, l = a ++ x :: b → f x = true → ∀ y ∈ b, f y = false) → l.countP f ≤ 1
  | [], _ => by simp
  | x :: l, h => by
    rw [List.countP_cons]
    by_cases hx : f x = true
    · rw [List.countP_eq_zero.2 (fun y hy => by simp [h [] x l rfl hx y hy])]
      split <;> omega
    · have := countP_le_one (l := l) (fun a z b hb => h (x :: a) z b (by rw [hb]; rfl))
      simp [hx]; exact this

theorem core_all_true (k : Core) : Core.All (fun _ => True) k := by
  refine .mk k trivial fun c hc' => core_all_true c
termination_by k
decreasing_by
  cases k <;> simp only [Core.children, List.not_mem_nil] at hc'
  all_goals
    have := List.sizeOf_lt_of_mem hc'
    simp
    omega

end Verif
