import Verif.Lemmas.Due
/-! The number of tasks of an action along a request. -/
set_option linter.unusedSimpArgs false
namespace Verif
open Spec

variable {H : Type} {o : Oracle H}

attribute [local irreducible] Core.count countList

theorem still_tear {e : Effect} (h : e.isTear = true) : e.still = true := by
  cases e <;> simp_all [Effect.isTear, Effect.still]

theorem still_filter {e : Effect} (h : e.isFilter = true) : e.still = true := by
  cases e <;> simp_all [Effect.isFilter, Effect.still]

theorem sent_still {a b : List Effect} {x : Text} (h : ∀ e ∈ b, e.still = true) : SentIn (a ++ b) x ↔ SentIn a x := by
  rw [sent_append]
  refine ⟨fun h' => h'.resolve_right ?_, .inl⟩
  rintro ⟨g, tok, svc, by', rid, hm⟩
  exact Bool.noConfusion (h _ hm)

theorem sent_closing {t : PTask} {out : Outcome} {x : Text} : ¬SentIn (closing t out) x := by
  rintro ⟨g, tok, svc, by', rid, hm⟩
  cases out with
  | requeued ts =>
    simp only [closing] at hm
    split at hm <;> simp at hm
  | _ => simp [closing] at hm

theorem after_log {p : Pipe H} {t : PTask} {ts : List PTask} {out : Outcome} {c : Ctx H} {es : List Effect}
    (hl : Live p (t :: ts)) (hs : out.stops = false) (hlog : c.log = p.ctx.log ++ [.applied t.id] ++ es) :
    (Pipe.after { p with ctx := c } t.id out).ctx.log = p.ctx.log ++ [.applied t.id] ++ es ++ closing t out := by
  have hw : t.strip.waits = false := hl.queueW t (by simp)
  cases out with
  | done => exact congrArg (· ++ _) hlog
  | failed => exact congrArg (· ++ _) hlog
  | requeued new =>
    refine Eq.trans hlog ?_
    simp [closing, hw]
  | deferred tok t' =>
    refine Eq.trans hlog ?_
    simp [closing]
  | terminate t' => simp [Outcome.stops] at hs

theorem after_pool {p : Pipe H} {t : PTask} {ts : List PTask} {out : Outcome} {c : Ctx H} {es : List Effect}
    (hl : Live p (t :: ts)) (hs : out.stops = false) (hlog : c.log = p.ctx.log ++ [.applied t.id] ++ es)
    (hst : Stepped t out es) (hf : Fresh (Pipe.after { p with ctx := c } t.id out).ctx.log) (y : Text) :
    poolCount y ((Pipe.after { p with ctx := c } t.id out).tasks ts) =
      poolCount y out.tasks + (poolCount y p.queue + poolCount y ts + poolCount y (p.deferred.map Prod.snd)) := by
  rw [pool_tasks]
  cases out with
  | done =>
    show poolCount y p.queue + poolCount y ts + poolCount y (p.deferred.map Prod.snd) = _
    simp [Outcome.tasks, poolCount_nil]
  | failed =>
    show poolCount y p.queue + poolCount y ts + poolCount y (p.deferred.map Prod.snd) = _
    simp [Outcome.tasks, poolCount_nil]
  | requeued new =>
    show poolCount y (p.queue ++ new) + poolCount y ts + poolCount y (p.deferred.map Prod.snd) = _
    rw [poolCount_append, Outcome.tasks]; omega
  | deferred tok t' =>
    cases hst with
    | sent _ _ g svc by' rid hw hw' hid' hc' =>
      replace hf : Fresh c.log := hf
      rw [hlog, Fresh, everywhere_snoc] at hf
      have hf1 : Fresh p.ctx.log := Fresh.prefix hf.1
      have hin : inFlight (p.ctx.log ++ [.applied t.id]) = inFlight p.ctx.log :=
        inFlight_neutral _ (by simp [Effect.neutral])
      have := hf.2 tok rfl
      rw [hin, ← hl.calls hf1, entry_fst] at this
      show poolCount y p.queue + poolCount y ts + poolCount y ((mapInsert p.deferred tok t').map Prod.snd) = _
      rw [mapInsert_fresh _ _ _ this, List.map_cons, poolCount_cons, Outcome.tasks, poolCount_cons, poolCount_nil]
      dsimp only
      omega
    | over _ _ ho => rcases ho with ho | ho <;> cases ho
  | terminate t' => simp [Outcome.stops] at hs

theorem replied_log {p : Pipe H} {token s z : Nat} {t : PTask} {out : Outcome} {c : Ctx H} {es : List Effect}
    (hw : t.strip.waits = true) (hs : out.stops = false) (hlog : c.log = p.ctx.log ++ [.responded token s z] ++ es) :
    (Pipe.replied { p.answering token s z with ctx := c } t.id out).ctx.log =
      p.ctx.log ++ [.responded token s z] ++ es ++ closing t out := by
  cases out with
  | done => exact congrArg (· ++ _) hlog
  | failed => exact congrArg (· ++ _) hlog
  | requeued new =>
    refine (congrArg (· ++ [.completed t.id]) hlog).trans ?_
    simp [closing, hw]
  | deferred tok t' =>
    refine Eq.trans hlog ?_
    simp [closing]
  | terminate t' => simp [Outcome.stops] at hs

theorem pool_removed (y : Text) (m : List (Nat × PTask)) (tok : Nat) (t : PTask) (h : (tok, t) ∈ m)
    (hn : (m.map Prod.fst).Nodup) :
    poolCount y ((m.filter (fun e => e.1 ≠ tok)).map Prod.snd) + t.strip.count y = poolCount y (m.map Prod.snd) := by
  induction m with
  | nil => simp at h
  | cons e m ih =>
    rw [List.filter_cons]
    rw [List.map_cons, List.nodup_cons] at hn
    rcases List.mem_cons.1 h with rfl | h
    · have hfil : m.filter (fun e => decide (e.1 ≠ tok)) = m := by
        rw [List.filter_eq_self]
        intro e he
        refine decide_eq_true fun hx => hn.1 ?_
        show tok ∈ _
        rw [← hx]
        exact List.mem_map_of_mem (f := Prod.fst) he
      simp only [ne_eq, not_true_eq_false, decide_false, Bool.false_eq_true, if_false, List.map_cons, poolCount_cons]
      rw [hfil]; omega
    · have h1 := ih h hn.2
      have h2 : e.1 ≠ tok := fun hx => hn.1 (hx ▸ List.mem_map_of_mem (f := Prod.fst) h)
      rw [if_pos (decide_eq_true h2)]
      simp only [List.map_cons, poolCount_cons]
      omega

theorem replied_pool {p : Pipe H} {token s z : Nat} {t : PTask} {out : Outcome} {c : Ctx H} {es : List Effect}
    (hl : Live p []) (hg : mapGet p.deferred token = some t) (hs : out.stops = false) (hst : Stepped t out es)
    (hf : Fresh p.ctx.log) (y : Text) :
    ∃ r, poolCount y (p.tasks []) = t.strip.count y + r ∧
      poolCount y ((Pipe.replied { p.answering token s z with ctx := c } t.id out).tasks []) = poolCount y out.tasks + r := by
  have hw : t.strip.waits = true := hl.deferW _ (mapGet_mem hg)
  have hn : (p.deferred.map Prod.fst).Nodup := by
    rw [← entry_fst, hl.calls hf]
    exact fresh_nodup _ hf
  have h1 := pool_removed y p.deferred token t (mapGet_mem hg) hn
  refine ⟨poolCount y p.queue + poolCount y ((p.deferred.filter (fun e => e.1 ≠ token)).map Prod.snd), ?_, ?_⟩
  · rw [pool_tasks, poolCount_nil]; omega
  · rw [pool_tasks, poolCount_nil]
    cases out with
    | done =>
      show poolCount y p.queue + 0 + poolCount y ((p.deferred.filter (fun e => e.1 ≠ token)).map Prod.snd) = _
      simp [Outcome.tasks, poolCount_nil]
    | failed =>
      show poolCount y p.queue + 0 + poolCount y ((p.deferred.filter (fun e => e.1 ≠ token)).map Prod.snd) = _
      simp [Outcome.tasks, poolCount_nil]
    | requeued new =>
      show poolCount y (new ++ p.queue) + 0 + poolCount y ((p.deferred.filter (fun e => e.1 ≠ token)).map Prod.snd) = _
      rw [poolCount_append, Outcome.tasks]; omega
    | deferred tok t' =>
      cases hst with
      | sent _ _ _ _ _ _ hw' => rw [hw] at hw'; cases hw'
      | over _ _ ho => rcases ho with ho | ho <;> cases ho
    | terminate t' => simp [Outcome.stops] at hs

theorem pool_tear {x : Text} (hx : ∀ n, Pipe.teardownId n ≠ x) (p : Pipe H) (hq : p.queue = []) (hd : p.deferred = []) :
    poolCount x ((p.executeTeardown o).tasks []) = 0 := by
  have h1 := load_teardown (o := o) hx p
  obtain ⟨es, h2, h3, _⟩ := (tornDown (o := o) p).log
  unfold Pipe.load at h1
  rw [h2, List.countP_append, tear_settles h3, pool_tasks x p, hq, hd] at h1
  simp only [poolCount_nil, List.map_nil] at h1
  omega

/-- The state of an action `b` and its reply action `x`. -/
structure Tied (b x : Text) (p : Pipe H) (todo : List PTask) : Prop where
  links : Tasks (Link b x) p todo
  over : SentIn p.ctx.log b → Tasks (Over b) p todo
  sent : ∀ e ∈ p.deferred, e.2.id = b → SentIn p.ctx.log b
  loadB : p.load b todo ≤ 1
  loadX : p.load x todo ≤ 1
  joined : Fresh p.ctx.log → Joined b x p.ctx.log (poolCount b (p.tasks todo)) (poolCount x (p.tasks todo))

theorem stepped_sent {t : PTask} {out : Outcome} {es : List Effect} (h : Stepped t out es) (hs : out.stops = false)
    {b : Text} (hb : SentIn es b) : t.id = b ∧ ∃ tok t', out = .deferred tok t' := by
  obtain ⟨g, tok, svc, by', rid, hm⟩ := hb
  cases h with
  | sent tok t' =>
    simp only [List.mem_singleton, Effect.dispatch.injEq] at hm
    exact ⟨hm.1.symm, _, _, rfl⟩
  | over _ _ _ hl => exact Bool.noConfusion (hl _ hm)
  | stop => simp [Outcome.stops] at hs
  | again => simp at hm
  | replies => simp at hm

theorem tied_extra {b x : Text} (hb : ∀ n, Pipe.teardownId n ≠ b) (hx : ∀ n, Pipe.teardownId n ≠ x) :
    Extra o (Tied (H := H) b x) (fun _ => True) (fun _ => True) where
  opens p hl h := by
    have hc : ∀ y, poolCount y (({ p with queue := [] } : Pipe H).tasks p.queue) = poolCount y (p.tasks []) := by
      intro y
      rw [pool_tasks, pool_tasks]
      simp [poolCount_nil]
    exact ⟨(lasting_extra (o := o) (link_lasting hb)).opens p hl h.links,
      fun hs => (tasks_extra (o := o) (over_closed b)).opens p hl (h.over hs), h.sent,
      (load_extra (o := o) b hb 1).opens p hl h.loadB, (load_extra (o := o) x hx 1).opens p hl h.loadX,
      fun hf => by rw [hc, hc]; exact h.joined hf⟩
  skip p t ts hl h hd := by
    have hc : ∀ y, poolCount y (({ p with queue := p.queue ++ [t] } : Pipe H).tasks ts) = poolCount y (p.tasks (t :: ts)) := by
      intro y
      rw [pool_tasks, pool_tasks]
      simp only [poolCount_append, poolCount_cons, poolCount_nil]
      omega
    exact ⟨(lasting_extra (o := o) (link_lasting hb)).skip p t ts hl h.links hd,
      fun hs => (tasks_extra (o := o) (over_closed b)).skip p t ts hl (h.over hs) hd, h.sent,
      (load_extra (o := o) b hb 1).skip p t ts hl h.loadB hd, (load_extra (o := o) x hx 1).skip p t ts hl h.loadX hd,
      fun hf => by rw [hc, hc]; exact h.joined hf⟩
  go p t ts out c es hl h hd ha hs hlog hdo := by
    have hst := stepped hdo
    have hw : t.strip.waits = false := hl.queueW t (by simp)
    have hall := after_log hl hs hlog
    have lb := (load_extra (o := o) b hb 1).go p t ts out c es hl h.loadB hd ha hs hlog hdo
    have lx := (load_extra (o := o) x hx 1).go p t ts out c es hl h.loadX hd ha hs hlog hdo
    have hback : SentIn (Pipe.after { p with ctx := c } t.id out).ctx.log b → SentIn p.ctx.log b ∨ SentIn es b := by
      intro hsn
      rw [hall] at hsn
      rcases sent_append.1 hsn with hsn | hsn
      · rcases sent_append.1 hsn with hsn | hsn
        · exact .inl ((sent_still (by simp [Effect.still])).1 hsn)
        · exact .inr hsn
      · exact absurd hsn sent_closing
    have hforth : SentIn p.ctx.log b ∨ SentIn es b → SentIn (Pipe.after { p with ctx := c } t.id out).ctx.log b := by
      intro hsn
      rw [hall]
      refine sent_append.2 (.inl ?_)
      rcases hsn with hsn | hsn
      · exact sent_append.2 (.inl (sent_append.2 (.inl hsn)))
      · exact sent_append.2 (.inr hsn)
    refine ⟨(lasting_extra (o := o) (link_lasting hb)).go p t ts out c es hl h.links hd ha hs hlog hdo, ?_, ?_, lb, lx, ?_⟩
    · intro hsn
      rcases hback hsn with hsn | hsn
      · exact (tasks_extra (o := o) (over_closed b)).go p t ts out c es hl (h.over hsn) hd ha hs hlog hdo
      · obtain ⟨hid, tok, t', rfl⟩ := stepped_sent hst hs hsn
        have h0 := h.loadB
        unfold Pipe.load at h0
        rw [pool_tasks, poolCount_cons, Core.count_eq, strip_id, if_pos hid] at h0
        have zero : ∀ t' ∈ p.queue ++ ts ++ p.deferred.map Prod.snd, t'.strip.count b = 0 := by
          intro t' ht'
          have := poolCount_mem (x := b) ht'
          rw [poolCount_append, poolCount_append] at this
          omega
        intro t'' ht''
        simp only [Pipe.after, Pipe.defer, Pipe.tasks, List.mem_append, List.mem_map] at ht''
        rcases ht'' with ht'' | ⟨e, he, rfl⟩
        · exact over_of_zero (zero t'' (by simp only [List.mem_append]; exact .inl ht''))
        · rcases mem_mapInsert he with rfl | he
          · cases hst with
            | sent _ _ g svc by' rid hw hw' hid' hc' =>
              refine .mk _ (fun _ => hw') fun k hk' => over_of_zero ?_
              have := countList_mem (x := b) hk'
              rw [hc'] at this
              omega
            | over _ _ ho => rcases ho with ho | ho <;> cases ho
          · exact over_of_zero (zero e.2 (by
              simp only [List.mem_append, List.mem_map]; exact .inr ⟨e, he, rfl⟩))
    · intro e he hid
      apply hforth
      cases hst with
      | sent tok t' g svc by' rid hw hw' hid' hc' =>
        rcases mem_mapInsert (show e ∈ mapInsert p.deferred tok t' from he) with rfl | he
        · refine .inr ⟨g, tok, svc, by', rid, ?_⟩
          rw [← strip_id, hid', strip_id] at hid
          simp [hid]
        · exact .inl (h.sent e he hid)
      | again => exact .inl (h.sent e he hid)
      | replies => exact .inl (h.sent e he hid)
      | over _ _ ho =>
        rcases ho with rfl | rfl
        · exact .inl (h.sent e he hid)
        · exact .inl (h.sent e he hid)
      | stop => simp [Outcome.stops] at hs
    · intro hf
      have hp := fun y => after_pool hl hs hlog hst hf y
      have lb' := lb
      have lx' := lx
      unfold Pipe.load at lb' lx'
      rw [hp, hall] at lb' lx'
      rw [hp, hp, hall]
      refine joined_step hst hs ?_ (h.links t (by simp [Pipe.tasks])) ?_ ?_ lb' lx'
      · have := h.joined (by rw [hall] at hf; exact hf.prefix.prefix.prefix)
        rw [pool_tasks, pool_tasks, poolCount_cons, poolCount_cons] at this
        refine joined_aside (by simp [Effect.still]) ?_
        have e : ∀ q a r d : Nat, q + (a + r) + d = a + (q + r + d) := by omega
        rw [e, e] at this
        exact this
      · intro hsn hid
        rw [sent_still (by simp [Effect.still])] at hsn
        exact (h.over hsn t (by simp [Pipe.tasks])).here (by rw [strip_id]; exact hid)
      · intro hw'
        rw [hw] at hw'; cases hw'
  stop _ _ _ _ _ _ _ _ _ _ _ _ := trivial
  tear p hl h hq hd := by
    obtain ⟨es, h1, h2, _⟩ := (tornDown (o := o) p).log
    have hst : ∀ e ∈ es, e.still = true := fun e he => still_tear (h2 e he)
    have p0 : ∀ y, poolCount y (p.tasks []) = 0 := by
      intro y
      rw [pool_tasks, hq, hd]
      simp [poolCount_nil]
    refine ⟨(lasting_extra (o := o) (link_lasting hb)).tear p hl h.links hq hd, fun hs => ?_, ?_,
      (load_extra (o := o) b hb 1).tear p hl h.loadB hq hd, (load_extra (o := o) x hx 1).tear p hl h.loadX hq hd, ?_⟩
    · rw [h1, sent_still hst] at hs
      exact (tasks_extra (o := o) (over_closed b)).tear p hl (h.over hs) hq hd
    · intro e he hid
      obtain ⟨n, g, hn⟩ := torn_deferred (o := o) p hd e he
      rw [hn] at hid
      exact absurd hid (hb n)
    · intro hf
      rw [h1] at hf ⊢
      have := h.joined hf.prefix
      rw [p0, p0] at this
      rw [pool_tear hb p hq hd, pool_tear hx p hq hd]
      exact joined_aside hst this
  bury _ _ _ := trivial
  late p token s z hl h hg := by
    have hst : ∀ e ∈ [Effect.responded token s z], e.still = true := by simp [Effect.still]
    refine ⟨h.links, fun hs => h.over ((sent_still hst).1 hs), fun e he hid => (sent_still hst).2 (h.sent e he hid),
      (load_extra (o := o) b hb 1).late p token s z hl h.loadB hg,
      (load_extra (o := o) x hx 1).late p token s z hl h.loadX hg, fun hf => joined_aside hst (h.joined hf.prefix)⟩
  answer p token s z t out c es hl h hg ha hs hlog hdo := by
    have hst := stepped hdo
    have hw : t.strip.waits = true := hl.deferW _ (mapGet_mem hg)
    have hall := replied_log hw hs hlog
    have lb := (load_extra (o := o) b hb 1).answer p token s z t out c es hl h.loadB hg ha hs hlog hdo
    have lx := (load_extra (o := o) x hx 1).answer p token s z t out c es hl h.loadX hg ha hs hlog hdo
    have htask : t ∈ p.tasks [] := by
      simp only [Pipe.tasks, List.mem_append, List.mem_map]
      exact .inr ⟨(token, t), mapGet_mem hg, rfl⟩
    have hns : ¬SentIn es b := by
      intro hsn
      obtain ⟨_, tok, t', rfl⟩ := stepped_sent hst hs hsn
      cases hst with
      | sent _ _ _ _ _ _ hw' => rw [hw] at hw'; cases hw'
      | over _ _ ho => rcases ho with ho | ho <;> cases ho
    have hsent : SentIn (Pipe.replied { p.answering token s z with ctx := c } t.id out).ctx.log b ↔ SentIn p.ctx.log b := by
      rw [hall, sent_append, sent_append, sent_still (by simp [Effect.still])]
      exact ⟨fun h => (h.resolve_right sent_closing).resolve_right hns, fun h => .inl (.inl h)⟩
    refine ⟨(lasting_extra (o := o) (link_lasting hb)).answer p token s z t out c es hl h.links hg ha hs hlog hdo, ?_, ?_, lb, lx, ?_⟩
    · intro hsn
      exact (tasks_extra (o := o) (over_closed b)).answer p token s z t out c es hl (h.over (hsent.1 hsn)) hg ha hs hlog hdo
    · intro e he hid
      rw [hsent]
      have hd : e ∈ p.deferred.filter (fun e => e.1 ≠ token) → SentIn p.ctx.log b := fun he =>
        h.sent e (List.mem_filter.1 he).1 hid
      cases hst with
      | sent _ _ _ _ _ _ hw' => rw [hw] at hw'; cases hw'
      | again _ hw' => rw [hw] at hw'; cases hw'
      | replies => exact hd he
      | over _ _ ho =>
        rcases ho with rfl | rfl
        · exact hd he
        · exact hd he
      | stop => simp [Outcome.stops] at hs
    · intro hf
      have hf0 : Fresh p.ctx.log := by rw [hall] at hf; exact hf.prefix.prefix.prefix
      obtain ⟨rb, h1, h2⟩ := replied_pool (s := s) (z := z) (c := c) hl hg hs hst hf0 b
      obtain ⟨rx, h3, h4⟩ := replied_pool (s := s) (z := z) (c := c) hl hg hs hst hf0 x
      have lb' := lb
      have lx' := lx
      unfold Pipe.load at lb' lx'
      rw [h2, hall] at lb'
      rw [h4, hall] at lx'
      rw [h2, h4, hall]
      refine joined_step hst hs ?_ (h.links t htask) ?_ ?_ lb' lx'
      · have := h.joined hf0
        rw [h1, h3] at this
        exact joined_aside (by simp [Effect.still]) this
      · intro _ _; exact hw
      · intro _ hid
        rw [sent_still (by simp [Effect.still])]
        exact h.sent _ (mapGet_mem hg) hid
  answerStop _ _ _ _ _ _ _ _ _ _ _ _ _ _ := trivial
  frame p c' hl h hf := by
    obtain ⟨es, h1, h2⟩ := hf.log
    have hst : ∀ e ∈ es, e.still = true := fun e he => still_filter (h2 e he)
    refine ⟨h.links, fun hs => h.over ?_, fun e he hid => ?_, (load_extra (o := o) b hb 1).frame p c' hl h.loadB hf,
      (load_extra (o := o) x hx 1).frame p c' hl h.loadX hf, fun hfr => ?_⟩
    · replace hs : SentIn c'.log b := hs
      rw [h1, sent_still hst] at hs
      exact hs
    · show SentIn c'.log b
      rw [h1, sent_still hst]
      exact h.sent e he hid
    · replace hfr : Fresh c'.log := hfr
      show Joined b x c'.log _ _
      rw [h1] at hfr ⊢
      exact joined_aside hst (h.joined hfr.prefix)
  frameD _ _ _ _ _ := trivial
  lateD _ _ _ _ _ _ _ := trivial
  answerD _ _ _ _ _ _ _ _ _ := trivial

/-- A top-level action: it is a task as long as it is not recorded as completed or failed. -/
structure Rooted (x : Text) (p : Pipe H) (todo : List PTask) : Prop where
  roots : Tasks (Rootless x) p todo
  load : p.load x todo ≤ 1
  there : Fresh p.ctx.log → 1 ≤ p.ctx.log.countP (settles x) + poolCount x (p.tasks todo)

theorem rooted_step {x : Text} {t : PTask} {out : Outcome} {es : List Effect} (hst : Stepped t out es)
    (hs : out.stops = false) (hr : Core.All (Rootless x) t.strip) :
    t.strip.count x ≤ (es ++ closing t out).countP (settles x) + poolCount x out.tasks := by
  have hc := rootless_count hr
  have hid : t.strip.id = t.id := strip_id t
  have heq := Core.count_eq x t.strip
  rw [hid] at heq hc
  cases hst with
  | again t' hw ha =>
    rw [Outcome.tasks, poolCount_cons, poolCount_nil, ha.count]; omega
  | sent tok t' g svc by' rid hw hw' hid' hc' =>
    rw [Outcome.tasks, poolCount_cons, poolCount_nil, Core.count_eq x t'.strip, hid', hc', hid]; omega
  | replies ts hw ha =>
    rw [Outcome.tasks, poolCount, ha]
    simp only [closing, hw, List.nil_append, if_true, List.countP_singleton, settles, decide_eq_true_eq]
    omega
  | over _ _ ho hl _ _ =>
    by_cases h0 : t.strip.count x = 0
    · omega
    · have hx := hc h0
      have h1 : countList x t.strip.children = 0 := by
        refine countList_zero fun k hk => ?_
        refine Decidable.byContradiction fun h2 => ?_
        exact hr.here k hk (rootless_count (hr.sub k hk) h2)
      rw [if_pos hx] at heq
      rw [List.countP_append]
      rcases ho with rfl | rfl <;> simp [closing, settles, hx] <;> omega
  | stop => simp [Outcome.stops] at hs

theorem rooted_extra {x : Text} (hx : ∀ n, Pipe.teardownId n ≠ x) :
    Extra o (Rooted (H := H) x) (fun _ => True) (fun _ => True) where
  opens p hl h := by
    refine ⟨(lasting_extra (o := o) rootless_lasting).opens p hl h.roots, (load_extra (o := o) x hx 1).opens p hl h.load,
      fun hf => ?_⟩
    have := h.there hf
    rw [pool_tasks] at this ⊢
    simp only [poolCount_nil] at this ⊢
    omega
  skip p t ts hl h hd := by
    refine ⟨(lasting_extra (o := o) rootless_lasting).skip p t ts hl h.roots hd,
      (load_extra (o := o) x hx 1).skip p t ts hl h.load hd, fun hf => ?_⟩
    have := h.there hf
    rw [pool_tasks] at this ⊢
    simp only [poolCount_append, poolCount_cons, poolCount_nil] at this ⊢
    omega
  go p t ts out c es hl h hd ha hs hlog hdo := by
    have hst := stepped hdo
    have hall := after_log hl hs hlog
    refine ⟨(lasting_extra (o := o) rootless_lasting).go p t ts out c es hl h.roots hd ha hs hlog hdo,
      (load_extra (o := o) x hx 1).go p t ts out c es hl h.load hd ha hs hlog hdo, fun hf => ?_⟩
    rw [after_pool hl hs hlog hst hf]
    rw [hall] at hf ⊢
    have h1 := h.there hf.prefix.prefix.prefix
    have h2 := rooted_step hst hs (h.roots t (by simp [Pipe.tasks]))
    rw [pool_tasks, poolCount_cons] at h1
    rw [List.append_assoc, List.countP_append, List.countP_append]
    omega
  stop _ _ _ _ _ _ _ _ _ _ _ _ := trivial
  tear p hl h hq hd := by
    obtain ⟨es, h1, h2, _⟩ := (tornDown (o := o) p).log
    refine ⟨(lasting_extra (o := o) rootless_lasting).tear p hl h.roots hq hd,
      (load_extra (o := o) x hx 1).tear p hl h.load hq hd, fun hf => ?_⟩
    rw [h1] at hf ⊢
    have h3 := h.there hf.prefix
    rw [pool_tasks, hq, hd] at h3
    simp only [List.map_nil, poolCount_nil] at h3
    rw [List.countP_append]
    omega
  bury _ _ _ := trivial
  late p token s z hl h hg := by
    refine ⟨h.roots, (load_extra (o := o) x hx 1).late p token s z hl h.load hg, fun hf => ?_⟩
    have := h.there (Fresh.prefix (b := [Effect.responded token s z]) hf)
    show 1 ≤ (p.ctx.log ++ [Effect.responded token s z]).countP _ + _
    rw [List.countP_append]
    exact Nat.le_trans this (by show _ ≤ _ + _ + poolCount x (p.tasks []); omega)
  answer p token s z t out c es hl h hg ha hs hlog hdo := by
    have hst := stepped hdo
    have hw : t.strip.waits = true := hl.deferW _ (mapGet_mem hg)
    have hall := replied_log hw hs hlog
    have htask : t ∈ p.tasks [] := by
      simp only [Pipe.tasks, List.mem_append, List.mem_map]
      exact .inr ⟨(token, t), mapGet_mem hg, rfl⟩
    refine ⟨(lasting_extra (o := o) rootless_lasting).answer p token s z t out c es hl h.roots hg ha hs hlog hdo,
      (load_extra (o := o) x hx 1).answer p token s z t out c es hl h.load hg ha hs hlog hdo, fun hf => ?_⟩
    have hf0 : Fresh p.ctx.log := by rw [hall] at hf; exact hf.prefix.prefix.prefix
    obtain ⟨r, h1, h2⟩ := replied_pool (s := s) (z := z) (c := c) hl hg hs hst hf0 x
    have h3 := h.there hf0
    have h4 := rooted_step hst hs (h.roots t htask)
    rw [h1] at h3
    rw [h2, hall, List.append_assoc, List.countP_append, List.countP_append]
    omega
  answerStop _ _ _ _ _ _ _ _ _ _ _ _ _ _ := trivial
  frame p c' hl h hf := by
    obtain ⟨es, h1, h2⟩ := hf.log
    refine ⟨h.roots, (load_extra (o := o) x hx 1).frame p c' hl h.load hf, fun hfr => ?_⟩
    replace hfr : Fresh c'.log := hfr
    show 1 ≤ c'.log.countP _ + _
    rw [h1] at hfr ⊢
    have h3 := h.there hfr.prefix
    rw [List.countP_append]
    exact Nat.le_trans h3 (by show _ + _ ≤ _ + _ + poolCount x (p.tasks []); omega)
  frameD _ _ _ _ _ := trivial
  lateD _ _ _ _ _ _ _ := trivial
  answerD _ _ _ _ _ _ _ _ _ := trivial

end Verif
