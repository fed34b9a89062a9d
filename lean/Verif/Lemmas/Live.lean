import Verif.Lemmas.Invariant
/-! Running and ended pipelines. -/
set_option linter.unusedSimpArgs false
namespace Verif
open Spec

variable {H : Type} (o : Oracle H)

/-- The reply actions do not wait for responses. -/
def kidsReady (k : Core) : Prop := ∀ c ∈ k.children, c.waits = false

theorem kidsReady_closed : Closed kidsReady where
  again k k' h ha := by
    cases ha with
    | same => exact h
    | store => simp [kidsReady, Core.children]
    | tokenUsage => simp [kidsReady, Core.children]
  sent _ _ _ _ _ _ _ _ h := h
  noop _ _ := by simp [kidsReady, Core.children]

/-- The entry of a call in flight as the history shows it. -/
def entry (e : Nat × PTask) : Nat × Bool := (e.1, e.2.strip.isGuard)

/-- A pipeline that was not ended early, in the middle of an evaluation with `todo` to look at. -/
structure Live (p : Pipe H) (todo : List PTask) : Prop where
  slot : p.ctx.grpc = none
  ended : Effect.ended ∉ p.ctx.log
  term : p.terminated = false
  queueW : ∀ t ∈ p.queue ++ todo, t.strip.waits = false
  deferW : ∀ e ∈ p.deferred, e.2.strip.waits = true
  kids : Tasks kidsReady p todo
  calls : Fresh p.ctx.log → p.deferred.map entry = inFlight p.ctx.log
  barrier : Fresh p.ctx.log → p.ctx.barrier = (inFlight p.ctx.log).countP (·.2)

/-- A pipeline after its early end. -/
structure Gone (p : Pipe H) : Prop where
  slot : p.ctx.grpc = none
  ended : Effect.ended ∈ p.ctx.log
  term : p.terminated = true
  queue : p.queue = []
  tokens : Fresh p.ctx.log → p.deferred.map Prod.fst = (inFlight p.ctx.log).map Prod.fst

/-- A pipeline right after its early end. -/
structure Dying (p : Pipe H) : Prop extends Gone p where
  last : ∃ l, p.ctx.log = l ++ [.ended] ∧ Effect.ended ∉ l

/-- Effects that may follow an early end. -/
def Effect.isLate : Effect → Bool
  | .teardown => true
  | .exported _ => true
  | .completed _ => true
  | .responded .. => true
  | .returned .. => true
  | .resumeRequest => true
  | .resumeResponse => true
  | .allowed => true
  | _ => false

/-- The history has an early end followed by late effects only. -/
def EndedLate (log : List Effect) : Prop :=
  ∃ l es, log = l ++ .ended :: es ∧ Effect.ended ∉ l ∧ ∀ e ∈ es, e.isLate = true

theorem EndedLate.append {log es : List Effect} (h : EndedLate log) (he : ∀ e ∈ es, e.isLate = true) :
    EndedLate (log ++ es) := by
  obtain ⟨l, fs, rfl, hl, hf⟩ := h
  refine ⟨l, fs ++ es, by simp, hl, fun e hm => ?_⟩
  rcases List.mem_append.1 hm with hm | hm
  · exact hf e hm
  · exact he e hm

/-- A pipeline that was ended early, after the teardown. -/
structure Dead (p : Pipe H) : Prop extends Gone p where
  teardown : p.teardown = []
  noops : ∀ e ∈ p.deferred, ∃ id guard, e.2 = .core (.noop id guard)
  tail : EndedLate p.ctx.log

theorem fresh_nodup (log : List Effect) (h : Fresh log) : ((inFlight log).map Prod.fst).Nodup := by
  induction log using snoc_ind with
  | nil => simp
  | snoc log e ih =>
    rw [Fresh, everywhere_snoc] at h
    have ih := ih h.1
    have h2 := h.2
    rw [inFlight_snoc]
    cases e with
    | dispatch id g t => simpa [track] using ⟨by simpa using h2 t rfl, ih⟩
    | exported t => simpa [track] using ⟨by simpa using h2 t rfl, ih⟩
    | responded t s z =>
      simp only [track]
      exact (List.filter_sublist.map Prod.fst).nodup ih
    | _ => exact ih

theorem entry_fst (l : List (Nat × PTask)) : (l.map entry).map Prod.fst = l.map Prod.fst := by
  simp [Function.comp_def, entry]

theorem mapInsert_fresh {β : Type} (m : List (Nat × β)) (k : Nat) (v : β) (h : k ∉ m.map Prod.fst) :
    mapInsert m k v = (k, v) :: m := by
  unfold mapInsert
  congr 1
  rw [List.filter_eq_self]
  intro e he
  simp only [decide_eq_true_eq]
  intro hk
  exact h (List.mem_map.2 ⟨e, he, hk⟩)

theorem ext_ended {c c' : Ctx H} {es} (hx : c'.log = c.log ++ es) (h : Effect.ended ∉ c.log)
    (hl : ∀ e ∈ es, e.isLocal = true) : Effect.ended ∉ c'.log := by
  rw [hx, List.mem_append]
  rintro (h' | h')
  · exact h h'
  · have := hl _ h'; simp [Effect.isLocal] at this

theorem live_skip (p : Pipe H) (t : PTask) (ts : List PTask) (h : Live p (t :: ts)) :
    Live { p with queue := p.queue ++ [t] } ts where
  slot := h.slot
  ended := h.ended
  term := h.term
  queueW := by simpa using h.queueW
  deferW := h.deferW
  kids := tasks_skip p t ts h.kids
  calls := h.calls
  barrier := h.barrier

/-- What `Live` says about histories, for a pipeline whose history grew by neutral effects. -/
theorem live_of_neutral {p q : Pipe H} {todo todo' : List PTask} (h : Live p todo) (es : List Effect)
    (hlog : q.ctx.log = p.ctx.log ++ es) (hn : ∀ e ∈ es, e.neutral = true) (he : Effect.ended ∉ es)
    (hg : q.ctx.grpc = none) (hb : q.ctx.barrier = p.ctx.barrier) (ht : q.terminated = false)
    (hd : q.deferred = p.deferred) (hw : ∀ t ∈ q.queue ++ todo', t.strip.waits = false)
    (hk : Tasks kidsReady q todo') : Live q todo' where
  slot := hg
  ended := by
    rw [hlog, List.mem_append]
    rintro (h' | h')
    · exact h.ended h'
    · exact he h'
  term := ht
  queueW := hw
  deferW := by rw [hd]; exact h.deferW
  kids := hk
  calls := by
    rw [hlog, fresh_neutral hn, inFlight_neutral _ hn, hd]; exact h.calls
  barrier := by
    rw [hlog, fresh_neutral hn, inFlight_neutral _ hn, hb]; exact h.barrier

theorem local_list {es : List Effect} (hl : ∀ e ∈ es, e.isLocal = true) :
    (∀ e ∈ es, e.neutral = true) ∧ Effect.ended ∉ es := by
  refine ⟨fun e he => isLocal_neutral (hl e he), fun h => ?_⟩
  have := hl _ h
  simp [Effect.isLocal] at this

theorem neutral_cons {e : Effect} {es : List Effect} (he : e.neutral = true) (hn : e ≠ .ended)
    (h : (∀ e ∈ es, e.neutral = true) ∧ Effect.ended ∉ es) :
    (∀ x ∈ e :: es, x.neutral = true) ∧ Effect.ended ∉ e :: es := by
  refine ⟨fun x hx => ?_, fun hx => ?_⟩
  · rcases List.mem_cons.1 hx with rfl | hx
    · exact he
    · exact h.1 x hx
  · rcases List.mem_cons.1 hx with hx | hx
    · exact hn hx.symm
    · exact h.2 hx

theorem neutral_append {es fs : List Effect} (h : (∀ e ∈ es, e.neutral = true) ∧ Effect.ended ∉ es)
    (g : (∀ e ∈ fs, e.neutral = true) ∧ Effect.ended ∉ fs) :
    (∀ x ∈ es ++ fs, x.neutral = true) ∧ Effect.ended ∉ es ++ fs := by
  refine ⟨fun x hx => ?_, fun hx => ?_⟩
  · rcases List.mem_append.1 hx with hx | hx
    · exact h.1 x hx
    · exact g.1 x hx
  · rcases List.mem_append.1 hx with hx | hx
    · exact h.2 hx
    · exact g.2 hx

theorem again_waits {k k' : Core} (h : Again k k') (hw : k.waits = false) : k'.waits = false := by
  cases h with
  | same => exact hw
  | store => rfl
  | tokenUsage => rfl

theorem live_go (p : Pipe H) (t : PTask) (ts : List PTask) (out : Outcome) (c : Ctx H)
    (h : Live p (t :: ts)) (ha : t.apply o (p.ctx.push (.applied t.id)) = (out, c))
    (hs : out.stops = false) : Live (Pipe.after { p with ctx := c } t.id out) ts := by
  have hr := apply_res o (p.ctx.push (.applied t.id)) t
  rw [ha] at hr
  dsimp only at hr
  have hkids : Tasks kidsReady (Pipe.after { p with ctx := c } t.id out) ts :=
    tasks_after p t ts out c h.kids
      (hr.all kidsReady_closed (h.kids t (by simp [Pipe.tasks]))) t.id
  have hw : t.strip.waits = false := h.queueW t (by simp)
  have hqt : ∀ x ∈ p.queue ++ ts, x.strip.waits = false := by
    intro x hx
    refine h.queueW x ?_
    rcases List.mem_append.1 hx with hx | hx
    · simp [hx]
    · simp [hx]
  cases hr with
  | plain es _ hx hl ho =>
    have hlog : c.log = p.ctx.log ++ (.applied t.id :: es) := by rw [hx.log]; simp [Ctx.push]
    have hn := neutral_cons (e := .applied t.id) rfl (by simp) (local_list hl)
    have hg : c.grpc = none := hx.grpc.trans h.slot
    have hb : c.barrier = p.ctx.barrier := hx.barrier
    cases ho with
    | done =>
      have hn' := neutral_append hn (neutral_cons (e := .completed t.id) (es := []) rfl (by simp) (by simp))
      exact live_of_neutral h _ (by simp [Pipe.after, Pipe.complete, Pipe.push, Ctx.push, hlog])
        hn'.1 hn'.2 hg hb h.term rfl hqt hkids
    | failed =>
      have hn' := neutral_append hn (neutral_cons (e := .failed t.id) (es := []) rfl (by simp) (by simp))
      exact live_of_neutral h _ (by simp [Pipe.after, Pipe.complete, Pipe.push, Ctx.push, hlog])
        hn'.1 hn'.2 hg hb h.term rfl hqt hkids
    | requeued t' hag =>
      refine live_of_neutral h _ hlog hn.1 hn.2 hg hb h.term rfl ?_ hkids
      intro x hx
      simp only [Pipe.after, List.mem_append, List.mem_singleton] at hx
      rcases hx with (hx | rfl) | hx
      · exact hqt x (by simp [hx])
      · exact again_waits hag hw
      · exact hqt x (by simp [hx])
    | terminate => simp [Outcome.stops] at hs
  | sent id deps guard pred msg var svc onReply token bytes rid p' hk hp hx hr =>
    have hlog : c.log = p.ctx.log ++ [.applied t.id] ++ [.dispatch id guard token svc bytes rid] := by
      rw [hx.log]; simp [Ctx.push]
    have hdef : (Pipe.after { p with ctx := c } t.id (.deferred token p')).deferred
        = mapInsert p.deferred token p' := rfl
    have hfresh : Fresh c.log → Fresh p.ctx.log ∧ token ∉ p.deferred.map Prod.fst ∧
        inFlight c.log = (token, guard) :: inFlight p.ctx.log := by
      intro hf
      rw [hlog, Fresh, everywhere_snoc] at hf
      have hf1 : Fresh p.ctx.log := Fresh.prefix hf.1
      have hin : inFlight (p.ctx.log ++ [.applied t.id]) = inFlight p.ctx.log :=
        inFlight_neutral _ (by simp [Effect.neutral])
      refine ⟨hf1, ?_, ?_⟩
      · have := hf.2 token rfl
        rw [hin, ← h.calls hf1, entry_fst] at this
        exact this
      · rw [hlog, inFlight_snoc, hin]; rfl
    exact {
      slot := hx.grpc.trans h.slot
      ended := by
        show Effect.ended ∉ c.log
        rw [hlog]; simpa using h.ended
      term := h.term
      queueW := hqt
      deferW := by
        intro e he
        rw [hdef] at he
        rcases mem_mapInsert he with rfl | he
        · rw [hp]; rfl
        · exact h.deferW e he
      kids := hkids
      calls := by
        intro hf
        obtain ⟨hf1, hnt, hin⟩ := hfresh hf
        rw [hdef, mapInsert_fresh _ _ _ hnt]
        show _ = inFlight c.log
        rw [hin, ← h.calls hf1]
        simp [entry, hp, Core.isGuard]
      barrier := by
        intro hf
        obtain ⟨hf1, _, hin⟩ := hfresh hf
        show c.barrier = (inFlight c.log).countP _
        rw [hin, hx.barrier, List.countP_cons, ← h.barrier hf1]
        rfl }
  | answered _ _ _ _ _ _ hk => rw [hk] at hw; simp [Core.waits] at hw
  | dropped _ _ hk => rw [hk] at hw; simp [Core.waits] at hw

theorem live_stop (p : Pipe H) (t : PTask) (ts : List PTask) (t' : PTask) (c : Ctx H)
    (h : Live p (t :: ts)) (ha : t.apply o (p.ctx.push (.applied t.id)) = (.terminate t', c)) :
    Dying (Pipe.terminate o { p with ctx := c } t') := by
  have hr := apply_res o (p.ctx.push (.applied t.id)) t
  rw [ha] at hr
  dsimp only at hr
  have hw : t.strip.waits = false := h.queueW t (by simp)
  cases hr with
  | plain es _ hx hl ho =>
    cases ho with
    | terminate _ hfin =>
      obtain ⟨es', hx', hl'⟩ := final_res o c t' hfin
      have hlog : (Pipe.terminate o { p with ctx := c } t').ctx.log
          = p.ctx.log ++ ([.applied t.id] ++ es ++ es' ++ [.ended]) := by
        simp [Pipe.terminate, Pipe.push, Ctx.push, hx'.log, hx.log]
      have hn : ∀ e ∈ [Effect.applied t.id] ++ es ++ es' ++ [.ended], e.neutral = true := by
        intro e he
        simp only [List.mem_append, List.mem_singleton] at he
        rcases he with ((rfl | he) | he) | rfl
        · rfl
        · exact isLocal_neutral (hl e he)
        · exact isLocal_neutral (hl' e he)
        · rfl
      exact {
        slot := by
          show (t'.apply o c).2.grpc = none
          rw [hx'.grpc, hx.grpc]; exact h.slot
        ended := by rw [hlog]; simp
        term := rfl
        queue := rfl
        tokens := by
          rw [hlog, fresh_neutral hn, inFlight_neutral _ hn]
          intro hf
          show p.deferred.map Prod.fst = _
          rw [← h.calls hf, entry_fst]
        last := by
          refine ⟨p.ctx.log ++ ([.applied t.id] ++ es ++ es'), by rw [hlog]; simp, ?_⟩
          simp only [List.mem_append, List.mem_singleton, not_or]
          exact ⟨h.ended, ⟨by simp, (local_list hl).2⟩, (local_list hl').2⟩ }
  | answered _ _ _ _ _ _ hk => rw [hk] at hw; simp [Core.waits] at hw

/-- The calls in flight, by token only. -/
def Tok (p : Pipe H) : Prop :=
  Fresh p.ctx.log → p.deferred.map Prod.fst = (inFlight p.ctx.log).map Prod.fst

theorem inFlight_neutral1 (a : List Effect) {e : Effect} (h : e.neutral = true) :
    inFlight (a ++ [e]) = inFlight a := inFlight_neutral a (by simpa using h)

theorem dead_runTeardown (p : Pipe H) (u : Text) (h : Dead p) : Dead (p.runTeardownAction o u) := by
  unfold Pipe.runTeardownAction
  dsimp only
  have hin : inFlight (p.ctx.log ++ [.teardown]) = inFlight p.ctx.log := inFlight_neutral1 _ rfl
  split
  · exact {
      slot := h.slot
      ended := by show _ ∈ p.ctx.log ++ [_]; simp [h.ended]
      term := h.term
      queue := h.queue
      tokens := by
        show Fresh (p.ctx.log ++ [_]) → p.deferred.map _ = (inFlight (p.ctx.log ++ [_])).map _
        rw [hin]
        exact fun hf => h.tokens (Fresh.prefix hf)
      teardown := h.teardown
      noops := h.noops
      tail := h.tail.append (es := [.teardown]) (by simp [Effect.isLate]) }
  · rename_i token host _
    exact {
      slot := h.slot
      ended := by show _ ∈ p.ctx.log ++ [_] ++ [_]; simp [h.ended]
      term := h.term
      queue := h.queue
      tokens := by
        show Fresh (p.ctx.log ++ [_] ++ [.exported token]) →
          (mapInsert p.deferred token _).map _ = (inFlight (p.ctx.log ++ [_] ++ [.exported token])).map _
        intro hf
        rw [inFlight_snoc, hin]
        rw [Fresh, everywhere_snoc] at hf
        have hf1 : Fresh p.ctx.log := Fresh.prefix hf.1
        have := hf.2 token rfl
        rw [hin, ← h.tokens hf1] at this
        rw [mapInsert_fresh _ _ _ this]
        simp [track, h.tokens hf1]
      teardown := h.teardown
      noops := by
        intro e he
        rcases mem_mapInsert he with rfl | he
        · exact ⟨_, _, rfl⟩
        · exact h.noops e he
      tail := (h.tail.append (es := [.teardown]) (by simp [Effect.isLate])).append
        (es := [.exported token]) (by simp [Effect.isLate]) }

theorem dying_dead (p : Pipe H) (h : Dying p) : Dead (p.executeTeardown o) := by
  refine executeTeardown_ind o Dead p ?_ (dead_runTeardown o)
  exact {
    slot := h.slot
    ended := h.ended
    term := h.term
    queue := h.queue
    tokens := by
      intro hf
      have := h.tokens hf
      simpa [Pipe.replaceNoop, Function.comp_def] using this
    teardown := rfl
    noops := by
      intro e he
      simp only [Pipe.replaceNoop, List.mem_map] at he
      obtain ⟨x, _, rfl⟩ := he
      exact ⟨_, _, rfl⟩
    tail := by
      obtain ⟨l, hl, hn⟩ := h.last
      exact ⟨l, [], hl, hn, by simp⟩ }

theorem live_runTeardown (p : Pipe H) (u : Text) (h : Live p []) : Live (p.runTeardownAction o u) [] := by
  have hk := tasks_runTeardown o kidsReady_closed p u h.kids
  unfold Pipe.runTeardownAction at hk ⊢
  dsimp only at hk ⊢
  have hin : inFlight (p.ctx.log ++ [.teardown]) = inFlight p.ctx.log := inFlight_neutral1 _ rfl
  split
  · rename_i heq
    rw [heq] at hk
    exact live_of_neutral h [.teardown] rfl (by simp [Effect.neutral]) (by simp) h.slot rfl h.term rfl
      h.queueW hk
  · rename_i token host heq
    rw [heq] at hk
    have hfresh : Fresh (p.ctx.log ++ [.teardown] ++ [.exported token]) → Fresh p.ctx.log ∧
        token ∉ p.deferred.map Prod.fst ∧ inFlight (p.ctx.log ++ [.teardown] ++ [.exported token])
          = (token, false) :: inFlight p.ctx.log := by
      intro hf
      rw [Fresh, everywhere_snoc] at hf
      have hf1 : Fresh p.ctx.log := Fresh.prefix hf.1
      have := hf.2 token rfl
      rw [hin, ← h.calls hf1, entry_fst] at this
      refine ⟨hf1, this, ?_⟩
      rw [inFlight_snoc, hin]; rfl
    exact {
      slot := h.slot
      ended := by show _ ∉ p.ctx.log ++ [_] ++ [_]; simpa using h.ended
      term := h.term
      queueW := h.queueW
      deferW := by
        intro e he
        rcases mem_mapInsert he with rfl | he
        · rfl
        · exact h.deferW e he
      kids := hk
      calls := by
        intro hf
        obtain ⟨hf1, hnt, hin'⟩ := hfresh hf
        show (mapInsert p.deferred token _).map entry = inFlight (p.ctx.log ++ [_] ++ [.exported token])
        rw [hin', mapInsert_fresh _ _ _ hnt, ← h.calls hf1]
        rfl
      barrier := by
        intro hf
        obtain ⟨hf1, hnt, hin'⟩ := hfresh hf
        show p.ctx.barrier = (inFlight (p.ctx.log ++ [_] ++ [.exported token])).countP _
        rw [hin', List.countP_cons, ← h.barrier hf1]
        simp }

theorem live_teardown (p : Pipe H) (h : Live p []) (hd : p.deferred = []) :
    Live (p.executeTeardown o) [] := by
  refine executeTeardown_ind o (fun q => Live q []) p ?_ fun q u hq => live_runTeardown o q u hq
  refine live_of_neutral h [] (by simp [Pipe.replaceNoop]) (by simp) (by simp) h.slot rfl h.term ?_ h.queueW ?_
  · simp [Pipe.replaceNoop, hd]
  · intro x hx
    refine h.kids x ?_
    simpa [Pipe.tasks, Pipe.replaceNoop, hd] using hx

theorem live_evalPipe (p : Pipe H) (h : Live p []) : Live (p.evalPipe o) [] ∨ Dead (p.evalPipe o) := by
  refine evalPipe_ind o Live Dying Dead
    (fun q t ts h _ => live_skip q t ts h)
    (fun q t ts out c h _ ha hs => live_go o q t ts out c h ha hs)
    (fun q t ts t' c h _ ha => live_stop o q t ts t' c h ha)
    (fun q h => dying_dead o q h)
    (fun q h _ hd => live_teardown o q h hd)
    p ?_
  refine live_of_neutral h [] (by simp) (by simp) (by simp) h.slot rfl h.term rfl ?_ ?_
  · simpa using h.queueW
  · intro x hx
    refine h.kids x ?_
    simpa [Pipe.tasks] using hx

/-- An ended pipeline does nothing when it is evaluated. -/
theorem dead_evalPipe (p : Pipe H) (h : Dead p) : p.evalPipe o = p := by
  have hq := h.queue
  have ht := h.teardown
  obtain ⟨ctx, queue, deferred, completed, teardown, terminated⟩ := p
  dsimp only at hq ht
  subst hq ht
  simp [Pipe.evalPipe, Pipe.processTasks]

/-- Removing an answered call. -/
theorem filter_entry (l : List (Nat × PTask)) (token : Nat) :
    (l.filter (fun e => e.1 ≠ token)).map entry = (l.map entry).filter (fun c => c.1 ≠ token) := by
  rw [List.filter_map]
  rfl

theorem filter_absent {β : Type} (l : List (Nat × β)) (token : Nat) (h : token ∉ l.map Prod.fst) :
    l.filter (fun e => e.1 ≠ token) = l := by
  rw [List.filter_eq_self]
  intro e he
  simp only [decide_eq_true_eq]
  intro hk
  exact h (List.mem_map.2 ⟨e, he, hk⟩)

/-- Removing an entry of a list with distinct tokens. -/
theorem countP_filter (l : List (Nat × Bool)) (token : Nat) (g : Bool) (hm : (token, g) ∈ l)
    (hn : (l.map Prod.fst).Nodup) :
    (l.filter (fun c => c.1 ≠ token)).countP (·.2) = l.countP (·.2) - (if g then 1 else 0) := by
  induction l with
  | nil => simp at hm
  | cons x l ih =>
    simp only [List.map_cons, List.nodup_cons] at hn
    rcases List.mem_cons.1 hm with rfl | hm
    · rw [List.filter_cons]
      simp only [ne_eq, not_true_eq_false, decide_false, Bool.false_eq_true, if_false]
      rw [filter_absent l token hn.1, List.countP_cons]
      simp
    · have hne : x.1 ≠ token := by
        intro he
        exact hn.1 (he ▸ List.mem_map.2 ⟨_, hm, rfl⟩)
      have ih := ih hm hn.2
      have hpos : (if g = true then 1 else 0) ≤ l.countP (·.2) := by
        cases g
        · simp
        · simp only [if_true]
          exact List.countP_pos_iff.2 ⟨_, hm, rfl⟩
      rw [List.filter_cons, if_pos (by simpa using hne), List.countP_cons, List.countP_cons, ih]
      omega

/-- A pipeline whose call was answered, before the response is processed. -/
def Pipe.answering (p : Pipe H) (token s z : Nat) : Pipe H :=
  { p with
    ctx := { p.ctx with grpc := some (s, z), log := p.ctx.log ++ [.responded token s z] }
    deferred := p.deferred.filter (fun e => e.1 ≠ token) }

/-- The pipeline after the response of action `id` was processed without ending it. -/
def Pipe.replied (p : Pipe H) (id : Text) : Outcome → Pipe H
  | .done => p.complete id
  | .requeued ts => { p.complete id with queue := ts ++ p.queue }
  | .deferred token t => p.defer token t
  | .failed => p.push (.failed id)
  | .terminate _ => p

theorem digestPipe_unknown (p : Pipe H) (token s z : Nat) (h : mapGet p.deferred token = none) :
    p.digestPipe o token s z = (p.push (.responded token s z)).evalPipe o := by
  unfold Pipe.digestPipe
  dsimp only
  have : mapGet (p.push (.responded token s z)).deferred token = none := h
  rw [this]

theorem digestPipe_known (p : Pipe H) (token s z : Nat) (t : PTask) (out : Outcome) (c : Ctx H)
    (hslot : p.ctx.grpc = none) (h : mapGet p.deferred token = some t)
    (ha : t.apply o (p.answering token s z).ctx = (out, c)) :
    p.digestPipe o token s z = match out with
      | .terminate t' =>
        ((Pipe.terminate o { p.answering token s z with ctx := c } t').executeTeardown o).evalPipe o
      | _ => (Pipe.replied { p.answering token s z with ctx := c } t.id out).evalPipe o := by
  unfold Pipe.digestPipe
  dsimp only
  have hg : mapGet (p.push (.responded token s z)).deferred token = some t := h
  have hset : ((p.push (.responded token s z)).removeToken token).setResponse s z =
      p.answering token s z := by
    simp [Pipe.setResponse, Pipe.removeToken, Pipe.push, Ctx.push, hslot, Pipe.answering]
  rw [hg]
  dsimp only
  rw [hset]
  have h1 : (t.apply o (p.answering token s z).ctx).1 = out := by rw [ha]
  have h2 : (t.apply o (p.answering token s z).ctx).2 = c := by rw [ha]
  rw [h2]
  cases out <;> simp only [h1] <;> rfl

theorem live_late (p : Pipe H) (token s z : Nat) (h : Live p []) (hg : mapGet p.deferred token = none) :
    Live (p.push (.responded token s z)) [] := by
  have hg := mapGet_none hg
  have hinr : inFlight (p.ctx.log ++ [.responded token s z])
      = (inFlight p.ctx.log).filter (fun c => c.1 ≠ token) := inFlight_snoc _ _
  have hsame : Fresh p.ctx.log → inFlight (p.ctx.log ++ [.responded token s z]) = inFlight p.ctx.log := by
    intro hf
    rw [hinr, filter_absent]
    rw [← h.calls hf, entry_fst]; exact hg
  exact {
    slot := h.slot
    ended := by show _ ∉ p.ctx.log ++ [_]; simpa using h.ended
    term := h.term
    queueW := h.queueW
    deferW := h.deferW
    kids := h.kids
    calls := by
      show Fresh (p.ctx.log ++ [_]) → _ = inFlight (p.ctx.log ++ [_])
      intro hf
      rw [hsame (Fresh.prefix hf)]
      exact h.calls (Fresh.prefix hf)
    barrier := by
      show Fresh (p.ctx.log ++ [_]) → _ = (inFlight (p.ctx.log ++ [_])).countP _
      intro hf
      rw [hsame (Fresh.prefix hf)]
      exact h.barrier (Fresh.prefix hf) }

theorem live_answer' (p : Pipe H) (token s z : Nat) (h : Live p []) (t : PTask)
    (hg : mapGet p.deferred token = some t) (out : Outcome) (c : Ctx H)
    (ha : t.apply o (p.answering token s z).ctx = (out, c)) :
    (out.stops = false → Live (Pipe.replied { p.answering token s z with ctx := c } t.id out) []) ∧
    (∀ t', out = .terminate t' → Dying (Pipe.terminate o { p.answering token s z with ctx := c } t')) := by
    have hinr : inFlight (p.ctx.log ++ [.responded token s z])
        = (inFlight p.ctx.log).filter (fun c => c.1 ≠ token) := inFlight_snoc _ _
    replace hg : (token, t) ∈ p.deferred := mapGet_mem hg
    have hw : t.strip.waits = true := h.deferW _ hg
    have hr := apply_res o (p.answering token s z).ctx t
    rw [ha] at hr
    have hkt : Core.All kidsReady t.strip := by
      refine h.kids t ?_
      simp only [Pipe.tasks, List.mem_append, List.mem_map]
      exact .inr ⟨_, hg, rfl⟩
    have hall := hr.all kidsReady_closed hkt
    dsimp only at hr
    -- what the answer does to the counter and the history
    have key : ∃ es, c.log = p.ctx.log ++ [.responded token s z] ++ es ∧ (∀ e ∈ es, e.isLocal = true) ∧
        c.grpc = none ∧ c.barrier = p.ctx.barrier - (if t.strip.isGuard then 1 else 0) ∧
        (∀ t' ∈ out.tasks, t'.strip.waits = false) ∧ (∀ t', out = .terminate t' → IsFinal t'.strip) ∧
        (∀ a b, out ≠ .deferred a b) := by
      cases hr with
      | plain _ hw' => rw [hw] at hw'; simp at hw'
      | sent _ _ _ _ _ _ _ _ _ _ _ _ hk => rw [hk] at hw; simp [Core.waits] at hw
      | answered id guard svc var onReply es hk hx hl ho =>
        refine ⟨es, hx.log, hl, hx.grpc, ?_, ?_, ?_, ?_⟩
        · rw [hk]; exact hx.barrier
        · intro t' ht'
          cases ho with
          | requeued ts hts =>
            refine hkt.here t'.strip ?_
            rw [hk]
            simp only [Core.children, ← hts]
            exact List.mem_map_of_mem ht'
          | _ => simp [Outcome.tasks] at ht'
        · intro t' ht'
          cases ho with
          | terminate _ hf => cases ht'; exact hf
          | _ => simp at ht'
        · intro a b hab
          subst hab
          cases ho
      | dropped id guard hk hx =>
        refine ⟨[], by simpa [Pipe.answering] using hx.log, by simp, hx.grpc, ?_, by simp [Outcome.tasks], by simp, by simp⟩
        rw [hk]; exact hx.barrier
    obtain ⟨es, hlog, hl, hgrpc, hbar, hwt, hfin, hndef⟩ := key
    have hin : ∀ fs, (∀ e ∈ fs, e.neutral = true) →
        inFlight (p.ctx.log ++ [.responded token s z] ++ es ++ fs)
          = (inFlight p.ctx.log).filter (fun c => c.1 ≠ token) := by
      intro fs hfs
      rw [List.append_assoc _ es fs, inFlight_neutral, hinr]
      intro e he
      rcases List.mem_append.1 he with he | he
      · exact isLocal_neutral (hl e he)
      · exact hfs e he
    have hpre : ∀ fs, Fresh (p.ctx.log ++ [.responded token s z] ++ es ++ fs) → Fresh p.ctx.log := by
      intro fs hf
      rw [List.append_assoc, List.append_assoc] at hf
      exact Fresh.prefix hf
    have hcount : Fresh p.ctx.log →
        ((inFlight p.ctx.log).filter (fun c => c.1 ≠ token)).countP (·.2)
          = p.ctx.barrier - (if t.strip.isGuard then 1 else 0) := by
      intro hf
      rw [countP_filter _ token t.strip.isGuard _ (fresh_nodup _ hf), h.barrier hf]
      rw [← h.calls hf]
      exact List.mem_map.2 ⟨_, hg, rfl⟩
    have hend : ∀ fs, Effect.ended ∉ fs →
        Effect.ended ∉ p.ctx.log ++ [.responded token s z] ++ es ++ fs := by
      intro fs hfs
      have := (local_list hl).2
      simp only [List.mem_append, List.mem_singleton, not_or]
      exact ⟨⟨⟨h.ended, by simp⟩, this⟩, hfs⟩
    -- the pipeline before the next evaluation
    have hlive : ∀ (q : Pipe H) (fs : List Effect),
        q.ctx.log = p.ctx.log ++ [.responded token s z] ++ es ++ fs →
        (∀ e ∈ fs, e.neutral = true) → Effect.ended ∉ fs → q.ctx.grpc = c.grpc →
        q.ctx.barrier = c.barrier → q.terminated = p.terminated →
        q.deferred = p.deferred.filter (fun e => e.1 ≠ token) →
        q.queue = out.tasks ++ p.queue → Live q [] := by
      intro q fs hql hfs hfe hqg hqb hqt hqd hqq
      exact {
        slot := hqg.trans hgrpc
        ended := by rw [hql]; exact hend fs hfe
        term := hqt.trans h.term
        queueW := by
          intro x hx
          rw [hqq] at hx
          simp only [List.mem_append, List.not_mem_nil, or_false] at hx
          rcases hx with hx | hx
          · exact hwt x hx
          · exact h.queueW x (by simp [hx])
        deferW := by
          intro e he
          rw [hqd] at he
          exact h.deferW e (List.mem_filter.1 he).1
        kids := by
          intro x hx
          simp only [Pipe.tasks, hqq, hqd, List.mem_append, List.not_mem_nil, or_false, List.mem_map] at hx
          rcases hx with (hx | hx) | ⟨e, he, rfl⟩
          · exact hall x hx
          · exact h.kids x (by simp [Pipe.tasks, hx])
          · refine h.kids e.2 ?_
            simp only [Pipe.tasks, List.mem_append, List.mem_map]
            exact .inr ⟨e, (List.mem_filter.1 he).1, rfl⟩
        calls := by
          rw [hql]
          intro hf
          rw [hin fs hfs, hqd, filter_entry, h.calls (hpre fs hf)]
        barrier := by
          rw [hql]
          intro hf
          rw [hin fs hfs, hcount (hpre fs hf), hqb, hbar] }
    refine ⟨?_, ?_⟩
    · intro hstop
      cases out with
      | done =>
        refine hlive _ [.completed t.id] ?_ (by simp [Effect.neutral]) (by simp) rfl rfl rfl rfl rfl
        simp [Pipe.replied, Pipe.complete, Pipe.push, Ctx.push, hlog]
      | failed =>
        refine hlive _ [.failed t.id] ?_ (by simp [Effect.neutral]) (by simp) rfl rfl rfl rfl rfl
        simp [Pipe.replied, Pipe.complete, Pipe.push, Ctx.push, hlog]
      | requeued ts =>
        refine hlive _ [.completed t.id] ?_ (by simp [Effect.neutral]) (by simp) rfl rfl rfl rfl rfl
        simp [Pipe.replied, Pipe.complete, Pipe.push, Ctx.push, hlog]
      | deferred a b => exact absurd rfl (hndef a b)
      | terminate t' => simp [Outcome.stops] at hstop
    · rintro t' rfl
      obtain ⟨es', hx', hl'⟩ := final_res o c t' (hfin t' rfl)
      have hn : ∀ e ∈ es' ++ [Effect.ended], e.neutral = true := by
        intro e he
        simp only [List.mem_append, List.mem_singleton] at he
        rcases he with he | rfl
        · exact isLocal_neutral (hl' e he)
        · rfl
      have hlog' : (t'.apply o c).2.log ++ [Effect.ended]
          = p.ctx.log ++ [.responded token s z] ++ es ++ (es' ++ [.ended]) := by
        rw [hx'.log, hlog]; simp
      exact {
        slot := hx'.grpc.trans hgrpc
        ended := by show _ ∈ (t'.apply o c).2.log ++ [Effect.ended]; simp
        term := rfl
        queue := rfl
        tokens := by
          show Fresh ((t'.apply o c).2.log ++ [Effect.ended]) → _ =
            (inFlight ((t'.apply o c).2.log ++ [Effect.ended])).map _
          rw [hlog']
          intro hf
          rw [hin _ hn, ← h.calls (hpre _ hf), ← filter_entry, entry_fst]
          rfl
        last := by
          refine ⟨p.ctx.log ++ [.responded token s z] ++ es ++ es', ?_, hend es' (local_list hl').2⟩
          show (t'.apply o c).2.log ++ [Effect.ended] = _
          rw [hlog']; simp }

theorem live_answer (p : Pipe H) (token s z : Nat) (h : Live p []) (t : PTask)
    (hg : mapGet p.deferred token = some t) (out : Outcome) (c : Ctx H)
    (ha : t.apply o (p.answering token s z).ctx = (out, c)) (hs : out.stops = false) :
    Live (Pipe.replied { p.answering token s z with ctx := c } t.id out) [] :=
  (live_answer' o p token s z h t hg out c ha).1 hs

theorem live_answerStop (p : Pipe H) (token s z : Nat) (h : Live p []) (t : PTask)
    (hg : mapGet p.deferred token = some t) (t' : PTask) (c : Ctx H)
    (ha : t.apply o (p.answering token s z).ctx = (.terminate t', c)) :
    Dying (Pipe.terminate o { p.answering token s z with ctx := c } t') :=
  (live_answer' o p token s z h t hg _ c ha).2 t' rfl

/-- Induction principle for a response. -/
theorem digestPipe_ind (P : Pipe H → Prop) (D : Pipe H → Prop) (p : Pipe H) (token s z : Nat)
    (hslot : p.ctx.grpc = none)
    (late : mapGet p.deferred token = none → P (p.push (.responded token s z)))
    (answer : ∀ t out c, mapGet p.deferred token = some t →
      t.apply o (p.answering token s z).ctx = (out, c) → out.stops = false →
      P (Pipe.replied { p.answering token s z with ctx := c } t.id out))
    (stop : ∀ t t' c, mapGet p.deferred token = some t →
      t.apply o (p.answering token s z).ctx = (.terminate t', c) →
      D (((Pipe.terminate o { p.answering token s z with ctx := c } t').executeTeardown o).evalPipe o))
    (eval : ∀ q, P q → D (q.evalPipe o)) : D (p.digestPipe o token s z) := by
  cases hg : mapGet p.deferred token with
  | none => rw [digestPipe_unknown o p token s z hg]; exact eval _ (late hg)
  | some t =>
    obtain ⟨⟨out, c⟩, hr⟩ : ∃ r, t.apply o (p.answering token s z).ctx = r := ⟨_, rfl⟩
    rw [digestPipe_known o p token s z t out c hslot hg hr]
    cases out with
    | terminate t' => exact stop t t' c hg hr
    | done => exact eval _ (answer t _ c hg hr rfl)
    | deferred => exact eval _ (answer t _ c hg hr rfl)
    | requeued => exact eval _ (answer t _ c hg hr rfl)
    | failed => exact eval _ (answer t _ c hg hr rfl)

theorem live_digestPipe (p : Pipe H) (token s z : Nat) (h : Live p []) :
    Live (p.digestPipe o token s z) [] ∨ Dead (p.digestPipe o token s z) := by
  refine digestPipe_ind o (fun q => Live q []) (fun q => Live q [] ∨ Dead q) p token s z h.slot
    (live_late p token s z h) (fun t out c hg ha hs => live_answer o p token s z h t hg out c ha hs)
    (fun t t' c hg ha => ?_) (live_evalPipe o)
  have hdead := dying_dead o _ (live_answerStop o p token s z h t hg t' c ha)
  rw [dead_evalPipe o _ hdead]
  exact .inr hdead

/-- A response to an ended pipeline that is not in flight. -/
theorem dead_late (p : Pipe H) (token s z : Nat) (h : Dead p) (hg : mapGet p.deferred token = none) :
    Dead (p.push (.responded token s z)) := by
  have hinr : inFlight (p.ctx.log ++ [.responded token s z])
      = (inFlight p.ctx.log).filter (fun c => c.1 ≠ token) := inFlight_snoc _ _
  have hg := mapGet_none hg
  exact {
      slot := h.slot
      ended := by show _ ∈ p.ctx.log ++ [_]; simp [h.ended]
      term := h.term
      queue := h.queue
      tokens := by
        show Fresh (p.ctx.log ++ [_]) → p.deferred.map _ = (inFlight (p.ctx.log ++ [_])).map _
        intro hf
        have hf := Fresh.prefix hf
        rw [hinr, filter_absent, h.tokens hf]
        rw [← h.tokens hf]; exact hg
      teardown := h.teardown
      noops := h.noops
      tail := h.tail.append (es := [.responded token s z]) (by simp [Effect.isLate]) }

/-- The pipeline after a response that is dropped. -/
def Pipe.dropped (p : Pipe H) (token s z : Nat) (id : Text) (guard : Bool) : Pipe H :=
  Pipe.complete { p.answering token s z with ctx := (applyNoop (p.answering token s z).ctx guard).2 } id

theorem dropped_log (p : Pipe H) (token s z : Nat) (id : Text) (guard : Bool) :
    (p.dropped token s z id guard).ctx.log = p.ctx.log ++ [.responded token s z] ++ [.completed id] := by
  cases guard <;> rfl

theorem dead_dropped (p : Pipe H) (token s z : Nat) (h : Dead p) (id : Text) (guard : Bool) :
    Dead (p.dropped token s z id guard) := by
  have hinr : inFlight (p.ctx.log ++ [.responded token s z])
      = (inFlight p.ctx.log).filter (fun c => c.1 ≠ token) := inFlight_snoc _ _
  exact {
    slot := by cases guard <;> rfl
    ended := by rw [dropped_log]; simp [h.ended]
    term := h.term
    queue := h.queue
    tokens := by
      rw [dropped_log]
      intro hf
      rw [inFlight_neutral1 _ rfl, hinr]
      rw [List.append_assoc] at hf
      have hf := Fresh.prefix hf
      show (p.deferred.filter _).map _ = _
      have h1 : (p.deferred.map Prod.fst).filter (fun k => k ≠ token)
          = ((inFlight p.ctx.log).map Prod.fst).filter (fun k => k ≠ token) := by rw [h.tokens hf]
      rw [List.filter_map, List.filter_map] at h1
      exact h1
    teardown := h.teardown
    noops := fun e he => h.noops e (List.mem_filter.1 he).1
    tail := by
      rw [dropped_log]
      exact (h.tail.append (es := [.responded token s z]) (by simp [Effect.isLate])).append
        (es := [.completed id]) (by simp [Effect.isLate]) }

/-- What a response does to an ended pipeline. -/
theorem dead_digest_cases (p : Pipe H) (token s z : Nat) (h : Dead p) :
    (mapGet p.deferred token = none ∧ p.digestPipe o token s z = p.push (.responded token s z)) ∨
    (∃ id guard, mapGet p.deferred token = some (.core (.noop id guard)) ∧
      p.digestPipe o token s z = p.dropped token s z id guard) := by
  cases hg : mapGet p.deferred token with
  | none =>
    left
    rw [digestPipe_unknown o p token s z hg, dead_evalPipe o _ (dead_late p token s z h hg)]
    exact ⟨rfl, rfl⟩
  | some t =>
    right
    obtain ⟨id, guard, ht⟩ := h.noops _ (mapGet_mem hg)
    dsimp only at ht
    subst ht
    refine ⟨id, guard, rfl, ?_⟩
    have happ : PTask.apply o (p.answering token s z).ctx (.core (.noop id guard))
        = (.done, (applyNoop (p.answering token s z).ctx guard).2) := by cases guard <;> rfl
    rw [digestPipe_known o p token s z _ _ _ h.slot hg happ]
    exact dead_evalPipe o _ (dead_dropped p token s z h id guard)

/-- An ended pipeline only records the response. -/
theorem dead_digestPipe (p : Pipe H) (token s z : Nat) (h : Dead p) :
    Dead (p.digestPipe o token s z) ∧ ∃ es, (p.digestPipe o token s z).ctx.log
      = p.ctx.log ++ .responded token s z :: es ∧ ∀ e ∈ es, ∃ id, e = .completed id := by
  rcases dead_digest_cases o p token s z h with ⟨hg, heq⟩ | ⟨id, guard, hg, heq⟩
  · rw [heq]
    exact ⟨dead_late p token s z h hg, [], rfl, by simp⟩
  · rw [heq]
    refine ⟨dead_dropped p token s z h id guard, [.completed id], ?_, by simp⟩
    rw [dropped_log]
    simp

end Verif
