import Verif.Lemmas.Context
import Verif.Lemmas.Places
import Verif.Lemmas.Fail
import Verif.Lemmas.Scope
/-! Every action exists at most once: among the tasks, or in the history as completed or failed. -/
set_option linter.unusedSimpArgs false
namespace Verif
open Spec

variable {H : Type} {o : Oracle H}

mutual

/-- Number of tasks with this id, reply actions included. -/
def Core.count (x : Text) : Core → Nat
  | .grpc id _ _ _ _ _ _ r => (if id = x then 1 else 0) + countList x r
  | .pending id _ _ _ r => (if id = x then 1 else 0) + countList x r
  | .sendReply id .. => if id = x then 1 else 0
  | .headers id .. => if id = x then 1 else 0
  | .store id .. => if id = x then 1 else 0
  | .fail id .. => if id = x then 1 else 0
  | .tokenUsage s f => if (Core.tokenUsage s f).id = x then 1 else 0
  | .noop id _ => if id = x then 1 else 0
  | .noopTerminal => if Core.noopTerminal.id = x then 1 else 0

def countList (x : Text) : List Core → Nat
  | [] => 0
  | k :: ks => k.count x + countList x ks

end

theorem Core.count_eq (x : Text) (k : Core) :
    k.count x = (if k.id = x then 1 else 0) + countList x k.children := by
  cases k <;> rw [Core.count.eq_def] <;> rfl

theorem countList_nil (x : Text) : countList x [] = 0 := rfl

theorem countList_cons (x : Text) (k : Core) (ks : List Core) : countList x (k :: ks) = k.count x + countList x ks := rfl

attribute [local irreducible] Core.count countList

theorem countList_append (x : Text) (a b : List Core) : countList x (a ++ b) = countList x a + countList x b := by
  induction a with
  | nil => simp [countList_nil]
  | cons k a ih => simp [countList_cons, ih]; omega

theorem countList_mem {x : Text} {k : Core} {l : List Core} (h : k ∈ l) : k.count x ≤ countList x l := by
  induction l with
  | nil => simp at h
  | cons y l ih =>
    rcases List.mem_cons.1 h with rfl | h
    · simp [countList_cons]
    · have := ih h; simp only [countList_cons]; omega

theorem count_zero_all {x : Text} {k : Core} (h : k.count x = 0) : Core.All (fun y => y.id ≠ x) k := by
  have hc := Core.count_eq x k
  refine .mk k ?_ fun c hc' => ?_
  · intro hid
    rw [if_pos hid] at hc
    omega
  · have := countList_mem (x := x) hc'
    exact count_zero_all (k := c) (by omega)
termination_by k
decreasing_by
  cases k <;> simp only [Core.children, List.not_mem_nil] at hc'
  all_goals
    have := List.sizeOf_lt_of_mem hc'
    simp
    omega

theorem count_congr {k k' : Core} (h1 : k.id = k'.id) (h2 : k.children = k'.children) (x : Text) :
    k.count x = k'.count x := by
  rw [Core.count_eq, Core.count_eq x k', h1, h2]

theorem Again.count {k k' : Core} (h : Again k k') (x : Text) : k'.count x = k.count x := by
  cases h with
  | same => rfl
  | store => apply count_congr <;> rfl
  | tokenUsage => apply count_congr <;> rfl

/-- Number of tasks with this id in a list. -/
def poolCount (x : Text) (ts : List PTask) : Nat := countList x (ts.map PTask.strip)

theorem poolCount_append (x : Text) (a b : List PTask) : poolCount x (a ++ b) = poolCount x a + poolCount x b := by
  simp [poolCount, countList_append]

theorem poolCount_cons (x : Text) (t : PTask) (b : List PTask) :
    poolCount x (t :: b) = t.strip.count x + poolCount x b := countList_cons ..

theorem poolCount_nil (x : Text) : poolCount x [] = 0 := countList_nil x

theorem poolCount_mem {x : Text} {t : PTask} {l : List PTask} (h : t ∈ l) : t.strip.count x ≤ poolCount x l :=
  countList_mem (List.mem_map_of_mem h)

theorem Res.count {k : Core} {c c' : Ctx H} {out : Outcome} (h : Res k c out c') (x : Text) :
    poolCount x out.tasks + (if k.waits = true ∧ k.id = x then 1 else 0) ≤ k.count x := by
  cases h with
  | plain es hw hx hl ho =>
    rw [hw]
    cases ho with
    | requeued t ha =>
      simp only [Outcome.tasks, poolCount_cons, poolCount_nil]
      rw [ha.count]
      simp
    | _ => simp [Outcome.tasks, poolCount_nil]
  | sent id deps guard pred msg var svc onReply token bytes rid p hk hp hx hr =>
    subst hk
    have h1 : (Core.pending id guard svc var onReply).count x =
        (Core.grpc id deps guard pred msg var svc onReply).count x := by
      apply count_congr <;> rfl
    have h2 : ¬((Core.grpc id deps guard pred msg var svc onReply).waits = true ∧
        (Core.grpc id deps guard pred msg var svc onReply).id = x) := fun h => Bool.noConfusion h.1
    rw [if_neg h2]
    simp only [Outcome.tasks, poolCount_cons, poolCount_nil, hp, h1]
    omega
  | answered id guard svc var onReply es hk hx hl ho =>
    subst hk
    rw [Core.count_eq]
    simp only [Core.waits, true_and, Core.children]
    cases ho with
    | requeued ts ha =>
      simp only [Outcome.tasks, poolCount]
      rw [ha]; omega
    | _ => simp [Outcome.tasks, poolCount_nil]
  | dropped id guard hk hx =>
    subst hk
    rw [Core.count_eq]
    show _ + (if true = true ∧ id = x then 1 else 0) ≤ (if id = x then 1 else 0) + _
    simp only [Outcome.tasks, poolCount_nil, true_and]
    omega

/-- The action was recorded as completed or failed. -/
def settles (x : Text) : Effect → Bool
  | .completed id => id = x
  | .failed id => id = x
  | _ => false

/-- How often the action exists: among the tasks and in the history. -/
def Pipe.load (x : Text) (p : Pipe H) (todo : List PTask) : Nat :=
  p.ctx.log.countP (settles x) + poolCount x (p.tasks todo)

theorem pool_tasks (x : Text) (p : Pipe H) (todo : List PTask) :
    poolCount x (p.tasks todo) = poolCount x p.queue + poolCount x todo + poolCount x (p.deferred.map Prod.snd) := by
  simp [Pipe.tasks, poolCount_append]; omega

theorem pool_filter (x : Text) (m : List (Nat × PTask)) (f : Nat × PTask → Bool) :
    poolCount x ((m.filter f).map Prod.snd) ≤ poolCount x (m.map Prod.snd) := by
  induction m with
  | nil => simp
  | cons e m ih =>
    rw [List.filter_cons]
    split
    · simp only [List.map_cons, poolCount_cons]; omega
    · simp only [List.map_cons, poolCount_cons]; omega

theorem pool_insert (x : Text) (m : List (Nat × PTask)) (tok : Nat) (t : PTask) :
    poolCount x ((mapInsert m tok t).map Prod.snd) ≤ t.strip.count x + poolCount x (m.map Prod.snd) := by
  unfold mapInsert
  simp only [List.map_cons, poolCount_cons]
  have := pool_filter x m (fun e => decide (e.1 ≠ tok))
  omega

theorem pool_remove (x : Text) (m : List (Nat × PTask)) (tok : Nat) (t : PTask) (h : (tok, t) ∈ m) :
    poolCount x ((m.filter (fun e => e.1 ≠ tok)).map Prod.snd) + t.strip.count x ≤ poolCount x (m.map Prod.snd) := by
  induction m with
  | nil => simp at h
  | cons e m ih =>
    rw [List.filter_cons]
    rcases List.mem_cons.1 h with rfl | h
    · have := pool_filter x m (fun e => decide (e.1 ≠ tok))
      simp only [List.map_cons, poolCount_cons]
      simp at this ⊢
      omega
    · have := ih h
      split
      · simp only [List.map_cons, poolCount_cons]; omega
      · simp only [List.map_cons, poolCount_cons]; omega

theorem settles_local {es : List Effect} (h : ∀ e ∈ es, e.isLocal = true) (x : Text) : es.countP (settles x) = 0 := by
  rw [List.countP_eq_zero]
  intro e he
  have := h e he
  cases e <;> simp_all [Effect.isLocal, settles]

theorem does_settles {t : PTask} {out : Outcome} {es : List Effect} (h : TDoes t out es) (x : Text) :
    es.countP (settles x) = 0 := by
  rcases does_effects h with h | ⟨_, _, _, _, _, _, rfl, _⟩
  · exact settles_local h x
  · rfl

theorem count_id {x : Text} (t : PTask) : (if t.id = x then 1 else 0) ≤ t.strip.count x := by
  rw [Core.count_eq, strip_id]; omega

theorem pool_noops (x : Text) (m : List (Nat × PTask)) :
    poolCount x ((m.map fun (e : Nat × PTask) => (e.1, PTask.core (.noop e.2.id e.2.isGuard))).map Prod.snd) ≤
      poolCount x (m.map Prod.snd) := by
  induction m with
  | nil => simp
  | cons e m ih =>
    simp only [List.map_cons, poolCount_cons]
    have := count_id (x := x) e.2
    have h2 : (Core.noop e.2.id e.2.isGuard).count x = if e.2.id = x then 1 else 0 := by
      rw [Core.count_eq]
      show (if e.2.id = x then 1 else 0) + countList x [] = _
      rw [countList_nil]; rfl
    simp only [PTask.strip, h2]
    omega

theorem load_terminate {x : Text} (p : Pipe H) (t t' : PTask) (es : List Effect)
    (hd : TDoes t (.terminate t') es) :
    (Pipe.terminate o p t').load x [] ≤ p.ctx.log.countP (settles x) + poolCount x (p.deferred.map Prod.snd) := by
  have hlog : (Pipe.terminate o p t').ctx.log.countP (settles x) = p.ctx.log.countP (settles x) := by
    rw [terminate_log]
    rcases does_terminate hd t' rfl with ⟨h1, _⟩ | ⟨h1, _⟩
    · rw [traced_log h1]; simp [Core.apply, settles]
    · rw [traced_log h1]
      have := (core_does o p.ctx defaultCore)
      obtain ⟨es, h2, h3⟩ := this
      rw [h2]
      have := does_settles (.core h3) x
      simp [List.countP_append, this, settles]
  show _ + _ ≤ _
  rw [hlog]
  have : (Pipe.terminate o p t').tasks [] = p.deferred.map Prod.snd := by
    simp [Pipe.terminate, Pipe.push, Pipe.tasks]
  rw [this]
  omega

theorem tear_settles {es : List Effect} (h : ∀ e ∈ es, e.isTear = true) (x : Text) : es.countP (settles x) = 0 := by
  rw [List.countP_eq_zero]
  intro e he
  have := h e he
  cases e <;> simp_all [Effect.isTear, settles]

theorem filter_settles {es : List Effect} (h : ∀ e ∈ es, e.isFilter = true) (x : Text) : es.countP (settles x) = 0 := by
  rw [List.countP_eq_zero]
  intro e he
  have := h e he
  cases e <;> simp_all [Effect.isFilter, settles]

theorem load_teardown {x : Text} (hx : ∀ n, Pipe.teardownId n ≠ x) (p : Pipe H) :
    (p.executeTeardown o).load x [] ≤ p.load x [] := by
  obtain ⟨es, h1, h2, _⟩ := (tornDown (o := o) p).log
  have h3 := (tornDown (o := o) p).queue
  have hd : poolCount x ((p.executeTeardown o).deferred.map Prod.snd) ≤ poolCount x (p.deferred.map Prod.snd) := by
    refine executeTeardown_ind o (fun q => poolCount x (q.deferred.map Prod.snd) ≤ poolCount x (p.deferred.map Prod.snd))
      p (pool_noops x p.deferred) ?_
    intro q u hq
    unfold Pipe.runTeardownAction
    dsimp only
    split
    · exact hq
    · refine Nat.le_trans (pool_insert x _ _ _) ?_
      have : (PTask.core (.noop (Pipe.teardownId ‹_›) false)).strip.count x = 0 := by
        show (Core.noop _ _).count x = 0
        rw [Core.count_eq]
        show (if Pipe.teardownId _ = x then 1 else 0) + countList x [] = _
        rw [countList_nil, if_neg (hx _)]
      rw [this, Nat.zero_add]
      exact hq
  unfold Pipe.load
  rw [h1, List.countP_append, tear_settles h2, pool_tasks, pool_tasks, h3]
  omega

/-- The load never grows. -/
theorem load_extra (x : Text) (hx : ∀ n, Pipe.teardownId n ≠ x) (n : Nat) :
    Extra o (fun (p : Pipe H) todo => p.load x todo ≤ n) (fun p => p.load x [] ≤ n) (fun p => p.load x [] ≤ n) where
  opens p _ h := by
    unfold Pipe.load at h ⊢
    rw [pool_tasks] at h ⊢
    simp only [poolCount_nil] at h ⊢
    omega
  skip p t ts _ h _ := by
    unfold Pipe.load at h ⊢
    rw [pool_tasks] at h ⊢
    simp only [poolCount_append, poolCount_cons, poolCount_nil] at h ⊢
    omega
  go p t ts out c es hl h _ ha hs hlog hdo := by
    have h1 := apply_res o (p.ctx.push (.applied t.id)) t
    rw [ha] at h1
    have h2 := h1.count x
    have h3 := does_settles hdo x
    have h4 := count_id (x := x) t
    have hc : c.log.countP (settles x) = p.ctx.log.countP (settles x) := by
      rw [hlog]; simp [List.countP_append, h3, settles]
    unfold Pipe.load at h ⊢
    rw [pool_tasks] at h ⊢
    simp only [poolCount_cons] at h
    dsimp only at h2
    cases out with
    | done =>
      show (c.log ++ [Effect.completed t.id]).countP (settles x) + (poolCount x p.queue + poolCount x ts + poolCount x (p.deferred.map Prod.snd)) ≤ n
      rw [List.countP_append, hc]
      simp only [List.countP_singleton, settles, decide_eq_true_eq]
      omega
    | failed =>
      show (c.log ++ [Effect.failed t.id]).countP (settles x) + (poolCount x p.queue + poolCount x ts + poolCount x (p.deferred.map Prod.snd)) ≤ n
      rw [List.countP_append, hc]
      simp only [List.countP_singleton, settles, decide_eq_true_eq]
      omega
    | requeued new =>
      show c.log.countP (settles x) + (poolCount x (p.queue ++ new) + poolCount x ts + poolCount x (p.deferred.map Prod.snd)) ≤ n
      rw [poolCount_append, hc]
      simp only [Outcome.tasks] at h2
      omega
    | deferred tok t' =>
      show c.log.countP (settles x) + (poolCount x p.queue + poolCount x ts + poolCount x ((mapInsert p.deferred tok t').map Prod.snd)) ≤ n
      have := pool_insert x p.deferred tok t'
      simp only [Outcome.tasks, poolCount_cons, poolCount_nil] at h2
      rw [hc]
      omega
    | terminate t' => simp [Outcome.stops] at hs
  stop p t ts t' c es hl h _ ha hlog hdo := by
    refine Nat.le_trans (load_terminate _ t t' es hdo) ?_
    have h3 := does_settles hdo x
    have hc : c.log.countP (settles x) = p.ctx.log.countP (settles x) := by
      rw [hlog]; simp [List.countP_append, h3, settles]
    unfold Pipe.load at h
    rw [pool_tasks] at h
    show c.log.countP (settles x) + poolCount x (p.deferred.map Prod.snd) ≤ n
    rw [hc]; omega
  tear p _ h _ _ := Nat.le_trans (load_teardown hx p) h
  bury p _ h := Nat.le_trans (load_teardown hx p) h
  late p token s z _ h _ := by
    unfold Pipe.load at h ⊢
    show (p.ctx.log ++ [Effect.responded token s z]).countP (settles x) + _ ≤ n
    rw [List.countP_append]
    exact h
  answer p token s z t out c es hl h hg ha hs hlog hdo := by
    have h1 := apply_res o (p.answering token s z).ctx t
    rw [ha] at h1
    have h2 := h1.count x
    have h3 := does_settles hdo x
    have hw : t.strip.waits = true := hl.deferW _ (mapGet_mem hg)
    have hr := pool_remove x p.deferred token t (mapGet_mem hg)
    have hc : c.log.countP (settles x) = p.ctx.log.countP (settles x) := by
      rw [hlog]; simp [List.countP_append, h3, settles]
    unfold Pipe.load at h ⊢
    rw [pool_tasks] at h ⊢
    simp only [poolCount_nil] at h
    rw [hw, strip_id] at h2
    simp only [true_and] at h2
    cases out with
    | done =>
      show (c.log ++ [Effect.completed t.id]).countP (settles x) + (poolCount x p.queue + poolCount x [] + poolCount x ((p.deferred.filter (fun e => e.1 ≠ token)).map Prod.snd)) ≤ n
      rw [List.countP_append, hc]
      simp only [List.countP_singleton, settles, decide_eq_true_eq, poolCount_nil]
      omega
    | failed =>
      show (c.log ++ [Effect.failed t.id]).countP (settles x) + (poolCount x p.queue + poolCount x [] + poolCount x ((p.deferred.filter (fun e => e.1 ≠ token)).map Prod.snd)) ≤ n
      rw [List.countP_append, hc]
      simp only [List.countP_singleton, settles, decide_eq_true_eq, poolCount_nil]
      omega
    | requeued new =>
      show (c.log ++ [Effect.completed t.id]).countP (settles x) + (poolCount x (new ++ p.queue) + poolCount x [] + poolCount x ((p.deferred.filter (fun e => e.1 ≠ token)).map Prod.snd)) ≤ n
      rw [List.countP_append, poolCount_append, hc]
      simp only [List.countP_singleton, settles, decide_eq_true_eq, poolCount_nil]
      simp only [Outcome.tasks] at h2
      omega
    | deferred tok t' =>
      show c.log.countP (settles x) + (poolCount x p.queue + poolCount x [] + poolCount x ((mapInsert (p.deferred.filter (fun e => e.1 ≠ token)) tok t').map Prod.snd)) ≤ n
      have := pool_insert x (p.deferred.filter (fun e => e.1 ≠ token)) tok t'
      simp only [Outcome.tasks, poolCount_cons, poolCount_nil] at h2 ⊢
      rw [hc]
      omega
    | terminate t' => simp [Outcome.stops] at hs
  answerStop p token s z t t' c es hl h hg ha hlog hdo := by
    refine Nat.le_trans (load_terminate _ t t' es hdo) ?_
    have h3 := does_settles hdo x
    have hr := pool_remove x p.deferred token t (mapGet_mem hg)
    have hc : c.log.countP (settles x) = p.ctx.log.countP (settles x) := by
      rw [hlog]; simp [List.countP_append, h3, settles]
    unfold Pipe.load at h
    rw [pool_tasks] at h
    show c.log.countP (settles x) + poolCount x ((p.deferred.filter (fun e => e.1 ≠ token)).map Prod.snd) ≤ n
    rw [hc]; omega
  frame p c' _ h hf := by
    obtain ⟨es, h1, h2⟩ := hf.log
    show c'.log.countP (settles x) + _ ≤ n
    rw [h1, List.countP_append, filter_settles h2]
    exact h
  frameD p c' _ h hf := by
    obtain ⟨es, h1, h2⟩ := hf.log
    show c'.log.countP (settles x) + _ ≤ n
    rw [h1, List.countP_append, filter_settles h2]
    exact h
  lateD p token s z _ h _ := by
    show (p.ctx.log ++ [Effect.responded token s z]).countP (settles x) + _ ≤ n
    rw [List.countP_append]
    exact h
  answerD p token s z id guard hd h hg := by
    have hr := pool_remove x p.deferred token _ (mapGet_mem hg)
    have h4 := count_id (x := x) (PTask.core (.noop id guard))
    unfold Pipe.load at h ⊢
    rw [pool_tasks] at h ⊢
    rw [dropped_log, List.countP_append]
    show _ + (poolCount x p.queue + poolCount x [] + poolCount x ((p.deferred.filter (fun e => e.1 ≠ token)).map Prod.snd)) ≤ n
    simp only [List.countP_append, List.countP_cons, List.countP_nil, settles, decide_eq_true_eq]
    have h5 : (PTask.core (.noop id guard)).id = id := rfl
    rw [h5] at h4
    simp at hr ⊢
    omega

/-- The identifier or one below it. -/
def Under (id x : Text) : Prop := x = id ∨ Below id x

theorem under_head {n : Nat} {x : Text} (h : Under (natText n) x) : x.takeWhile (· ≠ '.') = natText n := by
  have hd : ∀ c ∈ natText n, (decide (c ≠ '.')) = true := by
    intro c hc
    have : c ≠ '.' := fun e => dot_natText n (e ▸ hc)
    simpa using this
  rcases h with rfl | ⟨rest, rfl⟩
  · have := List.takeWhile_append_of_pos (p := fun c => decide (c ≠ '.')) (l₁ := natText n) (l₂ := []) hd
    simpa using this
  · rw [List.takeWhile_append_of_pos hd]
    simp

theorem under_top {i j : Nat} {x : Text} (h : Under (natText i) x) (g : Under (natText j) x) : i = j :=
  natText_inj ((under_head h).symm.trans (under_head g))

theorem under_drop {id x : Text} {i : Nat} (h : Under (id ++ '.' :: natText i) x) :
    ∃ y, x = id ++ '.' :: y ∧ Under (natText i) y := by
  rcases h with rfl | ⟨rest, rfl⟩
  · exact ⟨_, rfl, .inl rfl⟩
  · exact ⟨natText i ++ '.' :: rest, by simp, .inr ⟨rest, rfl⟩⟩

theorem under_reply {id x : Text} {i j : Nat} (h : Under (id ++ '.' :: natText i) x)
    (g : Under (id ++ '.' :: natText j) x) : i = j := by
  obtain ⟨y, rfl, hy⟩ := under_drop h
  obtain ⟨z, hz, hz'⟩ := under_drop g
  have := List.append_cancel_left hz
  simp only [List.cons.injEq, true_and] at this
  subst this
  exact under_top hy hz'

theorem under_below {id x : Text} {i : Nat} (h : Under (id ++ '.' :: natText i) x) : Below id x := by
  obtain ⟨y, rfl, _⟩ := under_drop h
  exact ⟨y, rfl⟩

theorem below_ne {id x : Text} (h : Below id x) : id ≠ x := by
  obtain ⟨r, rfl⟩ := h
  intro he
  have := congrArg List.length he
  simp at this

theorem countList_one {x : Text} {ks : List Core} (m : Nat) {U : Nat → Prop} (hU : ∀ i j, U i → U j → i = j)
    (h : ∀ i k, ks[i]? = some k → k.count x ≤ 1 ∧ (k.count x ≠ 0 → U (m + i))) :
    countList x ks ≤ 1 ∧ (countList x ks ≠ 0 → ∃ i, m ≤ i ∧ U i) := by
  induction ks generalizing m with
  | nil => rw [countList_nil]; simp
  | cons k ks ih =>
    rw [countList_cons]
    obtain ⟨h1, h2⟩ := h 0 k rfl
    obtain ⟨h3, h4⟩ := ih (m + 1) (fun i k hk => by
      have := h (i + 1) k (by simpa using hk)
      rwa [show m + 1 + i = m + (i + 1) by omega])
    by_cases hk : k.count x = 0
    · refine ⟨by omega, fun hn => ?_⟩
      obtain ⟨i, hi, hu⟩ := h4 (by omega)
      exact ⟨i, by omega, hu⟩
    · have hu := h2 hk
      have : countList x ks = 0 := by
        by_cases hz : countList x ks = 0
        · exact hz
        · obtain ⟨i, hi, hv⟩ := h4 hz
          have := hU _ _ hu hv
          omega
      exact ⟨by omega, fun _ => ⟨m, by omega, by simpa using hu⟩⟩

theorem compiled_count {parse : Text → Option Expr} {services : Text → Option SvcInst} {id : Text} {t : TypedAction}
    {y : Action} (h : Compiled parse services id t y) (x : Text) (deps : List Text) (k : Core)
    (hm : Made (y.withDeps deps) k) : k.count x ≤ 1 ∧ (k.count x ≠ 0 → Under id x) := by
  have flat : ∀ k : Core, k.id = id → k.children = [] → k.count x ≤ 1 ∧ (k.count x ≠ 0 → Under id x) := by
    intro k h1 h2
    rw [Core.count_eq, h1, h2, countList_nil]
    split
    · rename_i he; exact ⟨by omega, fun _ => .inl he.symm⟩
    · exact ⟨by omega, fun hn => absurd rfl hn⟩
  induction h generalizing deps k with
  | grpc id h service var message onReply pred kind svc deny msg replies hp hs hm' hl hseq hr ih =>
    cases hm with
    | call head kind svc deny var msg acts kids hid hk =>
      rw [Core.count_eq]
      show (if id = x then 1 else 0) + countList x kids ≤ 1 ∧ ((if id = x then 1 else 0) + countList x kids ≠ 0 → _)
      have hkids := countList_one (x := x) (ks := kids) 0 (U := fun i => Under (id ++ '.' :: natText i) x)
        (fun i j => under_reply) (by
          intro i k hk'
          rw [Nat.zero_add]
          obtain ⟨hi, rfl⟩ := List.getElem?_eq_some_iff.1 hk'
          have hi1 : i < replies.length := by omega
          have hi2 : i < onReply.length := by omega
          have hz : (replies[i], kids[i]) ∈ replies.zip kids :=
            List.mem_iff_getElem.2 ⟨i, by simp; omega, by simp⟩
          have hmk := hk _ hz
          have hco := hr i onReply[i] replies[i] (by simp [hi2]) (by simp [hi1])
          rw [← hco.withDeps_nil] at hmk
          refine ih i onReply[i] replies[i] (by simp [hi2]) (by simp [hi1]) [] _ hmk ?_
          intro k h1 h2
          rw [Core.count_eq, h1, h2, countList_nil]
          split
          · rename_i he; exact ⟨by omega, fun _ => .inl he.symm⟩
          · exact ⟨by omega, fun hn => absurd rfl hn⟩)
      split
      · rename_i he
        have : countList x kids = 0 := by
          by_cases hz : countList x kids = 0
          · exact hz
          · obtain ⟨i, _, hu⟩ := hkids.2 hz
            exact absurd he (below_ne (under_below hu))
        exact ⟨by omega, fun _ => .inl he.symm⟩
      · refine ⟨by omega, fun hn => ?_⟩
        obtain ⟨i, _, hu⟩ := hkids.2 (by omega)
        exact .inr (under_below hu)
  | deny => cases hm; exact flat _ rfl rfl
  | headers => cases hm; exact flat _ rfl rfl
  | store => cases hm; exact flat _ rfl rfl
  | fail => cases hm; exact flat _ rfl rfl

theorem tops_count {x : Text} {as : List Action} {ts : List PTask} (h : Tops as ts) (ht : "token_usage".toList ≠ x)
    (m : Nat) {U : Nat → Prop} (hU : ∀ i j, U i → U j → i = j)
    (hk : ∀ i a k, as[i]? = some a → Made a k → k.count x ≤ 1 ∧ (k.count x ≠ 0 → U (m + i))) :
    poolCount x ts ≤ 1 ∧ (poolCount x ts ≠ 0 → ∃ i, m ≤ i ∧ U i) := by
  induction h generalizing m with
  | nil => rw [poolCount_nil]; simp
  | cons a as ts ts' h hs ih =>
    obtain ⟨h3, h4⟩ := ih (m + 1) (fun i a k ha hm => by
      have := hk (i + 1) a k (by simpa using ha) hm
      rwa [show m + 1 + i = m + (i + 1) by omega])
    have hone : poolCount x ts ≤ 1 ∧ (poolCount x ts ≠ 0 → U m) := by
      cases h with
      | call head kind svc deny var msg acts k pre w hk' hp =>
        have hpre : poolCount x pre = 0 := by
          rcases hp with rfl | ⟨fields, rfl⟩
          · exact poolCount_nil x
          · rw [poolCount_cons, poolCount_nil]
            show (Core.tokenUsage none fields).count x + 0 = 0
            rw [Core.count_eq]
            show (if "token_usage".toList = x then 1 else 0) + countList x [] + 0 = 0
            rw [if_neg ht, countList_nil]
        rw [poolCount_append, hpre, poolCount_cons, poolCount_nil]
        have := hk 0 _ k rfl hk'
        cases w
        · simpa [PTask.strip] using this
        · simpa [PTask.strip] using this
      | other _ k hk' _ =>
        rw [poolCount_cons, poolCount_nil]
        have := hk 0 _ k rfl hk'
        simpa [PTask.strip] using this
    rw [poolCount_append]
    by_cases hz : poolCount x ts = 0
    · refine ⟨by omega, fun hn => ?_⟩
      obtain ⟨i, hi, hu⟩ := h4 (by omega)
      exact ⟨i, by omega, hu⟩
    · have hu := hone.2 hz
      have : poolCount x ts' = 0 := by
        by_cases hz' : poolCount x ts' = 0
        · exact hz'
        · obtain ⟨i, hi, hv⟩ := h4 hz'
          have := hU _ _ hu hv
          omega
      exact ⟨by omega, fun _ => ⟨m, by omega, hu⟩⟩

/-- Identifiers that are not used for other purposes. -/
def Plainly (x : Text) : Prop := 't' ∉ x ∧ 'k' ∉ x

theorem Spec.At.plainly {services : Text → Option SvcInst} {s : ActionSet} {id : Text} {t : TypedAction}
    (h : At services s id t) : Plainly id := by
  constructor
  · intro hc
    have := At.chars h hc
    simp at this
  · intro hc
    have := At.chars h hc
    simp at this

theorem Plainly.teardown {x : Text} (h : Plainly x) (n : Nat) : Pipe.teardownId n ≠ x := by
  rintro rfl
  exact h.1 (by unfold Pipe.teardownId; exact List.mem_append_left _ (by decide))

theorem fromSet_load {parse : Text → Option Expr} {cfg : PluginConfig} {s : ActionSet} {b : Blueprint} {c : Ctx H}
    {p : Pipe H} (hb : Built c b p) (hfs : FromSet parse cfg s b) {x : Text} (hx : Plainly x) :
    poolCount x (p.tasks []) ≤ 1 := by
  have ht : "token_usage".toList ≠ x := by
    rintro rfl
    exact hx.1 (by decide)
  have : p.tasks [] = p.queue := by simp [Pipe.tasks, hb.deferred]
  rw [this]
  refine (tops_count hb.tops ht 0 (U := fun i => Under (natText i) x) (fun i j => under_top) ?_).1
  intro i a k ha hm
  rw [Nat.zero_add]
  obtain ⟨xs, hxs, hc⟩ := hfs.actions
  rw [hxs] at ha
  obtain ⟨hl, hr⟩ := compileLoop_compiled parse cfg.services 0 _ xs hc
  by_cases hi : i < xs.length
  · rw [List.getElem?_append_left hi] at ha
    have hi' : i < (s.actions.zip (computeDeps s.actions)).length := by omega
    obtain ⟨t, y, hst, hco, heq⟩ := hr i (s.actions.zip (computeDeps s.actions))[i].1
      (s.actions.zip (computeDeps s.actions))[i].2 a (List.getElem?_eq_getElem hi') ha
    rw [Nat.zero_add] at hco
    rw [heq] at hm
    exact compiled_count hco x _ k hm
  · have hdev : devModeAction cfg = some a := by
      rw [List.getElem?_append_right (by omega)] at ha
      have := List.mem_of_getElem? ha
      simpa using this
    obtain ⟨head, service, var, rfl, h1, h2⟩ := devMode_shape hdev
    have hk : k.count x = 0 := by
      have hid : ¬ head.id = x := by
        rw [h1]; rintro rfl
        exact hx.2 (by decide)
      rw [Core.count_eq, hm.id]
      show (if head.id = x then 1 else 0) + _ = 0
      rw [if_neg hid]
      cases hm with
      | call _ _ _ _ _ _ _ kids hid' hk' =>
        have : kids = [] := by
          cases kids with
          | nil => rfl
          | cons => simp at hid'
        subst this
        show 0 + countList x [] = 0
        rw [countList_nil]
      | tracing =>
        show 0 + countList x [] = 0
        rw [countList_nil]
    exact ⟨by omega, fun hn => absurd hk hn⟩

end Verif
