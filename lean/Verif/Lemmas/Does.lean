import Verif.Lemmas.Apply
/-! The exact effects of applying a task. -/
set_option linter.unusedSimpArgs false
namespace Verif

variable {H : Type} (o : Oracle H)

/-- Tasks of gRPC actions: sending the call and processing the response. -/
def Core.isCall : Core → Bool
  | .grpc .. => true
  | .pending .. => true
  | _ => false

/-- Outcome and effects of a task without decorators. -/
inductive Does : Core → Outcome → List Effect → Prop
  | done (k : Core) (h : k.waits = false) : Does k .done []
  | again (k k' : Core) (h : Again k k') (hw : k.waits = false) : Does k (.requeued [.core k']) []
  | failed (k : Core) (h : k.isCall = false) (hw : k.waits = false) : Does k .failed []
  | sent (id deps guard pred msg var svc onReply token bytes rid) :
      Does (.grpc id deps guard pred msg var svc onReply)
        (.deferred token (.core (.pending id guard svc var onReply)))
        [.dispatch id guard token svc bytes rid]
  | callFailed (k : Core) (h : k.isCall = true) : Does k .failed [.callFailed k.id]
  | replied (id pred e terminal status hs body) :
      Does (.sendReply id pred e terminal)
        (if terminal then .terminate (.core .noopTerminal) else .done)
        [.denied, .reply status hs body true]
  | refused (id pred e terminal status hs body) :
      Does (.sendReply id pred e terminal) .failed [.denied, .reply status hs body false]
  | headers (id pred e target terminal hs) :
      Does (.headers id pred e target terminal) (if terminal then .terminate defaultReply else .done)
        [.headersSet target hs]
  | stored (id pred e path x terminal s v pre)
      (hp : (pre = [] ∧ x = false) ∨ ∃ b w, pre = [.attrSet path b w] ∧ x = true) :
      Does (.store id pred e path x terminal s) (if terminal then .terminate defaultReply else .done)
        (pre ++ [.stored path v])
  | fails (id pred) : Does (.fail id pred true) (.terminate defaultReply) [.errors]
  | answered (id guard svc var) : Does (.pending id guard svc var []) .done []
  | replies (id guard svc var onReply) (h : onReply ≠ []) :
      Does (.pending id guard svc var onReply) (.requeued (onReply.map .core)) []
  | dropped (id guard) : Does (.noop id guard) .done []

/-- Outcome of a traced task. -/
def Outcome.traced : Outcome → Outcome
  | .deferred token p => .deferred token (.tracing p)
  | .requeued ts => .requeued (ts.map .tracing)
  | .terminate t => .terminate (.tracing t)
  | out => out

/-- Outcome and effects of any task. -/
inductive TDoes : PTask → Outcome → List Effect → Prop
  | core {k out es} (h : Does k out es) : TDoes (.core k) out es
  | abort {t es} (h : TDoes t .failed es) :
      TDoes (.failureMode t true) (.terminate defaultReply) (es ++ [.errors])
  | allow {t es} (h : TDoes t .failed es) : TDoes (.failureMode t false) .done (es ++ [.errors])
  | sent {t token p a es} (h : TDoes t (.deferred token p) es) :
      TDoes (.failureMode t a) (.deferred token (.failureMode p a)) es
  | done {t a es} (h : TDoes t .done es) : TDoes (.failureMode t a) .done es
  | again {t ts a es} (h : TDoes t (.requeued ts) es) : TDoes (.failureMode t a) (.requeued ts) es
  | stop {t x a es} (h : TDoes t (.terminate x) es) : TDoes (.failureMode t a) (.terminate x) es
  | tracing {t out es} (h : TDoes t out es) : TDoes (.tracing t) out.traced es

/-- The result of applying a core with the effects it appended. -/
def Shows (k : Core) (c : Ctx H) (r : Outcome × Ctx H) : Prop :=
  ∃ es, r.2.log = c.log ++ es ∧ Does k r.1 es

section
variable {o}

theorem Shows.none {k : Core} {c c' : Ctx H} {out : Outcome} (hx : c'.log = c.log)
    (h : Does k out []) : Shows k c (out, c') := ⟨[], by simp [hx], h⟩

theorem Shows.one {k : Core} {c c' : Ctx H} {out : Outcome} (e : Effect) (hx : c'.log = c.log ++ [e])
    (h : Does k out [e]) : Shows k c (out, c') := ⟨[e], hx, h⟩

end

theorem evalExpr_log (c : Ctx H) (id : Text) (e : Expr) : (evalExpr o c id e).2.log = c.log := by
  simpa using (evalExpr_ext o c id e).log

theorem testPred_log (c : Ctx H) (id : Text) (e : Expr) : (testPred o c id e).2.log = c.log := by
  simpa using (testPred_ext o c id e).log

theorem dispatchValue_log (c : Ctx H) (svc : Svc) (v : Val) : (dispatchValue o c svc v).2.log = c.log := by
  simpa using (dispatchValue_ext o c svc v).log

theorem tracker_log (c : Ctx H) : (tracker o c).2.log = c.log := by
  simpa using (tracker_ext o c).log

theorem applyGrpc_does (c : Ctx H) (id deps guard pred msg var svc onReply) :
    Shows (.grpc id deps guard pred msg var svc onReply) c
      (applyGrpc o c id deps guard pred msg var svc onReply) := by
  have hfail : ∀ {d : Ctx H}, d.log = c.log → Shows (.grpc id deps guard pred msg var svc onReply) c
      (.failed, d.push (.callFailed id)) := fun h =>
    .one (.callFailed id) (by simp [Ctx.push, h]) (.callFailed (.grpc id deps guard pred msg var svc onReply) rfl)
  unfold applyGrpc
  have h1 := testPred_log o c id pred
  generalize testPred o c id pred = r at h1 ⊢
  obtain ⟨a, c1⟩ := r
  dsimp only at h1
  cases a with
  | pending =>
    dsimp only; split
    · exact hfail h1
    · exact .none h1 (.again _ _ (.same _) rfl)
  | err => exact hfail h1
  | available b =>
    cases b with
    | false => exact .none h1 (.done _ rfl)
    | true =>
      dsimp only
      have h2 := evalExpr_log o c1 id msg
      generalize evalExpr o c1 id msg = r at h2 ⊢
      obtain ⟨a, c2⟩ := r
      replace h2 : c2.log = c.log := h2.trans h1
      cases a with
      | pending =>
        dsimp only; split
        · exact hfail h2
        · exact .none h2 (.again _ _ (.same _) rfl)
      | err => exact hfail h2
      | available v =>
        dsimp only
        have h3 := dispatchValue_log o c2 svc v
        generalize dispatchValue o c2 svc v = r at h3 ⊢
        obtain ⟨a, c3⟩ := r
        replace h3 : c3.log = c.log := h3.trans h2
        cases a with
        | none => exact hfail h3
        | some x =>
          obtain ⟨bytes, rid, token⟩ := x
          exact .one (.dispatch id guard token svc bytes rid)
            (by cases guard <;> simp [Ctx.push, Ctx.raise, h3]) (.sent ..)

theorem applyPending_does (c : Ctx H) (id guard svc var onReply) :
    Shows (.pending id guard svc var onReply) c (applyPending o c id guard svc var onReply) := by
  have hfail : ∀ {d : Ctx H}, d.log = c.log → Shows (.pending id guard svc var onReply) c
      (.failed, if guard then (d.push (.callFailed id)).lower else d.push (.callFailed id)) := by
    intro d h
    exact .one (.callFailed id) (by cases guard <;> simp [Ctx.push, Ctx.lower, h])
      (.callFailed (.pending id guard svc var onReply) rfl)
  unfold applyPending
  cases hg : c.grpc with
  | none => simp only [processResponse, hg]; exact hfail rfl
  | some x =>
    obtain ⟨status, size⟩ := x
    simp only [processResponse, hg]
    by_cases hs : status ≠ 0
    · rw [if_pos hs]; exact hfail rfl
    · rw [if_neg hs]
      by_cases he : onReply.isEmpty = true
      · rw [if_pos he]
        rw [List.isEmpty_iff] at he
        subst he
        exact .none (by cases guard <;> simp [Ctx.lower]) (.answered ..)
      · rw [if_neg he]
        generalize o.response _ svc size = r
        obtain ⟨a, h⟩ := r
        cases a with
        | none => exact hfail rfl
        | some v =>
          exact .none (by cases guard <;> simp [Ctx.lower, Ctx.withHost])
            (.replies _ _ _ _ _ (by simpa using he))

theorem finishReply_does (c : Ctx H) (fields terminal) (id pred e) :
    Shows (.sendReply id pred e terminal) c (finishReply o c fields terminal) := by
  have h := tracker_log o c
  unfold finishReply
  dsimp only
  split
  · rename_i hr
    refine ⟨[.denied, .reply (readDeny fields).1 (withTracker (readDeny fields).2.1 (tracker o c).1)
      (readDeny fields).2.2 true], ?_, ?_⟩
    · rw [hr]
      cases terminal <;> simp [Ctx.push, Ctx.withHost, h]
    · have := Does.replied id pred e terminal (readDeny fields).1
        (withTracker (readDeny fields).2.1 (tracker o c).1) (readDeny fields).2.2
      cases terminal <;> exact this
  · rename_i hr
    refine ⟨[.denied, .reply (readDeny fields).1 (withTracker (readDeny fields).2.1 (tracker o c).1)
      (readDeny fields).2.2 false], ?_, .refused ..⟩
    simp only [Bool.not_eq_true] at hr
    rw [hr]
    simp [Ctx.push, Ctx.withHost, h]

theorem Shows.from {k : Core} {c d : Ctx H} {r : Outcome × Ctx H} (hd : d.log = c.log) (h : Shows k d r) :
    Shows k c r := by
  obtain ⟨es, h1, h2⟩ := h
  exact ⟨es, by rw [h1, hd], h2⟩

theorem applySendReply_does (c : Ctx H) (id pred denyWith terminal) :
    Shows (.sendReply id pred denyWith terminal) c (applySendReply o c id pred denyWith terminal) := by
  unfold applySendReply
  have h1 := testPred_log o c id pred
  generalize testPred o c id pred = r at h1 ⊢
  obtain ⟨a, c1⟩ := r
  dsimp only at h1
  cases a with
  | pending => exact .none h1 (.again _ _ (.same _) rfl)
  | err => exact .none h1 (.failed _ rfl rfl)
  | available b =>
    cases b with
    | false => exact .none h1 (.done _ rfl)
    | true =>
      dsimp only
      have h2 := evalExpr_log o c1 id denyWith
      split
      · rename_i fields c2 heq
        rw [heq] at h2
        exact (finishReply_does o c2 fields terminal id pred denyWith).from (h2.trans h1)
      · rename_i a c2 _ heq
        rw [heq] at h2
        exact .none (h2.trans h1) (.failed _ rfl rfl)

theorem applyHeaders_does (c : Ctx H) (id pred value target terminal) :
    Shows (.headers id pred value target terminal) c (applyHeaders o c id pred value target terminal) := by
  unfold applyHeaders
  have h1 := testPred_log o c id pred
  generalize testPred o c id pred = r at h1 ⊢
  obtain ⟨a, c1⟩ := r
  dsimp only at h1
  cases a with
  | pending => exact .none h1 (.again _ _ (.same _) rfl)
  | err => exact .none h1 (.failed _ rfl rfl)
  | available b =>
    cases b with
    | false => exact .none h1 (.done _ rfl)
    | true =>
      dsimp only
      have h2 := evalExpr_log o c1 id value
      generalize evalExpr o c1 id value = r at h2 ⊢
      obtain ⟨a, c2⟩ := r
      replace h2 : c2.log = c.log := h2.trans h1
      cases a with
      | pending => exact .none h2 (.again _ _ (.same _) rfl)
      | err => exact .none h2 (.failed _ rfl rfl)
      | available v =>
        dsimp only
        split
        · exact .none h2 (.done _ rfl)
        · split
          · exact .none h2 (.again _ _ (.same _) rfl)
          · exact .none h2 (.failed _ rfl rfl)
          · split
            · exact .none h2 (.again _ _ (.same _) rfl)
            · exact .none h2 (.failed _ rfl rfl)
            · rename_i hs _ _ _ _ _ _
              have := Does.headers id pred value target terminal (setAll hs (headerPairs v))
              cases terminal
              · exact .one (.headersSet target (setAll hs (headerPairs v)))
                  (by simp [Ctx.push, Ctx.withHost, h2]) this
              · exact .one (.headersSet target (setAll hs (headerPairs v)))
                  (by simp [Ctx.push, Ctx.withHost, h2]) this

theorem applyFail_does (c : Ctx H) (id pred terminal) :
    Shows (.fail id pred terminal) c (applyFail o c id pred terminal) := by
  unfold applyFail
  have h1 := testPred_log o c id pred
  generalize testPred o c id pred = r at h1 ⊢
  obtain ⟨a, c1⟩ := r
  dsimp only at h1
  cases a with
  | pending =>
    dsimp only; split
    · exact .none h1 (.failed _ rfl rfl)
    · exact .none h1 (.again _ _ (.same _) rfl)
  | err => exact .none h1 (.failed _ rfl rfl)
  | available b =>
    cases b with
    | false => exact .none h1 (.done _ rfl)
    | true =>
      dsimp only; split
      · rename_i ht
        subst ht
        exact .one _ (by simp [Ctx.push, h1]) (.fails ..)
      · exact .none h1 (.done _ rfl)

theorem applyStore_does (c : Ctx H) (id pred value path x terminal state) :
    Shows (.store id pred value path x terminal state) c
      (applyStore o c id pred value path x terminal state) := by
  unfold applyStore
  have h0 : (storeBody o c state).ctx.log = c.log := by simpa using (storeBody_ext o c state).log
  dsimp only
  split
  · rename_i heq; rw [heq] at h0
    exact .none h0 (.again _ _ (.store ..) rfl)
  · rename_i heq; rw [heq] at h0
    exact .none h0 (.failed _ rfl rfl)
  · rename_i s c0 heq; rw [heq] at h0
    have h1 := testPred_log o c0 id pred
    generalize testPred o c0 id pred = r at h1 ⊢
    obtain ⟨a, c1⟩ := r
    replace h1 : c1.log = c.log := h1.trans h0
    cases a with
    | pending => exact .none h1 (.again _ _ (.store ..) rfl)
    | err => exact .none h1 (.failed _ rfl rfl)
    | available b =>
      cases b with
      | false => exact .none h1 (.done _ rfl)
      | true =>
        dsimp only
        have h2 := evalExpr_log o c1 id value
        generalize evalExpr o c1 id value = r at h2 ⊢
        obtain ⟨a, c2⟩ := r
        replace h2 : c2.log = c.log := h2.trans h1
        cases a with
        | pending => exact .none h2 (.again _ _ (.store ..) rfl)
        | err => exact .none h2 (.failed _ rfl rfl)
        | available v =>
          dsimp only
          have hfin : ∀ (d : Ctx H) (pre : List Effect), d.log = c.log ++ pre →
              ((pre = [] ∧ x = false) ∨ ∃ b w, pre = [.attrSet path b w] ∧ x = true) →
              Shows (.store id pred value path x terminal state) c (storeValue d path v terminal) := by
            intro d pre hd hp
            refine ⟨pre ++ [.stored path v], ?_, ?_⟩
            · unfold storeValue
              cases terminal <;> simp [Ctx.push, hd]
            · have := Does.stored id pred value path x terminal state v pre hp
              unfold storeValue
              cases terminal <;> exact this
          split
          · rename_i hx
            split
            · exact .none h2 (.failed _ rfl rfl)
            · rename_i bytes _
              split
              · exact .none h2 (.failed _ rfl rfl)
              · exact hfin _ [.attrSet path bytes false] (by simp [Ctx.push, Ctx.withHost, h2]) (.inr ⟨_, _, rfl, hx⟩)
              · exact hfin _ [.attrSet path bytes true] (by simp [Ctx.push, Ctx.withHost, h2]) (.inr ⟨_, _, rfl, hx⟩)
          · rename_i hx
            exact hfin _ [] (by simp [h2]) (.inl ⟨rfl, by simpa using hx⟩)

theorem applyTokenUsage_does (c : Ctx H) (strategy fields) :
    Shows (.tokenUsage strategy fields) c (applyTokenUsage o c strategy fields) := by
  unfold applyTokenUsage
  dsimp only
  have h1 : (chooseStrategy o c strategy).2.log = c.log := by simpa using (chooseStrategy_ext o c strategy).log
  generalize chooseStrategy o c strategy = r at h1 ⊢
  obtain ⟨a, c1⟩ := r
  dsimp only at h1
  have hfin : ∀ (s : Strategy) (d : Ctx H), d.log = c.log →
      Shows (.tokenUsage strategy fields) c (tokenFinish o d s fields) := by
    intro s d hd
    unfold tokenFinish
    split
    · exact .none hd (.done _ rfl)
    · exact .none hd (.again _ _ (.tokenUsage ..) rfl)
  cases a with
  | pending => exact .none h1 (.again _ _ (.tokenUsage ..) rfl)
  | err => exact .none h1 (.failed _ rfl rfl)
  | available s =>
    dsimp only
    split
    · split
      · exact hfin _ _ h1
      · exact hfin _ _ h1
      · exact .none h1 (.again _ _ (.tokenUsage ..) rfl)
      · exact .none h1 (.failed _ rfl rfl)
    · exact hfin _ _ h1

theorem core_does (c : Ctx H) (k : Core) : Shows k c (k.apply o c) := by
  cases k with
  | grpc => exact applyGrpc_does o c ..
  | sendReply => exact applySendReply_does o c ..
  | headers => exact applyHeaders_does o c ..
  | store => exact applyStore_does o c ..
  | fail => exact applyFail_does o c ..
  | tokenUsage => exact applyTokenUsage_does o c ..
  | pending => exact applyPending_does o c ..
  | noop id guard => exact .none (by cases guard <;> simp [Ctx.lower]) (.dropped id guard)
  | noopTerminal => exact .none rfl (.done _ rfl)

theorem apply_does (c : Ctx H) (t : PTask) :
    ∃ es, (t.apply o c).2.log = c.log ++ es ∧ TDoes t (t.apply o c).1 es := by
  induction t with
  | core k =>
    obtain ⟨es, h1, h2⟩ := core_does o c k
    exact ⟨es, h1, .core h2⟩
  | failureMode t abort ih =>
    obtain ⟨es, h1, h2⟩ := ih
    unfold PTask.apply
    generalize t.apply o c = r at h1 h2 ⊢
    obtain ⟨out, c'⟩ := r
    dsimp only at h1 h2
    cases out with
    | failed =>
      cases abort with
      | true => exact ⟨es ++ [Effect.errors], by simp [Ctx.push, h1], by simpa using TDoes.abort h2⟩
      | false => exact ⟨es ++ [Effect.errors], by simp [Ctx.push, h1], by simpa using TDoes.allow h2⟩
    | deferred token p => exact ⟨es, h1, .sent h2⟩
    | done => exact ⟨es, h1, .done h2⟩
    | requeued ts => exact ⟨es, h1, .again h2⟩
    | terminate x => exact ⟨es, h1, .stop h2⟩
  | tracing t ih =>
    obtain ⟨es, h1, h2⟩ := ih
    unfold PTask.apply
    have h3 := TDoes.tracing h2
    generalize t.apply o c = r at h1 h3 ⊢
    obtain ⟨out, c'⟩ := r
    dsimp only at h1 h3
    cases out <;> exact ⟨es, h1, h3⟩

end Verif
