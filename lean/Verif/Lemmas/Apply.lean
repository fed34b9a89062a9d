import Verif.Model.Task
/-!
What applying a task does to the context and the history.
-/
set_option linter.unusedSimpArgs false
namespace Verif

variable {H : Type} (o : Oracle H)

/-- The task inside the decorators. -/
def PTask.strip : PTask → Core
  | .core c => c
  | .failureMode t _ => t.strip
  | .tracing t => t.strip

/-- Effects of tasks other than sending calls. -/
def Effect.isLocal : Effect → Bool
  | .reply .. => true
  | .headersSet .. => true
  | .attrSet .. => true
  | .stored .. => true
  | .denied => true
  | .errors => true
  | .callFailed _ => true
  | _ => false

/-- `c'` follows from `c` by appending `es` to the history without touching the pause counter, the
response slot, the bindings, the tracking header and a request id that is already known. -/
structure Ext (c c' : Ctx H) (es : List Effect) : Prop where
  log : c'.log = c.log ++ es
  barrier : c'.barrier = c.barrier
  grpc : c'.grpc = c.grpc
  bindings : c'.bindings = c.bindings
  tracker : c'.trackerId = c.trackerId
  rid : ∀ r, c.requestId = some r → c'.requestId = some r
  reqSize : c'.req.size = c.req.size
  reqEos : c'.req.eos = c.req.eos
  respSize : c'.resp.size = c.resp.size
  respEos : c'.resp.eos = c.resp.eos

namespace Ext

theorem refl (c : Ctx H) : Ext c c [] := by
  constructor <;> simp

theorem trans {a b c : Ctx H} {es fs} (h : Ext a b es) (g : Ext b c fs) : Ext a c (es ++ fs) := by
  constructor
  · rw [g.log, h.log, List.append_assoc]
  · rw [g.barrier, h.barrier]
  · rw [g.grpc, h.grpc]
  · rw [g.bindings, h.bindings]
  · rw [g.tracker, h.tracker]
  · intro r hr; exact g.rid r (h.rid r hr)
  · rw [g.reqSize, h.reqSize]
  · rw [g.reqEos, h.reqEos]
  · rw [g.respSize, h.respSize]
  · rw [g.respEos, h.respEos]

theorem trans0 {a b c : Ctx H} {es} (h : Ext a b []) (g : Ext b c es) : Ext a c es := by
  simpa using h.trans g

theorem withHost {c d : Ctx H} {es} (hc : Ext c d es) (h : H) : Ext c (d.withHost h) es := by
  have : Ext d (d.withHost h) [] := by constructor <;> simp [Ctx.withHost]
  simpa using hc.trans this

theorem push {c d : Ctx H} {es} (hc : Ext c d es) (e : Effect) : Ext c (d.push e) (es ++ [e]) := by
  have : Ext d (d.push e) [e] := by constructor <;> simp [Ctx.push]
  exact hc.trans this

end Ext

theorem evalExpr_ext (c : Ctx H) (id : Text) (e : Expr) : Ext c (evalExpr o c id e).2 [] := by
  unfold evalExpr
  split
  · exact .refl c
  · split
    · exact (Ext.refl c).withHost _
    · exact (Ext.refl c).withHost _
    · dsimp only
      split
      · split
        · exact ((Ext.refl c).withHost _).withHost _
        · exact ((Ext.refl c).withHost _).withHost _
      · exact (Ext.refl c).withHost _

theorem testPred_ext (c : Ctx H) (id : Text) (e : Expr) : Ext c (testPred o c id e).2 [] := by
  have h := evalExpr_ext o c id e
  unfold testPred
  split <;> rename_i heq <;> rw [heq] at h <;> exact h

theorem requestId_ext (c : Ctx H) : Ext c (requestId o c).2 [] := by
  unfold requestId
  split
  · exact .refl c
  · rename_i hn
    dsimp only
    split <;> (constructor <;> simp [Ctx.withHost, hn])

theorem requestId_some (c : Ctx H) : (requestId o c).2.requestId = some (requestId o c).1 := by
  unfold requestId
  split
  · assumption
  · dsimp only
    split <;> rfl

theorem tracker_ext (c : Ctx H) : Ext c (tracker o c).2 [] := by
  unfold tracker
  split
  · exact .refl c
  · exact requestId_ext o c

theorem dispatchValue_ext (c : Ctx H) (svc : Svc) (v : Val) : Ext c (dispatchValue o c svc v).2 [] := by
  unfold dispatchValue
  split
  · exact .refl c
  · have h := requestId_ext o c
    dsimp only
    split <;> exact h.withHost _

/-- `k'` is `k` put back to try again. -/
inductive Again : Core → Core → Prop
  | same (k : Core) : Again k k
  | store (id : Text) (pred value : Expr) (path : Text) (x terminal : Bool) (s s' : ParseState) :
      Again (.store id pred value path x terminal s) (.store id pred value path x terminal s')
  | tokenUsage (s s' : Option Strategy) (fields : List Text) :
      Again (.tokenUsage s fields) (.tokenUsage s' fields)

/-- The tasks that end a pipeline. -/
def IsFinal (k : Core) : Prop := k = .noopTerminal ∨ k = defaultReply.strip

/-- Outcomes of a task that neither sends a call nor processes a response. -/
inductive Plain (k : Core) : Outcome → Prop
  | done : Plain k .done
  | failed : Plain k .failed
  | requeued (t : PTask) (h : Again k t.strip) : Plain k (.requeued [t])
  | terminate (t : PTask) (h : IsFinal t.strip) : Plain k (.terminate t)

/-- Outcomes of processing a response with reply actions `onReply`. -/
inductive Answered (onReply : List Core) : Outcome → Prop
  | done : Answered onReply .done
  | failed : Answered onReply .failed
  | requeued (ts : List PTask) (h : ts.map PTask.strip = onReply) : Answered onReply (.requeued ts)
  | terminate (t : PTask) (h : IsFinal t.strip) : Answered onReply (.terminate t)

/-- Does the core wait for a response? -/
def Core.waits : Core → Bool
  | .pending .. => true
  | .noop .. => true
  | _ => false

/-- Same as `Ext` but the slot was emptied, the pause counter lowered for a guard, and bindings may
have been added. -/
structure Taken (guard : Bool) (c c' : Ctx H) (es : List Effect) : Prop where
  log : c'.log = c.log ++ es
  barrier : c'.barrier = c.barrier - (if guard then 1 else 0)
  grpc : c'.grpc = none
  tracker : c'.trackerId = c.trackerId
  rid : ∀ r, c.requestId = some r → c'.requestId = some r
  reqSize : c'.req.size = c.req.size
  reqEos : c'.req.eos = c.req.eos
  respSize : c'.resp.size = c.resp.size
  respEos : c'.resp.eos = c.resp.eos

/-- What applying a task with core `k` in context `c` may give. -/
inductive Res (k : Core) (c : Ctx H) : Outcome → Ctx H → Prop
  /-- no call, no response -/
  | plain {out c'} (es : List Effect) (hw : k.waits = false) (hx : Ext c c' es)
      (hl : ∀ e ∈ es, e.isLocal = true) (ho : Plain k out) : Res k c out c'
  /-- a call was sent -/
  | sent {c'} (id deps guard pred msg var svc onReply token bytes rid) (p : PTask)
      (hk : k = .grpc id deps guard pred msg var svc onReply)
      (hp : p.strip = .pending id guard svc var onReply)
      (hx : Ext { c with barrier := c.barrier + (if guard then 1 else 0) } c'
        [.dispatch id guard token svc bytes rid])
      (hr : c'.requestId = some rid) : Res k c (.deferred token p) c'
  /-- a response was processed -/
  | answered {out c'} (id guard svc var onReply) (es : List Effect)
      (hk : k = .pending id guard svc var onReply) (hx : Taken guard c c' es)
      (hl : ∀ e ∈ es, e.isLocal = true) (ho : Answered onReply out) : Res k c out c'
  /-- a response was dropped -/
  | dropped {c'} (id guard) (hk : k = .noop id guard) (hx : Taken guard c c' []) : Res k c .done c'

section
variable {o}

/-- A plain step without effects. -/
theorem Res.quiet {k : Core} {c c' : Ctx H} {out : Outcome} (hw : k.waits = false) (hx : Ext c c' [])
    (ho : Plain k out) : Res k c out c' := .plain [] hw hx (by simp) ho

end

theorem applyGrpc_res (c : Ctx H) (id deps guard pred msg var svc onReply) :
    Res (.grpc id deps guard pred msg var svc onReply) c
      (applyGrpc o c id deps guard pred msg var svc onReply).1
      (applyGrpc o c id deps guard pred msg var svc onReply).2 := by
  have hfail : ∀ {d : Ctx H}, Ext c d [] → Res (.grpc id deps guard pred msg var svc onReply) c
      .failed (d.push (.callFailed id)) := fun h =>
    .plain [.callFailed id] rfl (h.push _) (by simp [Effect.isLocal]) .failed
  unfold applyGrpc
  have h1 := testPred_ext o c id pred
  generalize testPred o c id pred = r at h1 ⊢
  obtain ⟨a, c1⟩ := r
  dsimp only at h1
  cases a with
  | pending =>
    dsimp only; split
    · exact hfail h1
    · exact .quiet rfl h1 (.requeued _ (.same _))
  | err => exact hfail h1
  | available b =>
    cases b with
    | false => exact .quiet rfl h1 .done
    | true =>
      dsimp only
      have h2 := evalExpr_ext o c1 id msg
      generalize evalExpr o c1 id msg = r at h2 ⊢
      obtain ⟨a, c2⟩ := r
      have h2 := h1.trans0 h2
      cases a with
      | pending =>
        dsimp only; split
        · exact hfail h2
        · exact .quiet rfl h2 (.requeued _ (.same _))
      | err => exact hfail h2
      | available v =>
        dsimp only
        have h3 := dispatchValue_ext o c2 svc v
        have hrid : ∀ b r t, (dispatchValue o c2 svc v).1 = some (b, r, t) →
            (dispatchValue o c2 svc v).2.requestId = some r := by
          intro b r t
          unfold dispatchValue
          split
          · simp
          · have := requestId_some o c2
            dsimp only
            split
            · simp
            · simp only [Option.some.injEq, Prod.mk.injEq]
              rintro ⟨_, rfl, _⟩
              simpa [Ctx.withHost] using this
        generalize dispatchValue o c2 svc v = r at h3 hrid ⊢
        obtain ⟨a, c3⟩ := r
        have h3 := h2.trans0 h3
        cases a with
        | none => exact hfail h3
        | some x =>
          obtain ⟨bytes, rid, token⟩ := x
          have hrid := hrid _ _ _ rfl
          dsimp only at hrid ⊢
          refine .sent id deps guard pred msg var svc onReply token bytes rid _ rfl rfl ?_ ?_
          · have h4 := h3.push (.dispatch id guard token svc bytes rid)
            constructor
            · cases guard <;> simpa [Ctx.raise] using h4.log
            · have := h4.barrier; cases guard <;> simp_all [Ctx.raise]
            · have := h4.grpc; cases guard <;> simpa [Ctx.raise] using this
            · have := h4.bindings; cases guard <;> simpa [Ctx.raise] using this
            · have := h4.tracker; cases guard <;> simpa [Ctx.raise] using this
            · have := h4.rid; cases guard <;> simpa [Ctx.raise] using this
            · have := h4.reqSize; cases guard <;> simpa [Ctx.raise] using this
            · have := h4.reqEos; cases guard <;> simpa [Ctx.raise] using this
            · have := h4.respSize; cases guard <;> simpa [Ctx.raise] using this
            · have := h4.respEos; cases guard <;> simpa [Ctx.raise] using this
          · cases guard <;> simpa [Ctx.raise, Ctx.push] using hrid

theorem applyPending_res (c : Ctx H) (id guard svc var onReply) :
    Res (.pending id guard svc var onReply) c (applyPending o c id guard svc var onReply).1
      (applyPending o c id guard svc var onReply).2 := by
  have hfail : ∀ {d : Ctx H}, d.log = c.log → d.barrier = c.barrier → d.grpc = none →
      d.trackerId = c.trackerId → d.requestId = c.requestId → d.req = c.req → d.resp = c.resp →
      Res (.pending id guard svc var onReply) c .failed
        (if guard then (d.push (.callFailed id)).lower else d.push (.callFailed id)) := by
    intro d h1 h2 h3 h4 h5 h6 h7
    refine .answered id guard svc var onReply [.callFailed id] rfl ?_ (by simp [Effect.isLocal]) .failed
    cases guard <;> constructor <;> simp [Ctx.push, Ctx.lower, h1, h2, h3, h4, h5, h6, h7]
  unfold applyPending
  cases hg : c.grpc with
  | none => simp only [processResponse, hg]; exact hfail rfl rfl hg rfl rfl rfl rfl
  | some x =>
    obtain ⟨status, size⟩ := x
    simp only [processResponse, hg]
    by_cases hs : status ≠ 0
    · rw [if_pos hs]; exact hfail rfl rfl rfl rfl rfl rfl rfl
    · rw [if_neg hs]
      by_cases he : onReply.isEmpty = true
      · rw [if_pos he]
        refine .answered id guard svc var onReply [] rfl ?_ (by simp) .done
        cases guard <;> constructor <;> simp [Ctx.lower]
      · rw [if_neg he]
        generalize o.response _ svc size = r
        obtain ⟨a, h⟩ := r
        cases a with
        | none => exact hfail rfl rfl rfl rfl rfl rfl rfl
        | some v =>
          refine .answered id guard svc var onReply [] rfl ?_ (by simp) (.requeued _ ?_)
          · cases guard <;> constructor <;> simp [Ctx.lower, Ctx.withHost]
          · simp [Function.comp_def, PTask.strip]

theorem finishReply_res (c : Ctx H) (fields terminal) :
    ∃ es, Ext c (finishReply o c fields terminal).2 es ∧ (∀ e ∈ es, e.isLocal = true) ∧
      ∀ k, Plain k (finishReply o c fields terminal).1 := by
  have h5 := (((tracker_ext o c).push .denied).withHost (o.sendReply ((tracker o c).2.push .denied)
    (readDeny fields).1 (withTracker (readDeny fields).2.1 (tracker o c).1) (readDeny fields).2.2).2).push
    (.reply (readDeny fields).1 (withTracker (readDeny fields).2.1 (tracker o c).1) (readDeny fields).2.2
      (o.sendReply ((tracker o c).2.push .denied) (readDeny fields).1
        (withTracker (readDeny fields).2.1 (tracker o c).1) (readDeny fields).2.2).1)
  have cong : ∀ {d d' : Ctx H} {es}, Ext c d es → d' = d → Ext c d' es := by
    rintro d d' es h rfl; exact h
  refine ⟨_, cong h5 ?_, by simp [Effect.isLocal], ?_⟩
  · unfold finishReply
    dsimp only
    split
    · cases terminal <;> rfl
    · rfl
  · intro k
    unfold finishReply
    dsimp only
    split
    · cases terminal
      · exact .done
      · exact .terminate _ (.inl rfl)
    · exact .failed

theorem applySendReply_res (c : Ctx H) (id pred denyWith terminal) :
    Res (.sendReply id pred denyWith terminal) c (applySendReply o c id pred denyWith terminal).1
      (applySendReply o c id pred denyWith terminal).2 := by
  unfold applySendReply
  have h1 := testPred_ext o c id pred
  generalize testPred o c id pred = r at h1 ⊢
  obtain ⟨a, c1⟩ := r
  dsimp only at h1
  cases a with
  | pending => exact .quiet rfl h1 (.requeued _ (.same _))
  | err => exact .quiet rfl h1 .failed
  | available b =>
    cases b with
    | false => exact .quiet rfl h1 .done
    | true =>
      dsimp only
      have h2 := evalExpr_ext o c1 id denyWith
      split
      · rename_i fields c2 heq
        rw [heq] at h2
        have h2 := h1.trans0 h2
        obtain ⟨es, hx, hl, ho⟩ := finishReply_res o c2 fields terminal
        exact .plain es rfl (Ext.trans0 h2 hx) hl (ho _)
      · rename_i a c2 _ heq
        rw [heq] at h2
        exact .quiet rfl (h1.trans0 h2) .failed

theorem applyHeaders_res (c : Ctx H) (id pred value target terminal) :
    Res (.headers id pred value target terminal) c (applyHeaders o c id pred value target terminal).1
      (applyHeaders o c id pred value target terminal).2 := by
  unfold applyHeaders
  have h1 := testPred_ext o c id pred
  generalize testPred o c id pred = r at h1 ⊢
  obtain ⟨a, c1⟩ := r
  dsimp only at h1
  cases a with
  | pending => exact .quiet rfl h1 (.requeued _ (.same _))
  | err => exact .quiet rfl h1 .failed
  | available b =>
    cases b with
    | false => exact .quiet rfl h1 .done
    | true =>
      dsimp only
      have h2 := evalExpr_ext o c1 id value
      generalize evalExpr o c1 id value = r at h2 ⊢
      obtain ⟨a, c2⟩ := r
      have h2 := h1.trans0 h2
      cases a with
      | pending => exact .quiet rfl h2 (.requeued _ (.same _))
      | err => exact .quiet rfl h2 .failed
      | available v =>
        dsimp only
        split
        · exact .quiet rfl h2 .done
        · split
          · exact .quiet rfl (h2.withHost _) (.requeued _ (.same _))
          · exact .quiet rfl (h2.withHost _) .failed
          · split
            · exact .quiet rfl ((h2.withHost _).withHost _) (.requeued _ (.same _))
            · exact .quiet rfl ((h2.withHost _).withHost _) .failed
            · split
              · exact .plain [_] rfl (((h2.withHost _).withHost _).push (.headersSet target _))
                  (by simp [Effect.isLocal]) (.terminate _ (.inr rfl))
              · exact .plain [_] rfl (((h2.withHost _).withHost _).push (.headersSet target _))
                  (by simp [Effect.isLocal]) .done

theorem applyFail_res (c : Ctx H) (id pred terminal) :
    Res (.fail id pred terminal) c (applyFail o c id pred terminal).1
      (applyFail o c id pred terminal).2 := by
  unfold applyFail
  have h1 := testPred_ext o c id pred
  generalize testPred o c id pred = r at h1 ⊢
  obtain ⟨a, c1⟩ := r
  dsimp only at h1
  cases a with
  | pending =>
    dsimp only; split
    · exact .quiet rfl h1 .failed
    · exact .quiet rfl h1 (.requeued _ (.same _))
  | err => exact .quiet rfl h1 .failed
  | available b =>
    cases b with
    | false => exact .quiet rfl h1 .done
    | true =>
      dsimp only; split
      · exact .plain _ rfl (h1.push .errors) (by simp [Effect.isLocal]) (.terminate _ (.inr rfl))
      · exact .quiet rfl h1 .done

/-- The context inside the result of reading a body. -/
def ReadResult.ctx : ReadResult H → Ctx H
  | .requeue _ c => c
  | .fail c => c
  | .ready _ c => c

theorem populate_size (b : Body) (l : List (Text × Val)) : (populate b l).size = b.size := by
  unfold populate
  induction l generalizing b with
  | nil => rfl
  | cons e l ih => rw [List.foldl_cons, ih]; rfl

theorem populate_eos (b : Body) (l : List (Text × Val)) : (populate b l).eos = b.eos := by
  unfold populate
  induction l generalizing b with
  | nil => rfl
  | cons e l ih => rw [List.foldl_cons, ih]; rfl

theorem setBody_ext (c : Ctx H) (source : Source) (l : List (Text × Val)) :
    Ext c (c.setBody source (populate (c.body source) l)) [] := by
  cases source <;> constructor <;> simp [Ctx.setBody, Ctx.body, populate_size, populate_eos]

theorem storeFinish_ext (c : Ctx H) (source parser) : Ext c (storeFinish o c source parser).ctx [] := by
  unfold storeFinish
  dsimp only
  split
  · split
    · exact .refl c
    · split
      · exact setBody_ext c source _
      · exact .refl c
  · exact setBody_ext c source _

theorem storeRead_ext (c : Ctx H) (source parser) : Ext c (storeRead o c source parser).ctx [] := by
  unfold storeRead
  dsimp only
  split
  · exact .refl c
  · split
    · split
      · exact (Ext.refl c).withHost _
      · exact (Ext.refl c).withHost _
      · exact (Ext.refl c).withHost _
      · split
        · exact (Ext.refl c).withHost _
        · exact ((Ext.refl c).withHost _).trans0 (storeFinish_ext o _ _ _)
    · exact storeFinish_ext o c source parser

theorem createParser_ext (c : Ctx H) (source fields) : Ext c (createParser o c source fields).2 [] := by
  unfold createParser
  dsimp only
  cases source with
  | request => exact .refl c
  | response =>
    dsimp only
    split <;> exact (Ext.refl c).withHost _

theorem storeBody_ext (c : Ctx H) (s : ParseState) : Ext c (storeBody o c s).ctx [] := by
  unfold storeBody
  split
  · exact .refl c
  · exact storeRead_ext o c _ _
  · rename_i source fields
    have h := createParser_ext o c source fields
    split <;> rename_i heq <;> rw [heq] at h
    · exact h.trans0 (storeRead_ext o _ _ _)
    · exact h
    · exact h

theorem applyStore_res (c : Ctx H) (id pred value path x terminal state) :
    Res (.store id pred value path x terminal state) c
      (applyStore o c id pred value path x terminal state).1
      (applyStore o c id pred value path x terminal state).2 := by
  unfold applyStore
  have h0 := storeBody_ext o c state
  dsimp only
  split
  · rename_i heq; rw [heq] at h0
    exact .quiet rfl h0 (.requeued _ (.store ..))
  · rename_i heq; rw [heq] at h0
    exact .quiet rfl h0 .failed
  · rename_i s c0 heq; rw [heq] at h0
    have h1 := testPred_ext o c0 id pred
    generalize testPred o c0 id pred = r at h1 ⊢
    obtain ⟨a, c1⟩ := r
    have h0 : Ext c c0 [] := h0
    replace h1 : Ext c c1 [] := h0.trans0 h1
    cases a with
    | pending => exact .quiet rfl h1 (.requeued _ (.store ..))
    | err => exact .quiet rfl h1 .failed
    | available b =>
      cases b with
      | false => exact .quiet rfl h1 .done
      | true =>
        dsimp only
        have h2 := evalExpr_ext o c1 id value
        generalize evalExpr o c1 id value = r at h2 ⊢
        obtain ⟨a, c2⟩ := r
        replace h2 : Ext c c2 [] := h1.trans0 h2
        cases a with
        | pending => exact .quiet rfl h2 (.requeued _ (.store ..))
        | err => exact .quiet rfl h2 .failed
        | available v =>
          dsimp only
          have hfin : ∀ (d : Ctx H) (es : List Effect), Ext c d es →
              (∀ e ∈ es, e.isLocal = true) →
              Res (.store id pred value path x terminal state) c
                (storeValue d path v terminal).1 (storeValue d path v terminal).2 := by
            intro d es hd hes
            have hd' : Ext c { d with values := mapInsert d.values path v } es := by
              have : Ext d { d with values := mapInsert d.values path v } [] := by
                constructor <;> simp
              simpa using hd.trans this
            have h6 := hd'.push (.stored path v)
            have hes' : ∀ e ∈ es ++ [Effect.stored path v], e.isLocal = true := by
              intro e he
              rw [List.mem_append] at he
              rcases he with he | he
              · exact hes e he
              · simp only [List.mem_singleton] at he; subst he; rfl
            unfold storeValue
            cases terminal
            · exact .plain _ rfl h6 hes' .done
            · exact .plain _ rfl h6 hes' (.terminate _ (.inr rfl))
          split
          · split
            · exact .quiet rfl h2 .failed
            · split
              · exact .quiet rfl (h2.withHost _) .failed
              · exact hfin _ _ ((h2.withHost _).push _) (by simp [Effect.isLocal])
              · exact hfin _ _ ((h2.withHost _).push _) (by simp [Effect.isLocal])
          · exact hfin _ _ h2 (by simp)

theorem chooseStrategy_ext (c : Ctx H) (s : Option Strategy) : Ext c (chooseStrategy o c s).2 [] := by
  unfold chooseStrategy
  split
  · exact .refl c
  · split <;> exact (Ext.refl c).withHost _

theorem foldl_body_size {α : Type} (l : List α) (f : Body → α → Body) (h : ∀ b a, (f b a).size = b.size)
    (b : Body) : (l.foldl f b).size = b.size := by
  induction l generalizing b with
  | nil => rfl
  | cons a l ih => rw [List.foldl_cons, ih, h]

theorem foldl_body_eos {α : Type} (l : List α) (f : Body → α → Body) (h : ∀ b a, (f b a).eos = b.eos)
    (b : Body) : (l.foldl f b).eos = b.eos := by
  induction l generalizing b with
  | nil => rfl
  | cons a l ih => rw [List.foldl_cons, ih, h]

theorem applyTokenUsage_res (c : Ctx H) (strategy fields) :
    Res (.tokenUsage strategy fields) c (applyTokenUsage o c strategy fields).1
      (applyTokenUsage o c strategy fields).2 := by
  unfold applyTokenUsage
  dsimp only
  have h1 := chooseStrategy_ext o c strategy
  generalize chooseStrategy o c strategy = r at h1 ⊢
  obtain ⟨a, c1⟩ := r
  dsimp only at h1
  have hfin : ∀ (s : Strategy) (d : Ctx H), Ext c d [] →
      Res (.tokenUsage strategy fields) c (tokenFinish o d s fields).1 (tokenFinish o d s fields).2 := by
    intro s d hd
    unfold tokenFinish
    split
    · refine .quiet rfl ?_ .done
      refine hd.trans0 ?_
      constructor <;> try simp
      · apply foldl_body_size
        intro b f; split <;> rfl
      · apply foldl_body_eos
        intro b f; split <;> rfl
    · exact .quiet rfl hd (.requeued _ (.tokenUsage ..))
  cases a with
  | pending => exact .quiet rfl h1 (.requeued _ (.tokenUsage ..))
  | err => exact .quiet rfl h1 .failed
  | available s =>
    dsimp only
    split
    · split
      · exact hfin _ _ (h1.withHost _)
      · exact hfin _ _ (h1.withHost _)
      · exact .quiet rfl (h1.withHost _) (.requeued _ (.tokenUsage ..))
      · exact .quiet rfl (h1.withHost _) .failed
    · exact hfin _ _ h1

theorem core_res (c : Ctx H) (k : Core) : Res k c (k.apply o c).1 (k.apply o c).2 := by
  cases k with
  | grpc => exact applyGrpc_res o c ..
  | sendReply => exact applySendReply_res o c ..
  | headers => exact applyHeaders_res o c ..
  | store => exact applyStore_res o c ..
  | fail => exact applyFail_res o c ..
  | tokenUsage => exact applyTokenUsage_res o c ..
  | pending => exact applyPending_res o c ..
  | noop id guard =>
    refine .dropped id guard rfl ?_
    cases guard <;> constructor <;> simp [Core.apply, applyNoop, Ctx.lower]
  | noopTerminal => exact .quiet rfl (.refl c) .done

theorem isFinal_default : IsFinal defaultReply.strip := .inr rfl

/-- A failure that is turned into something else by failure mode. -/
theorem Res.failure {k : Core} {c c' : Ctx H} (abort : Bool) (h : Res k c .failed c') :
    Res k c (if abort then (Outcome.terminate defaultReply, c'.push .errors) else (.done, c'.push .errors)).1
      (if abort then (Outcome.terminate defaultReply, c'.push .errors) else (.done, c'.push .errors)).2 := by
  have hl' : ∀ es : List Effect, (∀ e ∈ es, e.isLocal = true) →
      ∀ e ∈ es ++ [Effect.errors], e.isLocal = true := by
    intro es h e he
    rw [List.mem_append] at he
    rcases he with he | he
    · exact h e he
    · simp only [List.mem_singleton] at he; subst he; rfl
  cases h with
  | plain es hw hx hl ho =>
    cases abort
    · exact .plain _ hw (hx.push .errors) (hl' es hl) .done
    · exact .plain _ hw (hx.push .errors) (hl' es hl) (.terminate _ isFinal_default)
  | answered id guard svc var onReply es hk hx hl ho =>
    have hx' : Taken guard c (c'.push .errors) (es ++ [.errors]) := by
      constructor
      · simp [Ctx.push, hx.log]
      · exact hx.barrier
      · exact hx.grpc
      · exact hx.tracker
      · exact hx.rid
      · exact hx.reqSize
      · exact hx.reqEos
      · exact hx.respSize
      · exact hx.respEos
    cases abort
    · exact .answered id guard svc var onReply _ hk hx' (hl' es hl) .done
    · exact .answered id guard svc var onReply _ hk hx' (hl' es hl) (.terminate _ isFinal_default)

/-- What applying any task may give. -/
theorem apply_res (c : Ctx H) (t : PTask) : Res t.strip c (t.apply o c).1 (t.apply o c).2 := by
  induction t with
  | core k => exact core_res o c k
  | failureMode t abort ih =>
    unfold PTask.apply
    generalize t.apply o c = r at ih ⊢
    obtain ⟨out, c'⟩ := r
    cases out with
    | failed => exact ih.failure abort
    | deferred token p =>
      cases ih with
      | plain _ _ _ _ ho => cases ho
      | answered _ _ _ _ _ _ _ _ _ ho => cases ho
      | sent id deps guard pred msg var svc onReply _ bytes rid _ hk hp hx hr =>
        exact .sent id deps guard pred msg var svc onReply token bytes rid _ hk hp hx hr
    | done => exact ih
    | requeued => exact ih
    | terminate => exact ih
  | tracing t ih =>
    unfold PTask.apply
    generalize t.apply o c = r at ih ⊢
    obtain ⟨out, c'⟩ := r
    cases out with
    | deferred token p =>
      cases ih with
      | plain _ _ _ _ ho => cases ho
      | answered _ _ _ _ _ _ _ _ _ ho => cases ho
      | sent id deps guard pred msg var svc onReply _ bytes rid _ hk hp hx hr =>
        exact .sent id deps guard pred msg var svc onReply token bytes rid _ hk hp hx hr
    | requeued ts =>
      cases ih with
      | plain es hw hx hl ho =>
        cases ho with
        | requeued t h => exact .plain es hw hx hl (.requeued (.tracing t) h)
      | answered id guard svc var onReply es hk hx hl ho =>
        cases ho with
        | requeued ts h =>
          refine .answered id guard svc var onReply es hk hx hl (.requeued _ ?_)
          rw [← h, List.map_map]
          rfl
    | terminate t' =>
      cases ih with
      | plain es hw hx hl ho =>
        cases ho with
        | terminate _ h => exact .plain es hw hx hl (.terminate (.tracing t') h)
      | answered id guard svc var onReply es hk hx hl ho =>
        cases ho with
        | terminate _ h => exact .answered id guard svc var onReply es hk hx hl (.terminate (.tracing t') h)
    | done => exact ih
    | failed => exact ih

/-- Applying a final task: only local effects. -/
theorem final_res (c : Ctx H) (t : PTask) (h : IsFinal t.strip) :
    ∃ es, Ext c (t.apply o c).2 es ∧ ∀ e ∈ es, e.isLocal = true := by
  have := apply_res o c t
  generalize t.apply o c = r at this ⊢
  obtain ⟨out, c'⟩ := r
  cases this with
  | plain es hw hx hl ho => exact ⟨es, hx, hl⟩
  | sent _ _ _ _ _ _ _ _ _ _ _ _ hk => rcases h with h | h <;> rw [h] at hk <;> cases hk
  | answered _ _ _ _ _ _ hk => rcases h with h | h <;> rw [h] at hk <;> cases hk
  | dropped _ _ hk => rcases h with h | h <;> rw [h] at hk <;> cases hk

theorem strip_id (t : PTask) : t.strip.id = t.id := by
  induction t with
  | core k => rfl
  | failureMode t a ih => exact ih
  | tracing t ih => exact ih

theorem strip_deps (t : PTask) : t.strip.deps = t.deps := by
  induction t with
  | core k => rfl
  | failureMode t a ih => exact ih
  | tracing t ih => exact ih

end Verif
