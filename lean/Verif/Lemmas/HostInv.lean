import Verif.Model.Session
import Verif.Lemmas.Basic
import Verif.Lemmas.Apply
set_option linter.unusedSimpArgs false
set_option linter.unusedSectionVars false
/-!
Invariants of the host state together with the history: it is enough that every single question to the host
keeps them.
-/
namespace Verif

variable {H : Type}

/-- Effects that come without a request to the host. -/
def Effect.inner : Effect → Bool
  | .dispatch .. => false
  | .exported .. => false
  | .reply .. => false
  | .headersSet .. => false
  | .attrSet .. => false
  | _ => true

/-- Obligations of an invariant of the host and the history. -/
structure HostInv (o : Oracle H) (J : H → List Effect → Prop) : Prop where
  push : ∀ h l e, e.inner = true → J h l → J h (l ++ [e])
  attrs : ∀ c e, J c.host c.log → J (o.attrs c e).2 c.log
  resolve : ∀ c vars e, J c.host c.log → J (o.resolve c vars e).2 c.log
  dispatch : ∀ c svc b rid id guard, J c.host c.log →
    match o.dispatch c svc b rid with
    | (some token, h) => J h (c.log ++ [.dispatch id guard token svc b rid])
    | (none, h) => J h c.log
  response : ∀ c svc n, J c.host c.log → J (o.response c svc n).2 c.log
  sendReply : ∀ c s hs b, J c.host c.log →
    J (o.sendReply c s hs b).2 (c.log ++ [.reply s hs b (o.sendReply c s hs b).1])
  getHeaders : ∀ c t, J c.host c.log → J (o.getHeaders c t).2 c.log
  readBody : ∀ c s a n, J c.host c.log → J (o.readBody c s a n).2 c.log
  exportSpans : ∀ c u, J c.host c.log →
    match o.exportSpans c u with
    | (some token, h) => J h (c.log ++ [.exported token])
    | (none, h) => J h c.log
  hostname : ∀ c, J c.host c.log → J (o.hostname c).2 c.log
  ensure : ∀ c es, J c.host c.log → J (o.ensure c es) c.log
  uuid : ∀ c, J c.host c.log → J (o.uuid c).2 c.log
  writeHeaders : ∀ c t hs h pairs, J c.host c.log → o.getHeaders c t = (.available hs, h) → pairs ≠ [] →
    match o.setHeaders (c.withHost h) t (setAll hs pairs) with
    | (.available _, h') => J h' (c.log ++ [.headersSet t (setAll hs pairs)])
    | (_, h') => J h' c.log
  writeAttr : ∀ c path v bytes, J c.host c.log → o.toBytes v = some bytes →
    match o.setAttr c path bytes with
    | (.available _, h') => J h' (c.log ++ [.attrSet path bytes true])
    | (.pending, h') => J h' (c.log ++ [.attrSet path bytes false])
    | (.err, h') => J h' c.log

/-- The invariant of a context. -/
def On (J : H → List Effect → Prop) (c : Ctx H) : Prop := J c.host c.log

theorem store_log (f : Filter H) (p : Pipe H) : (f.store p.state).log = p.ctx.log := by
  unfold Pipe.state
  split <;> rfl

section
variable {o : Oracle H} {J : H → List Effect → Prop} (hi : HostInv o J)
include hi

theorem HostInv.pushed {c : Ctx H} (e : Effect) (he : e.inner = true) (h : On J c) : On J (c.push e) :=
  hi.push _ _ _ he h

theorem HostInv.evalExpr (c : Ctx H) (id : Text) (e : Expr) (h : On J c) : On J (evalExpr o c id e).2 := by
  unfold Verif.evalExpr
  split
  · exact h
  · have h1 := hi.attrs c e h
    generalize o.attrs c e = q at h1
    obtain ⟨a, x⟩ := q
    cases a with
    | pending => exact h1
    | err => exact h1
    | available u =>
      simp only
      split
      · have h2 := hi.resolve (c.withHost x) (scopeVars (c.withHost x).bindings id) e h1
        generalize o.resolve (c.withHost x) (scopeVars (c.withHost x).bindings id) e = q at h2
        obtain ⟨v, y⟩ := q
        cases v <;> exact h2
      · exact h1

theorem HostInv.testPred (c : Ctx H) (id : Text) (p : Expr) (h : On J c) : On J (testPred o c id p).2 := by
  unfold Verif.testPred
  have h1 := hi.evalExpr c id p h
  generalize Verif.evalExpr o c id p = q at h1
  obtain ⟨a, c1⟩ := q
  cases a with
  | pending => exact h1
  | err => exact h1
  | available v => cases v <;> exact h1

theorem HostInv.requestId (c : Ctx H) (h : On J c) : On J (requestId o c).2 := by
  unfold Verif.requestId
  split
  · exact h
  · have h1 := hi.getHeaders c .request h
    generalize o.getHeaders c .request = q at h1
    obtain ⟨a, x⟩ := q
    simp only
    split
    · exact h1
    · exact hi.uuid (c.withHost x) h1

theorem HostInv.tracker (c : Ctx H) (h : On J c) : On J (tracker o c).2 := by
  unfold Verif.tracker
  split
  · exact h
  · exact hi.requestId c h

theorem HostInv.dispatchValue (c : Ctx H) (svc : Svc) (v : Val) (id : Text) (guard : Bool) (h : On J c) :
    match dispatchValue o c svc v with
    | (some (bytes, rid, token), c') => On J (c'.push (.dispatch id guard token svc bytes rid))
    | (none, c') => On J c' := by
  unfold Verif.dispatchValue
  split
  · rename_i he
    split at he
    · cases he
    · rename_i b _
      have h1 := hi.requestId c h
      generalize Verif.requestId o c = q at h1 he
      obtain ⟨rid, c1⟩ := q
      simp only at he
      have h2 := hi.dispatch c1 svc b rid id guard h1
      generalize o.dispatch c1 svc b rid = q at h2 he
      obtain ⟨t, y⟩ := q
      cases t with
      | none => cases he
      | some t => cases he; exact h2
  · rename_i he
    split at he
    · cases he; exact h
    · rename_i b _
      have h1 := hi.requestId c h
      generalize Verif.requestId o c = q at h1 he
      obtain ⟨rid, c1⟩ := q
      simp only at he
      have h2 := hi.dispatch c1 svc b rid id guard h1
      generalize o.dispatch c1 svc b rid = q at h2 he
      obtain ⟨t, y⟩ := q
      cases t with
      | none => cases he; exact h2
      | some t => cases he

theorem on_raise {c : Ctx H} {g : Bool} (h : On J c) : On J (if g then c.raise else c) := by
  cases g <;> exact h

theorem on_lower {c : Ctx H} {g : Bool} (h : On J c) : On J (if g then c.lower else c) := by
  cases g <;> exact h

theorem HostInv.applyGrpc (c : Ctx H) (id : Text) (deps : List Text) (guard : Bool) (pred msg : Expr) (var : Text)
    (svc : Svc) (onReply : List Core) (h : On J c) :
    On J (applyGrpc o c id deps guard pred msg var svc onReply).2 := by
  unfold Verif.applyGrpc
  have h1 := hi.testPred c id pred h
  generalize Verif.testPred o c id pred = q at h1
  obtain ⟨a, c1⟩ := q
  cases a with
  | pending => simp only; split <;> first | exact hi.pushed _ rfl h1 | exact h1
  | err => exact hi.pushed _ rfl h1
  | available b =>
    cases b with
    | false => exact h1
    | true =>
      have h2 := hi.evalExpr c1 id msg h1
      simp only
      generalize Verif.evalExpr o c1 id msg = q at h2
      obtain ⟨a, c2⟩ := q
      cases a with
      | pending => simp only; split <;> first | exact hi.pushed _ rfl h2 | exact h2
      | err => exact hi.pushed _ rfl h2
      | available v =>
        have h3 := hi.dispatchValue c2 svc v id guard h2
        simp only
        generalize Verif.dispatchValue o c2 svc v = q at h3
        obtain ⟨a, c3⟩ := q
        cases a with
        | none => exact hi.pushed _ rfl h3
        | some x => exact on_raise hi h3

theorem HostInv.applyPending (c : Ctx H) (id : Text) (guard : Bool) (svc : Svc) (var : Text) (onReply : List Core)
    (h : On J c) : On J (applyPending o c id guard svc var onReply).2 := by
  unfold Verif.applyPending
  have h1 : On J (processResponse o c id svc var onReply).2 := by
    unfold processResponse
    split
    · exact hi.pushed _ rfl h
    · simp only
      split
      · exact hi.pushed (c := { c with grpc := none }) _ rfl h
      · split
        · exact h
        · rename_i status size _ _ _
          have h2 := hi.response { c with grpc := none } svc size h
          generalize o.response { c with grpc := none } svc size = q at h2
          obtain ⟨v, y⟩ := q
          cases v with
          | none => exact hi.pushed (c := { c with grpc := none, host := y }) _ rfl h2
          | some v => exact h2
  generalize processResponse o c id svc var onReply = q at h1
  obtain ⟨out, c1⟩ := q
  exact on_lower hi h1

theorem HostInv.finishReply (c : Ctx H) (fields : List (Text × Val)) (terminal : Bool) (h : On J c) :
    On J (finishReply o c fields terminal).2 := by
  unfold Verif.finishReply
  simp only
  have h1 := hi.pushed .denied rfl (hi.tracker c h)
  have h2 := hi.sendReply _ (readDeny fields).1 (withTracker (readDeny fields).2.1 (Verif.tracker o c).1)
    (readDeny fields).2.2 h1
  split
  · split <;> exact h2
  · exact h2

theorem HostInv.applySendReply (c : Ctx H) (id : Text) (pred denyWith : Expr) (terminal : Bool) (h : On J c) :
    On J (applySendReply o c id pred denyWith terminal).2 := by
  unfold Verif.applySendReply
  have h1 := hi.testPred c id pred h
  generalize Verif.testPred o c id pred = q at h1
  obtain ⟨a, c1⟩ := q
  cases a with
  | pending => exact h1
  | err => exact h1
  | available b =>
    cases b with
    | false => exact h1
    | true =>
      have h2 := hi.evalExpr c1 id denyWith h1
      simp only
      generalize Verif.evalExpr o c1 id denyWith = q at h2
      obtain ⟨a, c2⟩ := q
      cases a with
      | pending => exact h2
      | err => exact h2
      | available v => cases v <;> first | exact h2 | exact hi.finishReply _ _ _ h2

theorem HostInv.applyHeaders (c : Ctx H) (id : Text) (pred value : Expr) (target : Target) (terminal : Bool)
    (h : On J c) : On J (applyHeaders o c id pred value target terminal).2 := by
  unfold Verif.applyHeaders
  have h1 := hi.testPred c id pred h
  generalize Verif.testPred o c id pred = q at h1
  obtain ⟨a, c1⟩ := q
  cases a with
  | pending => exact h1
  | err => exact h1
  | available b =>
    cases b with
    | false => exact h1
    | true =>
      have h2 := hi.evalExpr c1 id value h1
      simp only
      generalize Verif.evalExpr o c1 id value = q at h2
      obtain ⟨a, c2⟩ := q
      cases a with
      | pending => exact h2
      | err => exact h2
      | available v =>
        simp only
        split
        · exact h2
        · rename_i hne
          have h3 := hi.getHeaders c2 target h2
          have h4 := fun hs x e => hi.writeHeaders c2 target hs x (headerPairs v) h2 e (by simpa using hne)
          generalize o.getHeaders c2 target = q at h3 h4
          obtain ⟨a, x⟩ := q
          cases a with
          | pending => exact h3
          | err => exact h3
          | available hs =>
            have h4 := h4 hs x rfl
            simp only
            generalize o.setHeaders (c2.withHost x) target (setAll hs (headerPairs v)) = q at h4
            obtain ⟨a, y⟩ := q
            cases a with
            | pending => exact h4
            | err => exact h4
            | available u => cases terminal <;> exact h4

theorem HostInv.applyFail (c : Ctx H) (id : Text) (pred : Expr) (terminal : Bool) (h : On J c) :
    On J (applyFail o c id pred terminal).2 := by
  unfold Verif.applyFail
  have h1 := hi.testPred c id pred h
  generalize Verif.testPred o c id pred = q at h1
  obtain ⟨a, c1⟩ := q
  cases a with
  | pending => simp only; split <;> exact h1
  | err => exact h1
  | available b =>
    cases b with
    | false => exact h1
    | true => cases terminal <;> first | exact h1 | exact hi.pushed _ rfl h1

theorem HostInv.createParser (c : Ctx H) (s : Source) (fields : List Text) (h : On J c) :
    On J (createParser o c s fields).2 := by
  unfold Verif.createParser
  cases s with
  | request => exact h
  | response =>
    have h1 := hi.getHeaders c .response h
    simp only
    generalize o.getHeaders c .response = q at h1
    obtain ⟨a, x⟩ := q
    cases a <;> exact h1

theorem HostInv.storeFinish (c : Ctx H) (s : Source) (p : BodyParser) (h : On J c) :
    On J (storeFinish o c s p).ctx := by
  have hset : ∀ b, On J (c.setBody s b) := fun b => by cases s <;> exact h
  unfold Verif.storeFinish
  simp only
  split
  · split
    · exact h
    · split
      · exact hset _
      · exact h
  · exact hset _

theorem HostInv.storeRead (c : Ctx H) (s : Source) (p : BodyParser) (h : On J c) :
    On J (storeRead o c s p).ctx := by
  unfold Verif.storeRead
  simp only
  split
  · exact h
  · split
    · have h1 := hi.readBody c s p.consumed ((c.body s).size - p.consumed) h
      generalize o.readBody c s p.consumed ((c.body s).size - p.consumed) = q at h1
      obtain ⟨a, x⟩ := q
      cases a with
      | pending => exact h1
      | err => exact h1
      | available b =>
        cases b with
        | none => exact h1
        | some bytes =>
          simp only
          split
          · exact h1
          · exact hi.storeFinish _ _ _ h1
    · exact hi.storeFinish _ _ _ h

theorem HostInv.storeBody (c : Ctx H) (st : ParseState) (h : On J c) : On J (storeBody o c st).ctx := by
  unfold Verif.storeBody
  cases st with
  | notNeeded => exact h
  | active s p => exact hi.storeRead c s p h
  | pending s fields =>
    have h1 := hi.createParser c s fields h
    simp only
    generalize Verif.createParser o c s fields = q at h1
    obtain ⟨a, c1⟩ := q
    cases a with
    | available p => exact hi.storeRead c1 s p h1
    | pending => exact h1
    | err => exact h1

theorem HostInv.storeValue (c : Ctx H) (path : Text) (v : Val) (terminal : Bool) (h : On J c) :
    On J (storeValue c path v terminal).2 := by
  have : On J ({ c with values := mapInsert c.values path v }.push (.stored path v)) :=
    hi.pushed (c := { c with values := mapInsert c.values path v }) _ rfl h
  unfold Verif.storeValue
  cases terminal <;> exact this

theorem HostInv.applyStore (c : Ctx H) (id : Text) (pred value : Expr) (path : Text)
    (exportToHost terminal : Bool) (st : ParseState) (h : On J c) :
    On J (applyStore o c id pred value path exportToHost terminal st).2 := by
  unfold Verif.applyStore
  simp only
  have h0 := hi.storeBody c st h
  generalize Verif.storeBody o c st = r at h0
  cases r with
  | requeue s c1 => exact h0
  | fail c1 => exact h0
  | ready s c1 =>
    replace h0 : On J c1 := h0
    simp only
    have h1 := hi.testPred c1 id pred h0
    generalize Verif.testPred o c1 id pred = q at h1
    obtain ⟨a, c2⟩ := q
    cases a with
    | pending => exact h1
    | err => exact h1
    | available b =>
      cases b with
      | false => exact h1
      | true =>
        have h2 := hi.evalExpr c2 id value h1
        simp only
        generalize Verif.evalExpr o c2 id value = q at h2
        obtain ⟨a, c3⟩ := q
        cases a with
        | pending => exact h2
        | err => exact h2
        | available v =>
          simp only
          cases exportToHost with
          | false => exact hi.storeValue _ _ _ _ h2
          | true =>
            simp only [if_true]
            split
            · exact h2
            · rename_i bytes hb
              have h3 := hi.writeAttr c3 path v bytes h2 hb
              generalize o.setAttr c3 path bytes = q at h3
              obtain ⟨a, x⟩ := q
              cases a with
              | err => exact h3
              | pending => exact hi.storeValue ((c3.withHost x).push (.attrSet path bytes false)) _ _ _ h3
              | available u => exact hi.storeValue ((c3.withHost x).push (.attrSet path bytes true)) _ _ _ h3

theorem HostInv.applyTokenUsage (c : Ctx H) (st : Option Strategy) (fields : List Text) (h : On J c) :
    On J (applyTokenUsage o c st fields).2 := by
  have hfin : ∀ (c : Ctx H) s, On J c → On J (tokenFinish o c s fields).2 := by
    intro c s h
    unfold tokenFinish
    split <;> exact h
  unfold Verif.applyTokenUsage
  have h1 : On J (chooseStrategy o c st).2 := by
    unfold chooseStrategy
    cases st with
    | some s => exact h
    | none =>
      have h1 := hi.getHeaders c .response h
      simp only
      generalize o.getHeaders c .response = q at h1
      obtain ⟨a, x⟩ := q
      cases a <;> exact h1
  generalize chooseStrategy o c st = q at h1
  obtain ⟨a, c1⟩ := q
  cases a with
  | pending => exact h1
  | err => exact h1
  | available s =>
    simp only
    split
    · have h2 := hi.readBody c1 .response 0 c1.resp.size h1
      generalize o.readBody c1 .response 0 c1.resp.size = q at h2
      obtain ⟨a, x⟩ := q
      cases a with
      | pending => exact h2
      | err => exact h2
      | available b => cases b <;> exact hfin _ _ h2
    · exact hfin _ _ h1

theorem HostInv.core (k : Core) (c : Ctx H) (h : On J c) : On J (k.apply o c).2 := by
  cases k with
  | grpc => exact hi.applyGrpc _ _ _ _ _ _ _ _ _ h
  | sendReply => exact hi.applySendReply _ _ _ _ _ h
  | headers => exact hi.applyHeaders _ _ _ _ _ _ h
  | store => exact hi.applyStore _ _ _ _ _ _ _ _ h
  | fail => exact hi.applyFail _ _ _ _ h
  | tokenUsage => exact hi.applyTokenUsage _ _ _ h
  | pending => exact hi.applyPending _ _ _ _ _ _ h
  | noop _ guard => cases guard <;> exact h
  | noopTerminal => exact h

theorem HostInv.task (t : PTask) (c : Ctx H) (h : On J c) : On J (t.apply o c).2 := by
  induction t with
  | core k => exact hi.core k c h
  | failureMode t a ih =>
    rw [PTask.apply]
    generalize t.apply o c = q at ih
    obtain ⟨out, c1⟩ := q
    cases out with
    | failed => cases a <;> exact hi.pushed _ rfl ih
    | _ => exact ih
  | tracing t ih =>
    rw [PTask.apply]
    generalize t.apply o c = q at ih
    obtain ⟨out, c1⟩ := q
    cases out <;> exact ih

theorem HostInv.terminate (p : Pipe H) (t : PTask) (h : On J p.ctx) : On J (p.terminate o t).ctx :=
  hi.pushed _ rfl (hi.task t p.ctx h)

theorem HostInv.processTasks (ts : List PTask) (p : Pipe H) (h : On J p.ctx) :
    On J (p.processTasks o ts).1.ctx := by
  induction ts generalizing p with
  | nil => exact h
  | cons t ts ih =>
    rw [Pipe.processTasks]
    split
    · exact ih _ h
    · have h1 := hi.task t (p.ctx.push (.applied t.id)) (hi.pushed _ rfl h)
      generalize t.apply o (p.ctx.push (.applied t.id)) = q at h1
      obtain ⟨out, c1⟩ := q
      cases out with
      | done => exact ih _ (hi.pushed (c := c1) _ rfl h1)
      | deferred token t' => exact ih _ h1
      | requeued new => exact ih _ h1
      | failed => exact ih _ (hi.pushed (c := c1) _ rfl h1)
      | terminate t' => exact hi.terminate _ _ h1

theorem HostInv.executeTeardown (p : Pipe H) (h : On J p.ctx) : On J (p.executeTeardown o).ctx := by
  unfold Pipe.executeTeardown
  simp only
  have : ∀ (l : List Text) (p : Pipe H), On J p.ctx → On J (l.foldl (Pipe.runTeardownAction o) p).ctx := by
    intro l
    induction l with
    | nil => intro p h; exact h
    | cons u l ih =>
      intro p h
      refine ih _ ?_
      unfold Pipe.runTeardownAction
      simp only
      have h0 : On J (p.push .teardown).ctx := hi.pushed (c := p.ctx) _ rfl h
      have h1 := hi.exportSpans (p.push .teardown).ctx u h0
      generalize o.exportSpans (p.push .teardown).ctx u = q at h1
      obtain ⟨a, x⟩ := q
      cases a with
      | none => exact h1
      | some token => exact h1
  exact this _ _ h

theorem HostInv.evalPipe (p : Pipe H) (h : On J p.ctx) : On J (p.evalPipe o).ctx := by
  unfold Pipe.evalPipe
  have h1 := hi.processTasks p.queue { p with queue := [] } h
  generalize Pipe.processTasks o { p with queue := [] } p.queue = q at h1
  obtain ⟨p1, b⟩ := q
  cases b with
  | true => exact hi.executeTeardown p1 h1
  | false =>
    simp only
    split
    · exact hi.executeTeardown p1 h1
    · exact h1

theorem HostInv.digestPipe (p : Pipe H) (token status size : Nat) (h : On J p.ctx) :
    On J (p.digestPipe o token status size).ctx := by
  unfold Pipe.digestPipe
  simp only
  have h0 : On J (p.push (.responded token status size)).ctx := hi.pushed (c := p.ctx) _ rfl h
  split
  · exact hi.evalPipe _ h0
  · rename_i t _
    have hset : On J (((p.push (.responded token status size)).removeToken token).setResponse status size).ctx := by
      unfold Pipe.setResponse
      split <;> exact h0
    have h1 := hi.task t _ hset
    generalize t.apply o (((p.push (.responded token status size)).removeToken token).setResponse status size).ctx = q at h1
    obtain ⟨out, c1⟩ := q
    cases out with
    | done => exact hi.evalPipe _ (hi.pushed (c := c1) _ rfl h1)
    | requeued ts => exact hi.evalPipe _ (hi.pushed (c := c1) _ rfl h1)
    | deferred token t' => exact hi.evalPipe _ h1
    | failed => exact hi.evalPipe _ (hi.pushed (c := c1) _ rfl h1)
    | terminate t' => exact hi.evalPipe _ (hi.executeTeardown _ (hi.terminate _ _ h1))

/-! ## Building -/

theorem HostInv.testAllLoop (ps : List Expr) (c : Ctx H) (h : On J c) : On J (testAllLoop o c ps).2 := by
  induction ps generalizing c with
  | nil => exact h
  | cons p ps ih =>
    rw [Verif.testAllLoop]
    have h1 := hi.testPred c [] p h
    generalize Verif.testPred o c [] p = q at h1
    obtain ⟨a, c1⟩ := q
    cases a with
    | pending => exact h1
    | err => exact h1
    | available b => cases b with
      | true => exact ih c1 h1
      | false => exact h1

theorem HostInv.firstMatch (bs : List Blueprint) (c : Ctx H) (h : On J c) : On J (firstMatch o c bs).2 := by
  induction bs generalizing c with
  | nil => exact h
  | cons b bs ih =>
    rw [Verif.firstMatch]
    have h1 : On J (testAll o c b.routePredicates).2 := by
      unfold testAll
      split
      · exact h
      · exact hi.testAllLoop _ _ (hi.ensure c _ h)
    generalize testAll o c b.routePredicates = q at h1
    obtain ⟨a, c1⟩ := q
    cases a with
    | pending => exact h1
    | err => exact h1
    | available b => cases b with
      | true => exact h1
      | false => exact ih c1 h1

theorem HostInv.select (f : Factory) (c : Ctx H) (h : On J c) : On J (f.select o c).2 := by
  unfold Factory.select
  have h1 : On J (getHostname o c).2 := by
    unfold getHostname
    have h1 := hi.hostname c h
    generalize o.hostname c = q at h1
    obtain ⟨a, x⟩ := q
    cases a with
    | pending => exact h1
    | err => exact h1
    | available t => cases t <;> exact h1
  generalize getHostname o c = q at h1
  obtain ⟨a, c1⟩ := q
  cases a with
  | none => exact h1
  | some t =>
    simp only
    split
    · exact h1
    · rename_i cands _
      have h2 := hi.firstMatch cands c1 h1
      generalize Verif.firstMatch o c1 cands = q at h2
      obtain ⟨a, c2⟩ := q
      cases a with
      | none => simp only; split <;> exact h2
      | found b => exact h2
      | error => exact h2

mutual
theorem HostInv.toCore (a : Action) (c : Ctx H) (h : On J c) {k : Core} {c' : Ctx H}
    (hk : a.toCore o c = some (k, c')) : On J c' := by
  match a with
  | .grpc head service var msg onReply =>
    rw [Action.toCore] at hk
    cases hl : Verif.toCoreList o c onReply with
    | none => rw [hl] at hk; cases hk
    | some q =>
      obtain ⟨children, c1⟩ := q
      have h1 := HostInv.toCoreList onReply c h hl
      rw [hl] at hk
      cases service with
      | call kind svc deny =>
        simp only [Option.some.injEq, Prod.mk.injEq] at hk
        rw [← hk.2]
        exact hi.evalExpr _ _ _ (hi.testPred _ _ _ h1)
      | tracing up =>
        have h2 := hi.requestId { c1 with trackerId := some var } h1
        simp only at hk
        generalize Verif.requestId o { c1 with trackerId := some var } = q at h2 hk
        obtain ⟨rid, c2⟩ := q
        simp only at hk
        split at hk
        · cases hk
        · simp only [Option.some.injEq, Prod.mk.injEq] at hk
          rw [← hk.2]
          exact h2
  | .deny head e => rw [Action.toCore] at hk; cases hk; exact h
  | .headers head t e => rw [Action.toCore] at hk; cases hk; exact h
  | .store head p v x => rw [Action.toCore] at hk; cases hk; exact h
  | .fail head => rw [Action.toCore] at hk; cases hk; exact h

theorem HostInv.toCoreList (as : List Action) (c : Ctx H) (h : On J c) {ks : List Core} {c' : Ctx H}
    (hk : Verif.toCoreList o c as = some (ks, c')) : On J c' := by
  match as with
  | [] => rw [Verif.toCoreList] at hk; cases hk; exact h
  | a :: as =>
    rw [Verif.toCoreList] at hk
    cases ha : a.toCore o c with
    | none => rw [ha] at hk; cases hk
    | some q =>
      obtain ⟨k, c1⟩ := q
      have h1 := HostInv.toCore a c h ha
      rw [ha] at hk
      simp only at hk
      cases hl : Verif.toCoreList o c1 as with
      | none => rw [hl] at hk; cases hk
      | some q =>
        obtain ⟨ts, c2⟩ := q
        have h2 := HostInv.toCoreList as c1 h1 hl
        rw [hl] at hk
        cases hk
        exact h2
end

theorem HostInv.tasksLoop (rd : List Expr) (tr : Bool) (as : List Action) (c : Ctx H) (h : On J c)
    {r : List PTask × List Text × Ctx H} (hr : tasksLoop o c rd tr as = some r) : On J r.2.2 := by
  induction as generalizing c r with
  | nil => rw [Verif.tasksLoop] at hr; cases hr; exact h
  | cons a as ih =>
    rw [Verif.tasksLoop] at hr
    cases ha : actionTasks o c rd tr a with
    | none => rw [ha] at hr; cases hr
    | some q =>
      obtain ⟨ts, td, c1⟩ := q
      have h1 : On J c1 := by
        unfold actionTasks at ha
        cases hk : a.toCore o c with
        | none => rw [hk] at ha; cases ha
        | some q =>
          obtain ⟨k, c2⟩ := q
          have h2 := hi.toCore a c h hk
          rw [hk] at ha
          simp only at ha
          split at ha <;> cases ha <;> exact h2
      rw [ha] at hr
      simp only at hr
      cases hl : Verif.tasksLoop o c1 rd tr as with
      | none => rw [hl] at hr; cases hr
      | some q =>
        obtain ⟨ts', td', c2⟩ := q
        have h2 := ih c1 h1 hl
        rw [hl] at hr
        cases hr
        exact h2

theorem HostInv.build (f : Factory) (c : Ctx H) (h : On J c) :
    match f.build o c with
    | .pipeline p => On J p.ctx
    | .noMatch c' => On J c'
    | .error c' => On J c'
    | .panic => True := by
  unfold Factory.build
  have h1 := hi.select f c h
  generalize f.select o c = q at h1
  obtain ⟨a, c1⟩ := q
  cases a with
  | error => exact h1
  | none => exact h1
  | found b =>
    have h2 := hi.getHeaders c1 .request h1
    simp only
    cases hl : b.toTasks o (c1.withHost (o.getHeaders c1 .request).2) f.requestData with
    | none => trivial
    | some q =>
      obtain ⟨ts, td, c2⟩ := q
      have h3 : On J c2 := hi.tasksLoop _ _ _ (c1.withHost (o.getHeaders c1 .request).2) h2 hl
      simp only
      split
      · rename_i he; split at he <;> cases he <;> exact h3
      · rename_i he; split at he <;> cases he <;> exact h3
      · rename_i he; split at he <;> cases he
      · trivial

/-! ## The filter -/

theorem HostInv.start (factory : Factory) (host : H) (h : J host []) :
    J (Filter.startHost o factory host) (Filter.start o factory host).log := by
  unfold Filter.start Filter.startHost
  simp only
  have h1 := hi.build factory { host := host } h
  generalize factory.build o { host := host } = q at h1
  cases q with
  | panic => exact h
  | pipeline p =>
    have h2 : On J (p.push .hits).ctx := hi.pushed (c := p.ctx) _ rfl h1
    refine hi.push _ _ _ rfl ?_
    simp only [Pipe.eval, store_log]
    exact hi.evalPipe _ h2
  | noMatch c =>
    have := hi.push _ _ (.returned .requestHeaders false) rfl (hi.push _ _ .misses rfl h1)
    rw [List.append_assoc] at this
    exact this
  | error c =>
    have h2 := hi.sendReply _ 500 [] (some defaultBody) (hi.pushed (c := c) .errors rfl h1)
    simp only
    split
    · exact hi.push _ _ _ rfl h2
    · exact h2

theorem HostInv.evalWith (f : Filter H) (host : H) (update : Ctx H → Ctx H)
    (hu : ∀ c, (update c).host = c.host ∧ (update c).log = c.log) (h : J host f.log) :
    J (f.evalHost o host update) (f.evalWith o host update).log := by
  unfold Filter.evalWith Filter.evalHost
  cases f.pipeline with
  | none => exact h
  | some p =>
    simp only
    have h1 : On J (update (f.enter host p).ctx) := by
      unfold On
      rw [(hu _).1, (hu _).2]
      exact h
    rw [Pipe.eval, store_log]
    exact hi.evalPipe { f.enter host p with ctx := update (f.enter host p).ctx } h1

theorem HostInv.step (f : Filter H) (e : Event H) (h : J e.host f.log) :
    J (f.hostAfter o e) (f.step o e).log := by
  unfold Filter.step Filter.hostAfter
  cases f.crashed with
  | true => exact h
  | false =>
    cases e with
    | requestBody host size eos =>
      exact hi.push _ _ _ rfl (hi.evalWith f host (Filter.setReq size eos) (fun _ => ⟨rfl, rfl⟩) h)
    | responseHeaders host =>
      exact hi.push _ _ _ rfl (hi.evalWith { f.push .allowed with inResponse := true } host id
        (fun _ => ⟨rfl, rfl⟩) (hi.push _ _ .allowed rfl h))
    | responseBody host size eos =>
      have h1 := hi.evalWith f host (Filter.setResp size eos) (fun _ => ⟨rfl, rfl⟩) h
      simp only [Bool.false_eq_true, if_false]
      unfold Filter.onResponseBody
      simp only
      split
      · exact hi.push _ _ _ rfl h1
      · split <;> exact hi.push _ _ _ rfl h1
    | grpcResponse host token status size =>
      simp only [Bool.false_eq_true, if_false]
      unfold Filter.onGrpcResponse
      cases hp : f.pipeline with
      | none => exact hi.push _ _ _ rfl h
      | some p =>
        have h1 : J ((f.enter host p).digestPipe o token status size).ctx.host
            (f.store ((f.enter host p).digest o token status size)).log := by
          rw [Pipe.digest, store_log]
          exact hi.digestPipe _ _ _ _ h
        have h2 : J ((f.enter host p).digestPipe o token status size).ctx.host
            (f.store ((f.enter host p).digest o token status size)).resume.log :=
          hi.push _ _ _ (by split <;> rfl) h1
        simp only
        split <;> split <;> first | exact h2 | exact h1

end

/-! ## Sessions -/

section
variable {W : Type} {w : World W} {J : Attrs W → List Effect → Prop}

theorem session_nil (factory : Factory) (world : W) : w.session factory world [] = w.begin factory world := by
  rw [World.session, List.foldl_nil]

theorem session_snoc (factory : Factory) (world : W) (l : List (Event W)) (e : Event W) :
    w.session factory world (l ++ [e]) = w.callback (w.session factory world l) e := by
  rw [World.session, List.foldl_append, List.foldl_cons, List.foldl_nil, World.session]

theorem map_host {H K : Type} (f : H → K) (e : Event H) : (e.map f).host = f e.host := by cases e <;> rfl

/-- An invariant that holds at the beginning of every callback holds after every callback. -/
theorem HostInv.session (hi : HostInv w.oracle J) (factory : Factory) (world : W) (events : List (Event W))
    (h : J { world } [])
    (hev : ∀ pre e post, events = pre ++ e :: post →
      J (w.session factory world pre).host (w.session factory world pre).filter.log →
      J { (w.session factory world pre).host with world := e.host } (w.session factory world pre).filter.log) :
    J (w.session factory world events).host (w.session factory world events).filter.log := by
  induction events using snoc_ind with
  | nil =>
    have h1 := hi.start factory { world } h
    rw [session_nil]
    simp only [World.begin]
    exact h1
  | snoc l e ih =>
    have h1 := ih fun pre e' post hp => hev pre e' (post ++ [e]) (by rw [hp]; simp)
    have h2 := hev l e [] rfl h1
    rw [session_snoc]
    generalize w.session factory world l = s at h2
    have h3 := hi.step s.filter (e.map fun world => { s.host with world }) (by rw [map_host]; exact h2)
    simp only [World.callback]
    exact h3

/-- The same from any point of the request on. -/
theorem HostInv.later (hi : HostInv w.oracle J) (factory : Factory) (world : W) (pre post : List (Event W))
    (h : J (w.session factory world pre).host (w.session factory world pre).filter.log)
    (hev : ∀ mid e rest, post = mid ++ e :: rest →
      J (w.session factory world (pre ++ mid)).host (w.session factory world (pre ++ mid)).filter.log →
      J { (w.session factory world (pre ++ mid)).host with world := e.host }
        (w.session factory world (pre ++ mid)).filter.log) :
    J (w.session factory world (pre ++ post)).host (w.session factory world (pre ++ post)).filter.log := by
  induction post using snoc_ind with
  | nil => rw [List.append_nil]; exact h
  | snoc l e ih =>
    have h1 := ih fun mid e' rest hp => hev mid e' (rest ++ [e]) (by rw [hp]; simp)
    have h2 := hev l e [] rfl h1
    rw [← List.append_assoc, session_snoc]
    generalize w.session factory world (pre ++ l) = s at h2
    have h3 := hi.step s.filter (e.map fun world => { s.host with world }) (by rw [map_host]; exact h2)
    simp only [World.callback]
    exact h3

/-- The filter of a session is a filter: what was proved of all runs holds of it. -/
theorem session_run (w : World W) (factory : Factory) (world : W) (events : List (Event W)) :
    ∃ events', events'.map (Event.map Attrs.world) = events ∧
      (w.session factory world events).filter = Filter.run w.oracle factory { world } events' := by
  induction events using snoc_ind with
  | nil =>
    refine ⟨[], rfl, ?_⟩
    rw [session_nil, World.begin, Filter.run, List.foldl_nil]
  | snoc l e ih =>
    obtain ⟨l', hl, hf⟩ := ih
    refine ⟨l' ++ [e.map fun world' => { (w.session factory world l).host with world := world' }], ?_, ?_⟩
    · rw [List.map_append, hl]
      cases e <;> rfl
    · rw [session_snoc]
      generalize w.session factory world l = s at hf ⊢
      rw [World.callback, Filter.run, List.foldl_append, List.foldl_cons, List.foldl_nil, hf, Filter.run]

end

end Verif
