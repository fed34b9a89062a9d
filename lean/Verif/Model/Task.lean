import Verif.Model.Ctx
/-!
Model of `crates/kuadrant-filter/src/kuadrant/pipeline/tasks/*.rs`.

Logging and spans are left out. `Box<dyn Task>` is `PTask`: a core task, possibly inside decorators.
Reply actions are core tasks, because `blueprint.rs` L73-76 does not decorate them.
-/
namespace Verif

/-- `tasks/store.rs` L24-28 `BodyParseState`. -/
inductive ParseState where
  | notNeeded
  | pending (source : Source) (fields : List Text)
  | active (source : Source) (parser : BodyParser)

/-- Tasks without decorators. -/
inductive Core where
  /-- `tasks/dynamic.rs` L13-22 `DynamicTask` -/
  | grpc (id : Text) (deps : List Text) (guard : Bool) (pred msg : Expr) (var : Text) (svc : Svc)
      (onReply : List Core)
  /-- `tasks/send_reply.rs` L13-18 `SendReplyTask` -/
  | sendReply (id : Text) (pred denyWith : Expr) (terminal : Bool)
  /-- `tasks/headers.rs` L33-39 `ModifyHeadersTask` -/
  | headers (id : Text) (pred value : Expr) (target : Target) (terminal : Bool)
  /-- `tasks/store.rs` L30-39 `StoreTask` (the path reservation is dropped with the task) -/
  | store (id : Text) (pred value : Expr) (path : Text) (exportToHost terminal : Bool)
      (state : ParseState)
  /-- `tasks/fail.rs` L9-14 `FailTask` (the message is only logged) -/
  | fail (id : Text) (pred : Expr) (terminal : Bool)
  /-- `tasks/token_usage.rs` L10-13 `TokenUsageTask` -/
  | tokenUsage (strategy : Option Strategy) (fields : List Text)
  /-- `tasks/mod.rs` L45-71 `PendingTask` with the processor of `tasks/dynamic.rs` L161-168 -/
  | pending (id : Text) (guard : Bool) (svc : Svc) (var : Text) (onReply : List Core)
  /-- `tasks/mod.rs` L45-71 `PendingTask` with `noop_response_processor` (L93-119) -/
  | noop (id : Text) (guard : Bool)
  /-- `tasks/mod.rs` L121-131 `NoopTerminalTask` -/
  | noopTerminal

/-- `Box<dyn Task>`. -/
inductive PTask where
  | core (c : Core)
  /-- `tasks/failure_mode.rs` L7-10 `FailureModeTask` -/
  | failureMode (t : PTask) (abort : Bool)
  /-- `tasks/tracing_decorator.rs` L4-9 `TracingDecoratorTask` (without its span) -/
  | tracing (t : PTask)

/-- `tasks/mod.rs` L73-82 `TaskOutcome`. -/
inductive Outcome where
  | done
  | deferred (token : Nat) (pending : PTask)
  | requeued (tasks : List PTask)
  | failed
  | terminate (task : PTask)

/-- `Task::id` of the tasks. -/
def Core.id : Core → Text
  | .grpc id .. => id
  | .sendReply id .. => id
  | .headers id .. => id
  | .store id .. => id
  | .fail id .. => id
  | .tokenUsage .. => "token_usage".toList
  | .pending id .. => id
  | .noop id _ => id
  | .noopTerminal => "noop".toList

/-- `Task::id`; the decorators delegate (`failure_mode.rs` L42-44, `tracing_decorator.rs` L81-83). -/
def PTask.id : PTask → Text
  | .core c => c.id
  | .failureMode t _ => t.id
  | .tracing t => t.id

/-- `Task::dependencies`: only gRPC tasks have any (`dynamic.rs` L64-66, `mod.rs` L32-34). -/
def Core.deps : Core → List Text
  | .grpc _ deps .. => deps
  | _ => []

/-- `Task::dependencies`; the decorators delegate (`failure_mode.rs` L46-48,
`tracing_decorator.rs` L85-87). -/
def PTask.deps : PTask → List Text
  | .core c => c.deps
  | .failureMode t _ => t.deps
  | .tracing t => t.deps

/-- `Task::is_guard` (`dynamic.rs` L68-70, `mod.rs` L36-38 and L68-70). -/
def Core.isGuard : Core → Bool
  | .grpc _ _ guard .. => guard
  | .pending _ guard .. => guard
  | .noop _ guard => guard
  | _ => false

/-- `Task::is_guard`; the decorators do not delegate, so they answer the default (`mod.rs` L36-38). -/
def PTask.isGuard : PTask → Bool
  | .core c => c.isGuard
  | .failureMode .. => false
  | .tracing _ => false

/-- The constant predicate `true`. -/
def truePred : Expr := { src := "true".toList, lit := some (.bool true) }

/-- The body of the default reply. -/
def defaultBody : Text := "Internal Server Error.\n".toList

/-- `tasks/send_reply.rs` L35-49 `SendReplyTask::default`. That its constant expression evaluates to
this struct is an assumption about the CEL interpreter. -/
def defaultReply : PTask :=
  .core (.sendReply "default".toList truePred
    { lit := some (.struct "DenyResponse".toList
        [("status".toList, .uint 500), ("headers".toList, .list []),
         ("body".toList, .str defaultBody)]) }
    false)

/-- `str::contains`. -/
def containsText : Text → Text → Bool
  | [], p => p.isEmpty
  | c :: cs, p => startsWith (c :: cs) p || containsText cs p

/-- Is the content type an event stream (`store.rs` L102-104, `token_usage.rs` L117-128)? -/
def isEventStream (h : Headers) : Bool :=
  match Headers.get h "content-type".toList with
  | some ct => containsText ct "text/event-stream".toList
  | none => false

/-- Reading the struct of a deny expression (`send_reply.rs` L90-106): status, headers and body.
`*v.inner() as u32` keeps the low 32 bits. -/
def readDeny (fields : List (Text × Val)) : Nat × Headers × Option Text :=
  let status := match fieldValue fields "status".toList with
    | some (.uint n) => n % 2 ^ 32
    | _ => 500
  let body := match fieldValue fields "body".toList with
    | some (.str []) => none
    | some (.str t) => some t
    | _ => none
  let headers := match fieldValue fields "headers".toList with
    | some v => headerPairs v
    | none => []
  (status, headers, body)

section
variable {H : Type} (o : Oracle H)

/-- The rule for a pending predicate or message at the end of a body (`dynamic.rs` L90-98 and
L121-129, `fail.rs` L46-53): does the task give up? -/
def givesUp (c : Ctx H) (e : Expr) : Bool :=
  (!e.reqFields.isEmpty && c.req.eos) || (!e.respFields.isEmpty && c.resp.eos)

/-- `services/dynamic.rs` L60-86 `dispatch_value` with `context.rs` L304-328 `dispatch_grpc_call`:
the encoded message, the request id sent along and the token. -/
def dispatchValue (c : Ctx H) (svc : Svc) (v : Val) : Option (Bytes × Text × Nat) × Ctx H :=
  match o.encode c svc v with
  | none => (none, c)
  | some bytes =>
    let (rid, c) := requestId o c
    match o.dispatch c svc bytes rid with
    | (none, h) => (none, c.withHost h)
    | (some token, h) => (some (bytes, rid, token), c.withHost h)

/-- `tasks/dynamic.rs` L86-172 `DynamicTask::apply`. -/
def applyGrpc (c : Ctx H) (id : Text) (deps : List Text) (guard : Bool) (pred msg : Expr) (var : Text)
    (svc : Svc) (onReply : List Core) : Outcome × Ctx H :=
  let self : PTask := .core (.grpc id deps guard pred msg var svc onReply)
  match testPred o c id pred with
  | (.pending, c) => if givesUp c pred then (.failed, c.push (.callFailed id)) else (.requeued [self], c)
  | (.available false, c) => (.done, c)
  | (.err, c) => (.failed, c.push (.callFailed id))
  | (.available true, c) =>
    match evalExpr o c id msg with
    | (.pending, c) => if givesUp c msg then (.failed, c.push (.callFailed id)) else (.requeued [self], c)
    | (.err, c) => (.failed, c.push (.callFailed id))
    | (.available v, c) =>
      match dispatchValue o c svc v with
      | (none, c) => (.failed, c.push (.callFailed id))
      | (some (bytes, rid, token), c) =>
        let c := c.push (.dispatch id guard token svc bytes rid)
        let c := if guard then c.raise else c
        (.deferred token (.core (.pending id guard svc var onReply)), c)

/-- `tasks/dynamic.rs` L175-227 `process_dynamic_response`. -/
def processResponse (c : Ctx H) (id : Text) (svc : Svc) (var : Text) (onReply : List Core) :
    Outcome × Ctx H :=
  match c.grpc with
  | none => (.failed, c.push (.callFailed id))
  | some (status, size) =>
    let c := { c with grpc := none }
    if status ≠ 0 then (.failed, c.push (.callFailed id))
    else if onReply.isEmpty then (.done, c)
    else
      match o.response c svc size with
      | (none, h) => (.failed, (c.withHost h).push (.callFailed id))
      | (some v, h) =>
        let c := c.withHost h
        (.requeued (onReply.map .core), { c with bindings := c.bindings ++ [(id, (var, v))] })

/-- The processor created by `tasks/dynamic.rs` L161-168. -/
def applyPending (c : Ctx H) (id : Text) (guard : Bool) (svc : Svc) (var : Text) (onReply : List Core) :
    Outcome × Ctx H :=
  let (out, c) := processResponse o c id svc var onReply
  (out, if guard then c.lower else c)

/-- `tasks/mod.rs` L93-119 `noop_response_processor`. -/
def applyNoop (c : Ctx H) (guard : Bool) : Outcome × Ctx H :=
  let c := if guard then c.lower else c
  (.done, { c with grpc := none })

/-- The reply's headers with the tracking header, `tasks/send_reply.rs` L121-128. -/
def withTracker (headers : Headers) : Option (Text × Text) → Headers
  | some p => List.append headers [p]
  | none => headers

/-- `tasks/send_reply.rs` L121-145: send the reply. -/
def finishReply (c : Ctx H) (fields : List (Text × Val)) (terminal : Bool) : Outcome × Ctx H :=
  let d := readDeny fields
  let t := tracker o c
  let headers := withTracker d.2.1 t.1
  let c := t.2.push .denied
  let r := o.sendReply c d.1 headers d.2.2
  let c := (c.withHost r.2).push (.reply d.1 headers d.2.2 r.1)
  if r.1 then
    if terminal then (.terminate (.core .noopTerminal), c) else (.done, c)
  else (.failed, c)

/-- `tasks/send_reply.rs` L61-146 `SendReplyTask::apply`. -/
def applySendReply (c : Ctx H) (id : Text) (pred denyWith : Expr) (terminal : Bool) : Outcome × Ctx H :=
  let self : PTask := .core (.sendReply id pred denyWith terminal)
  match testPred o c id pred with
  | (.pending, c) => (.requeued [self], c)
  | (.available false, c) => (.done, c)
  | (.err, c) => (.failed, c)
  | (.available true, c) =>
    match evalExpr o c id denyWith with
    | (.available (.struct _ fields), c) => finishReply o c fields terminal
    | (_, c) => (.failed, c)

/-- Setting pairs one after the other (`tasks/headers.rs` L106-111). -/
def setAll (h : Headers) (pairs : Headers) : Headers := pairs.foldl (fun h p => Headers.set h p.1 p.2) h

/-- `tasks/headers.rs` L64-148 `ModifyHeadersTask::apply`. -/
def applyHeaders (c : Ctx H) (id : Text) (pred value : Expr) (target : Target) (terminal : Bool) :
    Outcome × Ctx H :=
  let self : PTask := .core (.headers id pred value target terminal)
  match testPred o c id pred with
  | (.pending, c) => (.requeued [self], c)
  | (.available false, c) => (.done, c)
  | (.err, c) => (.failed, c)
  | (.available true, c) =>
    match evalExpr o c id value with
    | (.pending, c) => (.requeued [self], c)
    | (.err, c) => (.failed, c)
    | (.available v, c) =>
      let pairs := headerPairs v
      if pairs.isEmpty then (.done, c)
      else
        match o.getHeaders c target with
        | (.pending, h) => (.requeued [self], c.withHost h)
        | (.err, h) => (.failed, c.withHost h)
        | (.available hs, h) =>
          let c := c.withHost h
          let new := setAll hs pairs
          match o.setHeaders c target new with
          | (.pending, h) => (.requeued [self], c.withHost h)
          | (.err, h) => (.failed, c.withHost h)
          | (.available _, h) =>
            let c := (c.withHost h).push (.headersSet target new)
            if terminal then (.terminate defaultReply, c) else (.done, c)

/-- `tasks/fail.rs` L32-60 `FailTask::apply`. -/
def applyFail (c : Ctx H) (id : Text) (pred : Expr) (terminal : Bool) : Outcome × Ctx H :=
  match testPred o c id pred with
  | (.available true, c) =>
    if terminal then (.terminate defaultReply, c.push .errors) else (.done, c)
  | (.available false, c) => (.done, c)
  | (.pending, c) =>
    if givesUp c pred then (.failed, c) else (.requeued [.core (.fail id pred terminal)], c)
  | (.err, c) => (.failed, c)

/-- Result of the body-reading part of a store task. -/
inductive ReadResult (H : Type) where
  | requeue (state : ParseState) (c : Ctx H)
  | fail (c : Ctx H)
  | ready (state : ParseState) (c : Ctx H)

/-- `tasks/store.rs` L88-123 `create_parser`: `err` is the error result, `pending` is `Ok(None)`. -/
def createParser (c : Ctx H) (source : Source) (fields : List Text) : Ans BodyParser × Ctx H :=
  let json : Ans BodyParser := match JsonBody.new o.json fields with
    | some b => .available (.json b)
    | none => .err
  match source with
  | .request => (json, c)
  | .response =>
    match o.getHeaders c .response with
    | (.pending, h) => (.pending, c.withHost h)
    | (.err, h) => (json, c.withHost h)
    | (.available hs, h) =>
      (if isEventStream hs then .available (.sse { fields }) else json, c.withHost h)

/-- `populate` (`json_body_parser.rs` L136-140, `sse_body_parser.rs` L212-216): copy the extracted
values to the body context. -/
def populate (b : Body) (extracted : List (Text × Val)) : Body :=
  extracted.foldl (fun b e => b.setValue e.1 e.2) b

/-- `tasks/store.rs` L190-209: finalisation at the end of the stream and publication of the values. -/
def storeFinish (c : Ctx H) (source : Source) (parser : BodyParser) : ReadResult H :=
  let publish (p : BodyParser) : ReadResult H :=
    .ready (.active source p) (c.setBody source (populate (c.body source) p.extracted))
  if (c.body source).eos then
    match parser.finalize o.json with
    | none => .fail c
    | some p => if p.remaining.isEmpty then publish p else .fail c
  else publish parser

/-- `tasks/store.rs` L148-210. -/
def storeRead (c : Ctx H) (source : Source) (parser : BodyParser) : ReadResult H :=
  let body := c.body source
  if body.size = 0 ∧ body.eos = false then .requeue (.active source parser) c
  else if parser.consumed < body.size then
    match o.readBody c source parser.consumed (body.size - parser.consumed) with
    | (.available none, h) => .fail (c.withHost h)
    | (.pending, h) => .requeue (.active source parser) (c.withHost h)
    | (.err, h) => .fail (c.withHost h)
    | (.available (some bytes), h) =>
      match parser.feed o.json bytes with
      | none => .fail (c.withHost h)
      | some p => storeFinish o (c.withHost h) source p
  else storeFinish o c source parser

/-- `tasks/store.rs` L132-210: creation of the parser, then reading. -/
def storeBody (c : Ctx H) : ParseState → ReadResult H
  | .notNeeded => .ready .notNeeded c
  | .active source parser => storeRead o c source parser
  | .pending source fields =>
    match createParser o c source fields with
    | (.available p, c) => storeRead o c source p
    | (.pending, c) => .requeue (.pending source fields) c
    | (.err, c) => .fail c

/-- `tasks/store.rs` L261-267: keep the value. -/
def storeValue (c : Ctx H) (path : Text) (v : Val) (terminal : Bool) : Outcome × Ctx H :=
  let c := { c with values := mapInsert c.values path v }.push (.stored path v)
  if terminal then (.terminate defaultReply, c) else (.done, c)

/-- `tasks/store.rs` L131-268 `StoreTask::apply`. A property write for which the host is not ready
(`Pending`) counts as success (L247). -/
def applyStore (c : Ctx H) (id : Text) (pred value : Expr) (path : Text) (exportToHost terminal : Bool)
    (state : ParseState) : Outcome × Ctx H :=
  let again (s : ParseState) : Outcome :=
    .requeued [.core (.store id pred value path exportToHost terminal s)]
  match storeBody o c state with
  | .requeue s c => (again s, c)
  | .fail c => (.failed, c)
  | .ready s c =>
    match testPred o c id pred with
    | (.pending, c) => (again s, c)
    | (.available false, c) => (.done, c)
    | (.err, c) => (.failed, c)
    | (.available true, c) =>
      match evalExpr o c id value with
      | (.pending, c) => (again s, c)
      | (.err, c) => (.failed, c)
      | (.available v, c) =>
        if exportToHost then
          match o.toBytes v with
          | none => (.failed, c)
          | some bytes =>
            match o.setAttr c path bytes with
            | (.err, h) => (.failed, c.withHost h)
            | (.pending, h) => storeValue ((c.withHost h).push (.attrSet path bytes false)) path v terminal
            | (.available _, h) => storeValue ((c.withHost h).push (.attrSet path bytes true)) path v terminal
        else storeValue c path v terminal

/-- `tasks/token_usage.rs` L47-65: the strategy in use or the one the content type asks for. -/
def chooseStrategy (c : Ctx H) : Option Strategy → Ans Strategy × Ctx H
  | some s => (.available s, c)
  | none =>
    match o.getHeaders c .response with
    | (.pending, h) => (.pending, c.withHost h)
    | (.err, h) => (.err, c.withHost h)
    | (.available hs, h) =>
      (.available (if isEventStream hs then .sse {} none none else .json []), c.withHost h)

/-- `tasks/token_usage.rs` L86-113: extraction at the end of the body. -/
def tokenFinish (c : Ctx H) (s : Strategy) (fields : List Text) : Outcome × Ctx H :=
  if c.resp.eos then
    (.done, { c with resp := fields.foldl (init := c.resp) fun b f =>
      match (s.extract o.json f).bind jsonToStored with
      | some v => b.setValue f v
      | none => b })
  else (.requeued [.core (.tokenUsage (some s) fields)], c)

/-- `tasks/token_usage.rs` L44-115 `TokenUsageTask::apply`. -/
def applyTokenUsage (c : Ctx H) (strategy : Option Strategy) (fields : List Text) : Outcome × Ctx H :=
  let again (s : Option Strategy) : Outcome := .requeued [.core (.tokenUsage s fields)]
  match chooseStrategy o c strategy with
  | (.pending, c) => (again none, c)
  | (.err, c) => (.failed, c)
  | (.available s, c) =>
    if 0 < c.resp.size then
      match o.readBody c .response 0 c.resp.size with
      | (.available (some bytes), h) => tokenFinish o (c.withHost h) (s.feed bytes) fields
      | (.available none, h) => tokenFinish o (c.withHost h) s fields
      | (.pending, h) => (again (some s), c.withHost h)
      | (.err, h) => (.failed, c.withHost h)
    else tokenFinish o c s fields

/-- `Task::apply` of the tasks without decorators. -/
def Core.apply (c : Ctx H) : Core → Outcome × Ctx H
  | .grpc id deps guard pred msg var svc onReply => applyGrpc o c id deps guard pred msg var svc onReply
  | .sendReply id pred denyWith terminal => applySendReply o c id pred denyWith terminal
  | .headers id pred value target terminal => applyHeaders o c id pred value target terminal
  | .store id pred value path exp terminal state => applyStore o c id pred value path exp terminal state
  | .fail id pred terminal => applyFail o c id pred terminal
  | .tokenUsage strategy fields => applyTokenUsage o c strategy fields
  | .pending id guard svc var onReply => applyPending o c id guard svc var onReply
  | .noop _ guard => applyNoop c guard
  | .noopTerminal => (.done, c)

/-- `Task::apply`; the decorators are `failure_mode.rs` L19-40 and `tracing_decorator.rs` L40-79. -/
def PTask.apply (c : Ctx H) : PTask → Outcome × Ctx H
  | .core t => t.apply o c
  | .failureMode t abort =>
    match t.apply c with
    | (.failed, c) =>
      let c := c.push .errors
      if abort then (.terminate defaultReply, c) else (.done, c)
    | (.deferred token p, c) => (.deferred token (.failureMode p abort), c)
    | r => r
  | .tracing t =>
    match t.apply c with
    | (.deferred token p, c) => (.deferred token (.tracing p), c)
    | (.requeued ts, c) => (.requeued (ts.map .tracing), c)
    | (.terminate t, c) => (.terminate (.tracing t), c)
    | r => r

end

end Verif
