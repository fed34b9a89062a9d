import Verif.Model.Executor
/-!
Model of `crates/kuadrant-filter/src/kuadrant/pipeline/blueprint.rs` and of the typed action
configuration (`configuration.rs` L44-144).
-/
namespace Verif

/-- `services/mod.rs` L16-23 `ServiceInstance`. `kind` is only used by the translation of legacy
actions; `deny` says that the failure mode is deny. -/
inductive SvcKind where
  | auth | rateLimit | rateLimitCheck | rateLimitReport | dynamic
deriving DecidableEq, Repr

inductive SvcInst where
  | call (kind : SvcKind) (svc : Svc) (deny : Bool)
  /-- `Tracing(None)` or `Tracing(Some(upstream))` -/
  | tracing (upstream : Option Text)

/-- The fields all actions share, `blueprint.rs` L27-35 (`sources` only feed a span). -/
structure Head where
  id : Text
  pred : Expr
  terminal : Bool := false
  deps : List Text := []
  guard : Bool := true

/-- `blueprint.rs` L27-61 `Action` with its `Operation`. -/
inductive Action where
  | grpc (head : Head) (service : SvcInst) (var : Text) (msg : Expr) (onReply : List Action)
  | deny (head : Head) (denyWith : Expr)
  | headers (head : Head) (target : Target) (value : Expr)
  | store (head : Head) (path : Text) (value : Expr) (exportToHost : Bool)
  | fail (head : Head)

namespace Action

def head : Action → Head
  | grpc h .. => h
  | deny h _ => h
  | headers h .. => h
  | store h .. => h
  | fail h => h

/-- Assignment of the dependencies (`blueprint.rs` L312, L471). -/
def withDeps (deps : List Text) : Action → Action
  | grpc h s v m r => grpc { h with deps } s v m r
  | deny h e => deny { h with deps } e
  | headers h t e => headers { h with deps } t e
  | store h p e x => store { h with deps } p e x
  | fail h => fail { h with deps }

end Action

/-- Remove equal neighbours (`Vec::dedup`). -/
def dedup : List Text → List Text
  | [] => []
  | [a] => [a]
  | a :: b :: l => if a = b then dedup (b :: l) else a :: dedup (b :: l)

/-- `sort` followed by `dedup`. -/
def sortDedup (l : List Text) : List Text := dedup (l.mergeSort textLe)

/-- `tasks/store.rs` L65-86 `initial_body_state`. -/
def initialParseState (pred value : Expr) : ParseState :=
  let req := pred.reqFields ++ value.reqFields
  let resp := pred.respFields ++ value.respFields
  if !req.isEmpty then .pending .request (sortDedup req)
  else if !resp.isEmpty then .pending .response (sortDedup resp)
  else .notNeeded

section
variable {H : Type} (o : Oracle H)

/-- `tasks/dynamic.rs` L52-56 `warm`: the results are dropped. -/
def warm (c : Ctx H) (id : Text) (pred msg : Expr) : Ctx H :=
  (evalExpr o (testPred o c id pred).2 id msg).2

/-- The source of the expression built for the tracking header, `blueprint.rs` L102. -/
def trackingSource (var rid : Text) : Text :=
  "[['".toList ++ var ++ "', '".toList ++ rid ++ "']]".toList

mutual

/-- `blueprint.rs` L64-170 `to_core_task`. `none` is the panic of L103. `StoreTask::new` never fails. -/
def Action.toCore (c : Ctx H) : Action → Option (Core × Ctx H)
  | .grpc head service var msg onReply =>
    match toCoreList c onReply with
    | none => none
    | some (children, c) =>
      match service with
      | .call _ svc _ =>
        some (.grpc head.id head.deps head.guard head.pred msg var svc children,
          warm o c head.id head.pred msg)
      | .tracing _ =>
        let (rid, c) := requestId o { c with trackerId := some var }
        match o.parse (trackingSource var rid) with
        | none => none
        | some e => some (.headers head.id truePred e .response false, c)
  | .deny head denyWith => some (.sendReply head.id head.pred denyWith head.terminal, c)
  | .headers head target value => some (.headers head.id head.pred value target head.terminal, c)
  | .store head path value exportToHost =>
    some (.store head.id head.pred value path exportToHost head.terminal
      (initialParseState head.pred value), c)
  | .fail head => some (.fail head.id head.pred head.terminal, c)

/-- `blueprint.rs` L73-76. -/
def toCoreList (c : Ctx H) : List Action → Option (List Core × Ctx H)
  | [] => some ([], c)
  | a :: as =>
    match a.toCore c with
    | none => none
    | some (t, c) =>
      match toCoreList c as with
      | none => none
      | some (ts, c) => some (t :: ts, c)

end

mutual

/-- The body fields `collect_body_values` finds (`blueprint.rs` L172-236), before deduplication. The
code handles the reply actions of an action and of its reply actions in two places with the same
result. -/
def Action.bodyFields : Action → List Text
  | .grpc head _ _ msg onReply => head.pred.respFields ++ msg.respFields ++ bodyFieldsList onReply
  | .deny head denyWith => head.pred.respFields ++ denyWith.respFields
  | .headers head _ value => head.pred.respFields ++ value.respFields
  | .store head _ value _ => head.pred.respFields ++ value.respFields
  | .fail head => head.pred.respFields

def bodyFieldsList : List Action → List Text
  | [] => []
  | a :: as => a.bodyFields ++ bodyFieldsList as

end

/-- `blueprint.rs` L172-236 `collect_body_values` for a top-level action. The result of the code is in
hash order; here it is sorted. -/
def collectBodyValues (requestData : List Expr) (a : Action) : List Text :=
  sortDedup (requestData.flatMap (·.respFields) ++ a.bodyFields)

/-- `blueprint.rs` L20-24 `Blueprint`. -/
structure Blueprint where
  name : Text
  routePredicates : List Expr
  actions : List Action

/-- `blueprint.rs` L381-386. -/
def Blueprint.tracingEnabled (b : Blueprint) : Bool :=
  b.actions.any fun
    | .grpc _ (.tracing (some _)) .. => true
    | _ => false

/-- Tasks and teardown actions of one action (`blueprint.rs` L389-434). -/
def actionTasks (c : Ctx H) (requestData : List Expr) (tracing : Bool) (a : Action) :
    Option (List PTask × List Text × Ctx H) :=
  match a.toCore o c with
  | none => none
  | some (t, c) =>
    match a with
    | .grpc _ (.tracing upstream) .. => some ([.core t], upstream.toList, c)
    | .grpc _ (.call _ _ deny) .. =>
      let fields := collectBodyValues requestData a
      let pre : List PTask := if fields.isEmpty then [] else [.core (.tokenUsage none fields)]
      let t : PTask := .failureMode (.core t) deny
      some (pre ++ [if tracing then .tracing t else t], [], c)
    | _ => some ([.core t], [], c)

/-- The loop of `blueprint.rs` L388-435. -/
def tasksLoop (c : Ctx H) (requestData : List Expr) (tracing : Bool) :
    List Action → Option (List PTask × List Text × Ctx H)
  | [] => some ([], [], c)
  | a :: as =>
    match actionTasks o c requestData tracing a with
    | none => none
    | some (ts, td, c) =>
      match tasksLoop c requestData tracing as with
      | none => none
      | some (ts', td', c) => some (ts ++ ts', td ++ td', c)

/-- `blueprint.rs` L373-438 `to_tasks`; `none` is a panic. -/
def Blueprint.toTasks (b : Blueprint) (c : Ctx H) (requestData : List Expr) :
    Option (List PTask × List Text × Ctx H) :=
  tasksLoop o c requestData b.tracingEnabled b.actions

end

/-- Fields shared by typed actions, `configuration.rs` L54-65. -/
structure TypedHead where
  predicate : Text
  terminal : Bool := false
  guard : Bool := true
  sequential : Bool := false

/-- `configuration.rs` L54-122 `TypedAction` with its operation. -/
inductive TypedAction where
  | grpc (head : TypedHead) (service : Text) (var : Text) (message : Text) (onReply : List TypedAction)
  | deny (head : TypedHead) (denyWith : Text)
  | headers (head : TypedHead) (target : Target) (value : Text)
  | store (head : TypedHead) (path : Text) (value : Text) (exportToHost : Bool)
  | fail (head : TypedHead)

def TypedAction.head : TypedAction → TypedHead
  | .grpc h .. => h
  | .deny h _ => h
  | .headers h .. => h
  | .store h .. => h
  | .fail h => h

/-- `configuration.rs` L126-129 `ActionConfig`. For a legacy action the model keeps the service it names
and its translation (`legacy_translation.rs`) for each kind of service. -/
inductive ActionConfig where
  | typed (a : TypedAction)
  | legacy (service : Text) (translation : SvcKind → TypedAction)

/-- Number to text (`usize::to_string`). -/
def natText (n : Nat) : Text := (toString n).toList

/-- One step of `compute_dependencies`: `(last_fence, pending_parallel)` and the index give the
dependencies and the next state (`blueprint.rs` L333-363). -/
def depStep (i : Nat) (fence par : List Nat) : ActionConfig → List Nat × List Nat × List Nat
  | .legacy .. => (if 0 < i then [i - 1] else [], fence, par ++ [i])
  | .typed a =>
    if a.head.sequential then (fence ++ par, [i], [])
    else (fence, fence, par ++ [i])

/-- The loop of `blueprint.rs` L333-363 from index `i` on, on indices. -/
def depLoop (i : Nat) (fence par : List Nat) : List ActionConfig → List (List Nat)
  | [] => []
  | a :: as =>
    let (deps, fence, par) := depStep i fence par a
    deps :: depLoop (i + 1) fence par as

/-- `blueprint.rs` L328-366 `compute_dependencies`. The code works on the printed indices. -/
def computeDeps (actions : List ActionConfig) : List (List Text) :=
  (depLoop 0 [] [] actions).map (·.map natText)

section
variable (parse : Text → Option Expr) (services : Text → Option SvcInst)

mutual

/-- `blueprint.rs` L475-576 `compile_typed`; `none` is any compile error. -/
def compileTyped (id : Text) : TypedAction → Option Action
  | .grpc h service var message onReply =>
    match parse h.predicate, services service with
    | some pred, some (.call kind svc deny) =>
      match compileReplies id 0 onReply, parse message with
      | some replies, some msg =>
        some (.grpc { id, pred, terminal := h.terminal, guard := h.guard } (.call kind svc deny) var msg
          replies)
      | _, _ => none
    | _, _ => none
  | .deny h denyWith =>
    match parse h.predicate, parse denyWith with
    | some pred, some e => some (.deny { id, pred, terminal := h.terminal, guard := h.guard } e)
    | _, _ => none
  | .headers h target value =>
    match parse h.predicate, parse value with
    | some pred, some e => some (.headers { id, pred, terminal := h.terminal, guard := h.guard } target e)
    | _, _ => none
  | .store h path value exportToHost =>
    match parse h.predicate, parse value with
    | some pred, some e =>
      some (.store { id, pred, terminal := h.terminal, guard := h.guard } path e exportToHost)
    | _, _ => none
  | .fail h =>
    match parse h.predicate with
    | some pred => some (.fail { id, pred, terminal := h.terminal, guard := h.guard })
    | none => none

/-- The reply actions from index `idx` on, `blueprint.rs` L512-523. -/
def compileReplies (id : Text) (idx : Nat) : List TypedAction → Option (List Action)
  | [] => some []
  | a :: as =>
    if a.head.sequential then none
    else
      match compileTyped (id ++ '.' :: natText idx) a, compileReplies id (idx + 1) as with
      | some x, some xs => some (x :: xs)
      | _, _ => none

end

/-- `blueprint.rs` L443-473 `Action::compile` and L300-316. -/
def compileAction (i : Nat) (deps : List Text) : ActionConfig → Option Action
  | .typed a => (compileTyped parse services (natText i) a).map (·.withDeps deps)
  | .legacy service translation =>
    match services service with
    | some (.call kind _ _) =>
      if kind = .dynamic then none
      else (compileTyped parse services (natText i) (translation kind)).map (·.withDeps deps)
    | _ => none

/-- The loop of `blueprint.rs` L295-317 from index `i` on. -/
def compileLoop (i : Nat) : List (ActionConfig × List Text) → Option (List Action)
  | [] => some []
  | (a, deps) :: as =>
    match compileAction parse services i deps a, compileLoop (i + 1) as with
    | some x, some xs => some (x :: xs)
    | _, _ => none

/-- `configuration.rs` L132-144 `ActionSet`. -/
structure ActionSet where
  name : Text
  hostnames : List Text
  predicates : List Text
  actions : List ActionConfig

/-- All or nothing parsing (`collect::<Result<_, _>>`). -/
def parseAll : List Text → Option (List Expr)
  | [] => some []
  | t :: ts => match parse t, parseAll ts with
    | some e, some es => some (e :: es)
    | _, _ => none

/-- `blueprint.rs` L279-324 `Blueprint::compile`. -/
def Blueprint.compile (config : ActionSet) : Option Blueprint :=
  match parseAll parse config.predicates,
    compileLoop parse services 0 (config.actions.zip (computeDeps config.actions)) with
  | some routePredicates, some actions => some { name := config.name, routePredicates, actions }
  | _, _ => none

end

end Verif
