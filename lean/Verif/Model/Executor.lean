import Verif.Model.Task
/-!
Model of `crates/kuadrant-filter/src/kuadrant/pipeline/executor.rs`.
-/
namespace Verif

/-- `executor.rs` L22-29 `Pipeline`. `completed` is used as a set. A teardown action is the export of
traces to the named upstream (`tasks/export_traces.rs` L7-9). -/
structure Pipe (H : Type) where
  ctx : Ctx H
  queue : List PTask := []
  deferred : List (Nat × PTask) := []
  completed : List Text := []
  teardown : List Text := []
  terminated : Bool := false

/-- `executor.rs` L12-15 `PipelineState`. A completed pipeline is dropped; its context is kept here for
the history. -/
inductive PState (H : Type) where
  | inProgress (p : Pipe H)
  | completed (shouldResume : Bool) (ctx : Ctx H)

namespace Pipe

variable {H : Type} (o : Oracle H)

/-- `executor.rs` L31-41 `From<Pipeline>`. -/
def state (p : Pipe H) : PState H :=
  if p.queue.isEmpty && p.deferred.isEmpty then .completed (!p.terminated) p.ctx else .inProgress p

def push (p : Pipe H) (e : Effect) : Pipe H := { p with ctx := p.ctx.push e }

/-- Record an action as completed (`completed_tasks.insert`). -/
def complete (p : Pipe H) (id : Text) : Pipe H :=
  { p with completed := id :: p.completed }.push (.completed id)

/-- `deferred_tasks.insert`: replaces an entry with the same token. -/
def defer (p : Pipe H) (token : Nat) (t : PTask) : Pipe H :=
  { p with deferred := mapInsert p.deferred token t }

/-- `executor.rs` L69-85 `replace_deferred_with_noop`. -/
def replaceNoop (p : Pipe H) : Pipe H :=
  { p with deferred := p.deferred.map fun (token, t) => (token, .core (.noop t.id t.isGuard)) }

/-- The id of the entry created for a trace export, `executor.rs` L96. -/
def teardownId (token : Nat) : Text := "teardown_".toList ++ (toString token).toList

/-- `executor.rs` L90-104 with `tasks/export_traces.rs` L19-45. -/
def runTeardownAction (p : Pipe H) (upstream : Text) : Pipe H :=
  let p := p.push .teardown
  match o.exportSpans p.ctx upstream with
  | (none, h) => { p with ctx := p.ctx.withHost h }
  | (some token, h) =>
    ({ p with ctx := p.ctx.withHost h }.push (.exported token)).defer token
      (.core (.noop (teardownId token) false))

/-- `executor.rs` L87-106 `execute_teardown`. -/
def executeTeardown (p : Pipe H) : Pipe H :=
  let p := p.replaceNoop
  p.teardown.foldl (runTeardownAction o) { p with teardown := [] }

/-- The reaction to `TaskOutcome::Terminate` (`executor.rs` L136-140 and L197-200). -/
def terminate (p : Pipe H) (t : PTask) : Pipe H :=
  let p := { p with ctx := (t.apply o p.ctx).2, queue := [], terminated := true }
  p.push .ended

/-- `executor.rs` L108-145 `process_tasks`; the flag says `Terminated`. -/
def processTasks (p : Pipe H) : List PTask → Pipe H × Bool
  | [] => (p, false)
  | t :: ts =>
    if t.deps.any (fun d => !p.completed.contains d) then
      processTasks { p with queue := p.queue ++ [t] } ts
    else
      let (out, c) := t.apply o (p.ctx.push (.applied t.id))
      let p := { p with ctx := c }
      match out with
      | .done => processTasks (p.complete t.id) ts
      | .deferred token pending => processTasks (p.defer token pending) ts
      | .requeued new => processTasks { p with queue := p.queue ++ new } ts
      | .failed => processTasks (p.push (.failed t.id)) ts
      | .terminate terminal => (p.terminate o terminal, true)

/-- `executor.rs` L147-164 `eval`, before the conversion to a state. -/
def evalPipe (p : Pipe H) : Pipe H :=
  match processTasks o { p with queue := [] } p.queue with
  | (p, true) => p.executeTeardown o
  | (p, false) =>
    if p.queue.isEmpty && p.deferred.isEmpty && !p.teardown.isEmpty then p.executeTeardown o else p

/-- `executor.rs` L147-164 `eval`. -/
def eval (p : Pipe H) : PState H := (p.evalPipe o).state

/-- `deferred_tasks.remove`. -/
def removeToken (p : Pipe H) (token : Nat) : Pipe H :=
  { p with deferred := p.deferred.filter (fun e => e.1 ≠ token) }

/-- `context.rs` L105-117 `set_grpc_response_data`; an error is only logged. -/
def setResponse (p : Pipe H) (status size : Nat) : Pipe H :=
  match p.ctx.grpc with
  | some _ => p
  | none => { p with ctx := { p.ctx with grpc := some (status, size) } }

/-- `executor.rs` L166-211 `digest`, before the conversion to a state. -/
def digestPipe (p : Pipe H) (token status size : Nat) : Pipe H :=
  let p := p.push (.responded token status size)
  match mapGet p.deferred token with
  | none => p.evalPipe o
  | some pending =>
    let p := (p.removeToken token).setResponse status size
    let (out, c) := pending.apply o p.ctx
    let p := { p with ctx := c }
    match out with
    | .done => (p.complete pending.id).evalPipe o
    | .requeued ts =>
      let p := p.complete pending.id
      { p with queue := ts ++ p.queue }.evalPipe o
    | .deferred token t => (p.defer token t).evalPipe o
    | .failed => (p.push (.failed pending.id)).evalPipe o
    | .terminate terminal => ((p.terminate o terminal).executeTeardown o).evalPipe o

/-- `executor.rs` L166-211 `digest`. -/
def digest (p : Pipe H) (token status size : Nat) : PState H := (p.digestPipe o token status size).state

/-- `executor.rs` L213-215 `requires_pause`. -/
def requiresPause (p : Pipe H) : Bool := 0 < p.ctx.barrier

end Pipe

end Verif
