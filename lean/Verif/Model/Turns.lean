import Verif.Model.Filter
/-!
Reservations of the value store, and the moments of a request at which expressions may be evaluated.
-/
namespace Verif

mutual

/-- The reservations that a task holds, `tasks/store.rs` L30-63: a store task reserves its path when it is made, and
holds the reservation until it is dropped (`context.rs` L567-585). A call holds the tasks of its reply actions
(`tasks/dynamic.rs` L13-23), and so does what waits for its response (L150-168). -/
def Core.reservations : Core → List Text
  | .grpc _ _ _ _ _ _ _ r => reservationsOf r
  | .pending _ _ _ _ r => reservationsOf r
  | .store _ _ _ path _ _ _ => [path]
  | .sendReply .. => []
  | .headers .. => []
  | .fail .. => []
  | .tokenUsage .. => []
  | .noop .. => []
  | .noopTerminal => []

/-- The reservations of several tasks. -/
def reservationsOf : List Core → List Text
  | [] => []
  | k :: ks => k.reservations ++ reservationsOf ks

end

/-- The decorators hold the task inside (`tasks/failure_mode.rs` L7-10, `tasks/tracing_decorator.rs` L4-9). -/
def PTask.reservations : PTask → List Text
  | .core k => k.reservations
  | .failureMode t _ => t.reservations
  | .tracing t => t.reservations

variable {H : Type} (o : Oracle H)

namespace Pipe

/-- The moments of `processTasks` (`executor.rs` L108-145) at which a task is applied: the context, and the tasks
that exist: those put back, the one applied with those after it, and those waiting for responses. -/
def turns (p : Pipe H) : List PTask → List (Ctx H × List PTask)
  | [] => []
  | t :: ts =>
    if t.deps.any (fun d => !p.completed.contains d) then
      turns { p with queue := p.queue ++ [t] } ts
    else
      (p.ctx.push (.applied t.id), p.queue ++ (t :: ts) ++ p.deferred.map Prod.snd) ::
        match t.apply o (p.ctx.push (.applied t.id)) with
        | (.done, c) => turns ({ p with ctx := c }.complete t.id) ts
        | (.deferred token pending, c) => turns ({ p with ctx := c }.defer token pending) ts
        | (.requeued new, c) => turns { p with ctx := c, queue := p.queue ++ new } ts
        | (.failed, c) => turns ({ p with ctx := c }.push (.failed t.id)) ts
        | (.terminate _, _) => []

/-- The moments of `evalPipe` (`executor.rs` L147-164). -/
def evalTurns (p : Pipe H) : List (Ctx H × List PTask) := turns o { p with queue := [] } p.queue

/-- The moments of `digestPipe` (`executor.rs` L166-211) at which tasks of the queue are applied. A task that
processes a response evaluates no expression. -/
def digestTurns (p : Pipe H) (token status size : Nat) : List (Ctx H × List PTask) :=
  let p := p.push (.responded token status size)
  match mapGet p.deferred token with
  | none => p.evalTurns o
  | some pending =>
    let p := (p.removeToken token).setResponse status size
    match pending.apply o p.ctx with
    | (.done, c) => ({ p with ctx := c }.complete pending.id).evalTurns o
    | (.requeued ts, c) =>
      let p := { p with ctx := c }.complete pending.id
      { p with queue := ts ++ p.queue }.evalTurns o
    | (.deferred token t, c) => ({ p with ctx := c }.defer token t).evalTurns o
    | (.failed, c) => ({ p with ctx := c }.push (.failed pending.id)).evalTurns o
    | (.terminate _, _) => []

end Pipe

namespace Filter

/-- The moments of `start` (`kuadrant_filter.rs` L91-139). -/
def startTurns (factory : Factory) (host : H) : List (Ctx H × List PTask) :=
  match factory.build o { host := host } with
  | .pipeline p => (p.push .hits).evalTurns o
  | _ => []

/-- The moments of one callback. -/
def stepTurns (f : Filter H) (e : Event H) : List (Ctx H × List PTask) :=
  if f.crashed then []
  else match f.pipeline with
    | none => []
    | some p => match e with
      | .requestBody host size eos =>
        let p := f.enter host p
        { p with ctx := setReq size eos p.ctx }.evalTurns o
      | .responseHeaders host => ((f.push .allowed).enter host p).evalTurns o
      | .responseBody host size eos =>
        let p := f.enter host p
        { p with ctx := setResp size eos p.ctx }.evalTurns o
      | .grpcResponse host token status size => (f.enter host p).digestTurns o token status size

/-- The moments of a request: `none` is the callback for the request headers, which comes before all events. -/
def turnsAt (factory : Factory) (host : H) (before : List (Event H)) : Option (Event H) → List (Ctx H × List PTask)
  | none => startTurns o factory host
  | some e => (run o factory host before).stepTurns o e

end Filter

end Verif
