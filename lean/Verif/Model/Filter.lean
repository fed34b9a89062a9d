import Verif.Model.Factory
/-!
Model of `crates/wasm-shim/src/filter/kuadrant_filter.rs`.
-/
namespace Verif

/-- `kuadrant_filter.rs` L10-16 `KuadrantFilter`. `log` is the history of the request and `crashed` is
set by a panic, after which the virtual machine runs no more callbacks. -/
structure Filter (H : Type) where
  pipeline : Option (Pipe H) := none
  inResponse : Bool := false
  forceResume : Bool := false
  log : List Effect := []
  crashed : Bool := false

/-- Callbacks after the request headers. Each carries the host state in which it runs. -/
inductive Event (H : Type) where
  | requestBody (host : H) (size : Nat) (eos : Bool)
  | responseHeaders (host : H)
  | responseBody (host : H) (size : Nat) (eos : Bool)
  | grpcResponse (host : H) (token status size : Nat)

namespace Filter

variable {H : Type} (o : Oracle H)

/-- `kuadrant_filter.rs` L29-31 `should_pause`. -/
def shouldPause (f : Filter H) : Bool :=
  match f.pipeline with
  | some p => p.requiresPause
  | none => false

/-- `kuadrant_filter.rs` L34-42 `should_resume` for the pipeline in progress. -/
def shouldResume (f : Filter H) (p : Pipe H) : Bool :=
  if p.terminated && f.inResponse then !p.requiresPause else !p.terminated && !p.requiresPause

def push (f : Filter H) (e : Effect) : Filter H := { f with log := f.log ++ [e] }

/-- Take over the state of a pipeline after evaluation (e.g. `kuadrant_filter.rs` L103-110). -/
def store (f : Filter H) : PState H → Filter H
  | .inProgress p => { f with pipeline := some p, log := p.ctx.log }
  | .completed _ c => { f with pipeline := none, log := c.log }

/-- The pipeline at the start of a callback: the host may have changed. -/
def enter (f : Filter H) (host : H) (p : Pipe H) : Pipe H :=
  { p with ctx := { p.ctx with host := host, log := f.log } }

/-- `kuadrant_filter.rs` L91-139 `on_http_request_headers` on a new filter. -/
def start (factory : Factory) (host : H) : Filter H :=
  let c : Ctx H := { host := host }
  match factory.build o c with
  | .panic => { crashed := true }
  | .pipeline p =>
    let f := Filter.store {} ((p.push .hits).eval o)
    f.push (.returned .requestHeaders f.shouldPause)
  | .noMatch c => { log := c.log ++ [.misses, .returned .requestHeaders false] }
  | .error c =>
    let c := c.push .errors
    let (accepted, _) := o.sendReply c 500 [] (some defaultBody)
    let log := c.log ++ [.reply 500 [] (some defaultBody) accepted]
    if accepted then { log := log ++ [.returned .requestHeaders false] } else { log, crashed := true }

/-- Evaluate the pipeline, if there is one, after an update of its context. -/
def evalWith (f : Filter H) (host : H) (update : Ctx H → Ctx H) : Filter H :=
  match f.pipeline with
  | none => f
  | some p =>
    let p := f.enter host p
    f.store ({ p with ctx := update p.ctx }.eval o)

/-- Updates of the body contexts (`context.rs` L476-480 `set_buffer_size`). -/
def setReq (size : Nat) (eos : Bool) (c : Ctx H) : Ctx H := { c with req := { c.req with size, eos } }
def setResp (size : Nat) (eos : Bool) (c : Ctx H) : Ctx H := { c with resp := { c.resp with size, eos } }

/-- `kuadrant_filter.rs` L141-164 `on_http_request_body`. -/
def onRequestBody (f : Filter H) (host : H) (size : Nat) (eos : Bool) : Filter H :=
  let f := f.evalWith o host (setReq size eos)
  f.push (.returned .requestBody f.shouldPause)

/-- `kuadrant_filter.rs` L166-187 `on_http_response_headers`. -/
def onResponseHeaders (f : Filter H) (host : H) : Filter H :=
  let f := { f.push .allowed with inResponse := true }
  let f := f.evalWith o host id
  f.push (.returned .responseHeaders f.shouldPause)

/-- `kuadrant_filter.rs` L189-218 `on_http_response_body`. -/
def onResponseBody (f : Filter H) (host : H) (size : Nat) (eos : Bool) : Filter H :=
  let f := f.evalWith o host (setResp size eos)
  if f.shouldPause then f.push (.returned (.responseBody eos) true)
  else if f.pipeline.isSome && eos then
    { f with forceResume := true }.push (.returned (.responseBody eos) true)
  else f.push (.returned (.responseBody eos) false)

/-- `kuadrant_filter.rs` L68-83: resume the stream. -/
def resume (f : Filter H) : Filter H := f.push (if f.inResponse then .resumeResponse else .resumeRequest)

/-- `kuadrant_filter.rs` L46-87 `on_grpc_call_response`. -/
def onGrpcResponse (f : Filter H) (host : H) (token status size : Nat) : Filter H :=
  match f.pipeline with
  | none => f.push (.responded token status size)
  | some p =>
    let st := (f.enter host p).digest o token status size
    let f' := f.store st
    let again := match st with
      | .inProgress p => f'.shouldResume p
      | .completed shouldResume _ => shouldResume || f.forceResume || f.inResponse
    if again then f'.resume else f'

/-- One callback. -/
def step (f : Filter H) (e : Event H) : Filter H :=
  if f.crashed then f
  else match e with
    | .requestBody host size eos => f.onRequestBody o host size eos
    | .responseHeaders host => f.onResponseHeaders o host
    | .responseBody host size eos => f.onResponseBody o host size eos
    | .grpcResponse host token status size => f.onGrpcResponse o host token status size

/-- A request: the request headers, then any callbacks. -/
def run (factory : Factory) (host : H) (events : List (Event H)) : Filter H :=
  events.foldl (step o) (start o factory host)

end Filter

end Verif
