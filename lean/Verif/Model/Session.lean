import Verif.Model.World
/-!
A request together with the host: what the filter of `Model/Filter.lean` leaves behind in the host after each
callback (`crates/wasm-shim/src/filter/kuadrant_filter.rs`).
-/
namespace Verif

section
variable {H : Type} (o : Oracle H)

/-- The host state in which a callback runs. -/
def Event.host : Event H → H
  | .requestBody h _ _ => h
  | .responseHeaders h => h
  | .responseBody h _ _ => h
  | .grpcResponse h _ _ _ => h

/-- The same callback with another host state. -/
def Event.map {K : Type} (f : H → K) : Event H → Event K
  | .requestBody h size eos => .requestBody (f h) size eos
  | .responseHeaders h => .responseHeaders (f h)
  | .responseBody h size eos => .responseBody (f h) size eos
  | .grpcResponse h token status size => .grpcResponse (f h) token status size

/-- The host after `Filter.start` (`kuadrant_filter.rs` L91-139). -/
def Filter.startHost (factory : Factory) (host : H) : H :=
  match factory.build o { host := host } with
  | .panic => host
  | .pipeline p => ((p.push .hits).evalPipe o).ctx.host
  | .noMatch c => c.host
  | .error c => (o.sendReply (c.push .errors) 500 [] (some defaultBody)).2

/-- The host after `Filter.evalWith`. -/
def Filter.evalHost (f : Filter H) (host : H) (update : Ctx H → Ctx H) : H :=
  match f.pipeline with
  | none => host
  | some p => ({ f.enter host p with ctx := update (f.enter host p).ctx }.evalPipe o).ctx.host

/-- The host after `Filter.step` (`kuadrant_filter.rs` L46-218). -/
def Filter.hostAfter (f : Filter H) (e : Event H) : H :=
  if f.crashed then e.host
  else match e with
    | .requestBody host size eos => f.evalHost o host (setReq size eos)
    | .responseHeaders host => ({ f.push .allowed with inResponse := true } : Filter H).evalHost o host id
    | .responseBody host size eos => f.evalHost o host (setResp size eos)
    | .grpcResponse host token status size => match f.pipeline with
      | none => host
      | some p => ((f.enter host p).digestPipe o token status size).ctx.host

end

/-- A request in progress and the host, with the attributes that were read so far. -/
structure Session (W : Type) where
  filter : Filter (Attrs W)
  host : Attrs W

namespace World

variable {W : Type} (w : World W)

/-- The request headers arrive; nothing has been read yet (`context.rs` L37-51). -/
def begin (factory : Factory) (world : W) : Session W where
  filter := Filter.start w.oracle factory { world }
  host := Filter.startHost w.oracle factory { world }

/-- A later callback. The host may have changed in between; what was read is still known. -/
def callback (s : Session W) (e : Event W) : Session W where
  filter := s.filter.step w.oracle (e.map fun world => { s.host with world })
  host := s.filter.hostAfter w.oracle (e.map fun world => { s.host with world })

/-- A request: the request headers, then any callbacks. -/
def session (factory : Factory) (world : W) (events : List (Event W)) : Session W :=
  events.foldl w.callback (w.begin factory world)

end World

end Verif
