import Verif.Lemmas.HostMoments
import Verif.Props.Identity
import Verif.Props.Session
/-! C46 on the composed model: the request id when the host's headers are all that is assumed. -/
set_option linter.unusedSimpArgs false
namespace Verif.Props
open Verif Spec

theorem mem_escapeDots {c : Char} {t : Text} (hc : c ≠ '.') (h : c ∈ t) : c ∈ escapeDots t := by
  unfold escapeDots
  refine List.mem_flatMap.2 ⟨c, h, ?_⟩
  rw [if_neg hc]
  exact List.mem_cons_self

theorem mem_joinWith {c : Char} {sep : Text} : ∀ {ts : List Text} {t : Text}, t ∈ ts → c ∈ t → c ∈ joinWith sep ts
  | [_], t, ht, hc => by
    cases List.mem_singleton.1 ht
    exact hc
  | u :: v :: ts, t, ht, hc => by
    rw [joinWith]
    · rcases List.mem_cons.1 ht with rfl | ht
      · simp [hc]
      · have := mem_joinWith (sep := sep) ht hc
        simp [this]
    · simp

/-- No other path is written like that of the headers. -/
theorem print_headers {p : Path} {t : Target} (h : p.print = (headersPath t).print) : p = headersPath t := by
  refine print_inj ⟨?_, ?_⟩ (clean_headers t) h
  · rintro rfl
    revert h
    cases t <;> decide
  · intro u hu hm
    have : '\\' ∈ p.print := mem_joinWith (List.mem_map_of_mem hu) (mem_escapeDots (by decide) hm)
    rw [h] at this
    revert this
    cases t <;> decide

variable {W : Type}

theorem prepared_grows (w : World W) {a c : Ctx (Attrs W)} (h : Prepared w.oracle a c) :
    Grows w.abi a.host c.host := by
  induction h with
  | none => exact Grows.refl _
  | hostname _ ih => exact ih.trans (grows_hostname _ _)
  | ensured es _ ih => exact ih.trans (grows_oracle_ensure _ _ es)
  | attributes e _ ih => exact ih.trans (grows_attrs _ _ e)
  | value vars e _ ih => exact ih.trans (grows_resolve _ _ vars e)
  | headers t _ ih => exact ih.trans (grows_getHeaders _ _ t)
  | named name _ ih => exact ih

theorem fetch_request (w : World W) {world : W} {m : Headers} (hm : w.abi.getMap world .request = .ok m) (hne : m ≠ []) :
    fetchAttribute w.abi.backend world (headersPath .request) = (.ok (.headers m), world) := by
  unfold fetchAttribute
  rw [if_pos rfl]
  have : w.abi.backend.getMap world .request = (.ok m, world) := by
    simp only [Abi.backend, Abi.map, hm]
    cases m with
    | nil => exact absurd rfl hne
    | cons _ _ => rfl
  rw [this]

/-- While the actions of a request are set up, the headers are those that the host has. -/
theorem prepared_headers (w : World W) {world : W} {m : Headers} (hm : w.abi.getMap world .request = .ok m) (hne : m ≠ [])
    {c : Ctx (Attrs W)} (h : Prepared w.oracle { host := { world } } c) :
    ∃ s, w.oracle.getHeaders c .request = (.available m, s) := by
  have hg := prepared_grows w h
  have hfetch := fetch_request w hm hne
  simp only [World.oracle, Attrs.read]
  split
  · rename_i v hv
    rcases hg.new _ _ hv with h1 | ⟨p, h1, h2⟩
    · simp [mapGet] at h1
    · cases print_headers h1
      dsimp only at h2
      rw [hfetch] at h2
      cases h2
      exact ⟨_, rfl⟩
  · rw [hg.world]
    dsimp only
    rw [hfetch]
    exact ⟨_, rfl⟩

/-- When the pipeline of a request is built, its headers are known. -/
theorem build_headers (w : World W) (factory : Factory) {world : W} {m : Headers}
    (hm : w.abi.getMap world .request = .ok m) (hne : m ≠ []) {p : Pipe (Attrs W)}
    (hb : factory.build w.oracle { host := { world } } = .pipeline p) :
    On (fun s l => ∃ new, l = [] ++ new ∧ ((∃ e ∈ new, WritesKey (headersPath .request).print e) ∨
      mapGet s.cache (headersPath .request).print = some (.headers m))) p.ctx := by
  have hi := (snapshot_inv (w := w) (headersPath .request).print (.headers m) []).hostInv
  have hq := select_steady (o := w.oracle) factory { host := { world } }
  unfold Factory.build at hb
  split at hb
  · cases hb
  · cases hb
  · rename_i b c1 heq
    rw [heq] at hq
    obtain ⟨s, hs⟩ := prepared_headers w hm hne hq.steps
    dsimp only at hb
    rw [hs] at hb
    split at hb
    · cases hb
    · rename_i ts td c2 heq2
      split at hb
      · cases hb
      · cases hb
        refine hi.tasksLoop _ _ _ _ ?_ heq2
        exact ⟨[], hq.log, .inr (getHeaders_known w hs)⟩

/-- The headers that the request id was taken from, if no action had written the request headers. -/
theorem origin_headers (w : World W) (factory : Factory) {world : W} {m : Headers}
    (hm : w.abi.getMap world .request = .ok m) (hne : m ≠ []) (events : List (Event W)) {p : Pipe (Attrs W)}
    (hb : factory.build w.oracle { host := { world } } = .pipeline p) :
    ∃ events', (w.session factory world events).filter = Filter.run w.oracle factory { world } events' ∧
      ∀ c, Occurs w.oracle factory { world } events' c → (∀ e ∈ c.log, ¬ WritesKey (headersPath .request).print e) →
        (w.oracle.getHeaders c .request).1 = .available m := by
  obtain ⟨events', _, hf, hall⟩ := session_moments w factory world events
  refine ⟨events', hf, ?_⟩
  rintro c (hc | ⟨a, ha, hc⟩) hw
  · obtain ⟨s, hs⟩ := prepared_headers w hm hne hc
    rw [hs]
  · have hi := (snapshot_inv (w := w) (headersPath .request).print (.headers m) []).hostInv
    obtain ⟨_, h1⟩ := hall _ hi (fun p hb => build_headers w factory hm hne hb) (fun _ _ _ _ h => h) p hb
    obtain ⟨new, h2, h3⟩ := hi.asked (h1 a ha) hc
    rcases h3 with ⟨e, he, hk⟩ | h3
    · exact absurd hk (hw e (by rw [h2]; exact he))
    · exact read_cached (as := asHeaders) h3

/-- A call was made, so there is a pipeline. -/
theorem call_built {H : Type} (o : Oracle H) (factory : Factory) (host : H) (events : List (Event H)) {id : Text} {guard : Bool}
    {token : Nat} {svc : Svc} {message : Bytes} {rid : Text}
    (h : .dispatch id guard token svc message rid ∈ (Filter.run o factory host events).log) :
    ∃ p, factory.build o { host := host } = .pipeline p := by
  by_cases hb : ∃ p, factory.build o { host := host } = .pipeline p
  · exact hb
  · exfalso
    have := unrelated_run_idle (o := o) factory host events (fun p hp => hb ⟨p, hp⟩) _ h
    simp [Effect.unrelated] at this

/-- C46 on the host: the calls of a request carry the `x-request-id` that the host's headers had when the request
came, whatever the host answers later, unless an action has written the request headers before the call. -/
theorem C46_incoming_on_host (w : World W) (parse : Text → Option Expr) (cfg : PluginConfig) (factory : Factory)
    (hf : Factory.tryFrom parse cfg = some factory) (world : W) (events : List (Event W)) (m : Headers) (x : Text)
    (hm : w.abi.getMap world .request = .ok m) (hx : m.lookup "x-request-id".toList = some x)
    (pre post : List Effect) (id : Text) (guard : Bool) (token : Nat) (svc : Svc) (message : Bytes) (rid : Text)
    (hlog : (w.session factory world events).filter.log = pre ++ .dispatch id guard token svc message rid :: post)
    (hpre : ∀ e ∈ pre, ¬ WritesKey "request.headers".toList e) : rid = x := by
  have hne : m ≠ [] := by rintro rfl; simp at hx
  obtain ⟨ev, _, hrun, _⟩ := session_moments w factory world events
  obtain ⟨p, hb⟩ := call_built w.oracle factory { world } ev (id := id) (guard := guard) (token := token) (svc := svc)
    (message := message) (rid := rid) (by rw [← hrun, hlog]; simp)
  obtain ⟨events', hrun, hocc⟩ := origin_headers w factory hm hne events hb
  obtain ⟨⟨early, late, h1, h2⟩, _⟩ := call_origin w.oracle parse cfg factory hf { world } events' pre post id guard token
    svc message rid (by rw [← hrun, hlog])
  refine idFrom_header w.oracle h2 ?_
  rintro c hc rfl
  exact ⟨m, hocc c hc fun e he => hpre e (by rw [h1]; exact List.mem_append_left _ he), hx⟩

/-- C46 on the host: with a tracking header, whatever the actions write. -/
theorem C46_incoming_tracked_on_host (w : World W) (parse : Text → Option Expr) (cfg : PluginConfig) (factory : Factory)
    (hf : Factory.tryFrom parse cfg = some factory) (ht : trackingHeader cfg ≠ none) (world : W) (events : List (Event W))
    (m : Headers) (x : Text) (hm : w.abi.getMap world .request = .ok m)
    (hx : m.lookup "x-request-id".toList = some x)
    (id : Text) (guard : Bool) (token : Nat) (svc : Svc) (message : Bytes) (rid : Text)
    (hlog : .dispatch id guard token svc message rid ∈ (w.session factory world events).filter.log) : rid = x := by
  have hne : m ≠ [] := by rintro rfl; simp at hx
  obtain ⟨ev, _, hrun, _⟩ := session_moments w factory world events
  rw [hrun] at hlog
  refine C46_incoming_tracked w.oracle parse cfg factory hf ht { world } ev x (fun c hc => ?_) id guard token svc message
    rid hlog
  obtain ⟨s, hs⟩ := prepared_headers w hm hne hc
  exact ⟨m, by rw [hs], hx⟩

/-- C46 on the host: without `x-request-id` in the headers, the calls carry a new UUID. -/
theorem C46_generated_on_host (w : World W) (parse : Text → Option Expr) (cfg : PluginConfig) (factory : Factory)
    (hf : Factory.tryFrom parse cfg = some factory) (world : W) (events : List (Event W)) (m : Headers)
    (hm : w.abi.getMap world .request = .ok m) (hne : m ≠ []) (hx : m.lookup "x-request-id".toList = none)
    (pre post : List Effect) (id : Text) (guard : Bool) (token : Nat) (svc : Svc) (message : Bytes) (rid : Text)
    (hlog : (w.session factory world events).filter.log = pre ++ .dispatch id guard token svc message rid :: post)
    (hpre : ∀ e ∈ pre, ¬ WritesKey "request.headers".toList e) : ∃ c, rid = w.uuid c := by
  obtain ⟨ev, _, hrun, _⟩ := session_moments w factory world events
  obtain ⟨p, hb⟩ := call_built w.oracle factory { world } ev (id := id) (guard := guard) (token := token) (svc := svc)
    (message := message) (rid := rid) (by rw [← hrun, hlog]; simp)
  obtain ⟨events', hrun, hocc⟩ := origin_headers w factory hm hne events hb
  obtain ⟨⟨early, late, h1, h2⟩, _⟩ := call_origin w.oracle parse cfg factory hf { world } events' pre post id guard token
    svc message rid (by rw [← hrun, hlog])
  obtain ⟨c, h3, h4, h5, h6⟩ := h2
  have h7 := hocc c h3 fun e he => hpre e (by rw [h1, ← h4]; exact List.mem_append_left _ he)
  obtain ⟨d, _, h8⟩ := idFrom_uuid w.oracle (F := (· = c)) (log := early) (r := rid) ⟨c, rfl, h4, h5, h6⟩ (by
    rintro _ hs rfl hs'
    rw [h7] at hs'
    cases hs'
    exact hx)
  exact ⟨_, h8⟩

/-- A property is written and then come two calls, the second after the answer to the first. By then the host has
other headers. -/
def changing (header : Text) : Session Hosted.Proxy := Hosted.world.session
  (Hosted.factory [Hosted.store "a" "null" true, Demo.grpc "deny", Demo.grpc "deny" (sequential := true)])
  { request := [(header, "r1".toList)] }
  [.grpcResponse { request := [("x-request-id".toList, "r2".toList)], token := 1 } 0 0 5]

/-- The ids of calls. -/
def idsOf (log : List Effect) : List Text := log.filterMap fun
  | .dispatch _ _ _ _ _ rid => some rid
  | _ => none

/-- Does the effect write the request headers? -/
def writesRequest : Effect → Bool
  | .headersSet .request _ => true
  | .attrSet path _ _ => (Path.parse path).print = "request.headers".toList
  | _ => false

theorem writesRequest_sound {e : Effect} (h : writesRequest e = false) : ¬ WritesKey "request.headers".toList e := by
  intro hw
  unfold WritesKey at hw
  split at hw
  · rename_i t hs
    cases t with
    | request => cases h
    | response => revert hw; decide
  · rw [writesRequest, ← hw] at h
    simp at h
  · exact hw

/-- Both calls carry the id of the request, not that which the host gave later; without an id, both carry the new one. -/
example : idsOf (changing "x-request-id".toList).filter.log = ["r1".toList, "r1".toList] ∧
    idsOf (changing "x".toList).filter.log = ["id".toList, "id".toList] := by
  constructor <;> decide +kernel

theorem changing_quiet (header : Text) (h : ((changing header).filter.log.all fun e => !writesRequest e) = true)
    {pre post : List Effect} {x : Effect} (hl : (changing header).filter.log = pre ++ x :: post) :
    ∀ e ∈ pre, ¬ WritesKey "request.headers".toList e := by
  intro e he
  have := List.all_eq_true.1 h e (by rw [hl]; simp [he])
  exact writesRequest_sound (by simpa using this)

example (pre post : List Effect) (id : Text) (guard : Bool) (token : Nat) (svc : Svc) (message : Bytes) (rid : Text)
    (hlog : (changing "x-request-id".toList).filter.log = pre ++ .dispatch id guard token svc message rid :: post) :
    rid = "r1".toList :=
  C46_incoming_on_host Hosted.world Hosted.world.oracle.parse
    (Demo.config [Hosted.store "a" "null" true, Demo.grpc "deny", Demo.grpc "deny" (sequential := true)]) _ rfl _ _ _ _ rfl
    rfl pre post id guard token svc message rid hlog (changing_quiet _ (by decide +kernel) hlog)

example (pre post : List Effect) (id : Text) (guard : Bool) (token : Nat) (svc : Svc) (message : Bytes) (rid : Text)
    (hlog : (changing "x".toList).filter.log = pre ++ .dispatch id guard token svc message rid :: post) :
    ∃ c, rid = Hosted.world.uuid c :=
  C46_generated_on_host Hosted.world Hosted.world.oracle.parse
    (Demo.config [Hosted.store "a" "null" true, Demo.grpc "deny", Demo.grpc "deny" (sequential := true)]) _ rfl _ _
    [("x".toList, "r1".toList)] rfl (by simp) rfl pre post id guard token svc message rid hlog
    (changing_quiet _ (by decide +kernel) hlog)

/-- With a tracking header, even though the first action writes the request headers. -/
def overwriting : Session Hosted.Proxy := Hosted.world.session
  ((Factory.tryFrom Hosted.world.oracle.parse (Demo.config [Hosted.headers "more", Demo.grpc "deny"] (some "x-id") true)).getD {})
  { request := [("x-request-id".toList, "r1".toList)] } []

example : idsOf overwriting.filter.log = ["r1".toList] ∧ (overwriting.filter.log.any writesRequest) = true := by
  constructor <;> decide +kernel

example (id : Text) (guard : Bool) (token : Nat) (svc : Svc) (message : Bytes) (rid : Text)
    (hlog : .dispatch id guard token svc message rid ∈ overwriting.filter.log) : rid = "r1".toList :=
  C46_incoming_tracked_on_host Hosted.world Hosted.world.oracle.parse
    (Demo.config [Hosted.headers "more", Demo.grpc "deny"] (some "x-id") true) _ rfl (by decide) _ _ _ _ rfl rfl id guard
    token svc message rid hlog

end Verif.Props
