import Verif.Lemmas.HeaderGet
import Verif.Lemmas.Truth
import Verif.Lemmas.Identity
import Verif.Props.Failure
/-! Direct replies and the request id: C48 and C46. -/
set_option linter.unusedSimpArgs false
namespace Verif.Props
open Verif Spec

variable {H : Type} (o : Oracle H)

/-- C48: a deny action that is started, wherever it stands, and whose predicate and expression evaluate, sends
the reply its expression describes, with the tracking header exactly when one is configured. -/
theorem C48_reply (parse : Text → Option Expr) (cfg : PluginConfig) (factory : Factory) (host : H)
    (s : ActionSet) (hs : ServedBy o parse cfg factory host s)
    (x : Text) (head : TypedHead) (source : Text) (hat : At cfg.services s x (.deny head source))
    (pred e : Expr) (hp : parse head.predicate = some pred) (he : parse source = some e)
    (events : List (Event H)) (pre post : List Effect)
    (hlog : (Filter.run o factory host events).log = pre ++ .applied x :: post)
    (fields : List (Text × Val))
    (hd : ∀ c : Ctx H, Acting o factory host events c → c.log = pre ++ [.applied x] → ∃ name c' c'',
      tests o c x pred = (.available true, c') ∧ evalExpr o c' x e = (.available (.struct name fields), c''))
    (hs' : Headers)
    (hh : fields.lookup "headers".toList = some (.list (hs'.map fun p => .list [.str p.1, .str p.2])) ∨
      fields.lookup "headers".toList = none ∧ hs' = []) :
    ∃ status body r accepted rest,
      post = .denied :: .reply status (hs' ++ (trackingHeader cfg).toList.map (·, r)) body accepted :: rest ∧
      (∀ n, fields.lookup "status".toList = some (.uint n) → n < 2 ^ 32 → status = n) ∧
      (fields.lookup "status".toList = none → status = 500) ∧
      (fields.lookup "body".toList = none ∨ fields.lookup "body".toList = some (.str []) → body = none) ∧
      (∀ t, t ≠ [] → fields.lookup "body".toList = some (.str t) → body = some t) := by
  by_cases hb : ∃ p, factory.build o { host := host } = .pipeline p
  · obtain ⟨p, hb⟩ := hb
    obtain ⟨b, hbuilt, hfs⟩ := servedBy_fromSet hs hb
    have hbegun := servedBy_begun hs hb
    have htasks : Tasks (OnlyAt x (.sendReply x pred e head.terminal)) p [] := by
      refine fromSet_tasks hbuilt hfs hat (fun k hk h => absurd h hk) ?_
      intro y deps k hco hm hid hw
      cases hco with
      | deny _ _ _ pred' e' hp' he' =>
        rw [hp] at hp'; cases hp'
        rw [he] at he'; cases he'
        cases hm
        rfl
    have hrun := (tracker_inv (o := o) (onlyAt_closed x (.sendReply x pred e head.terminal) (by simp) (by simp))
      (trackingHeader cfg)).after_run (x := x)
      (Q := fun pre post => (∀ c : Ctx H, Acting o factory host events c → c.log = pre ++ [.applied x] → ∃ name c' c'',
          tests o c x pred = (.available true, c') ∧
          evalExpr o c' x e = (.available (.struct name fields), c'')) →
        ∃ r accepted rest, post = .denied :: .reply (readDeny fields).1
          ((readDeny fields).2.1 ++ tracked (trackingHeader cfg) r) (readDeny fields).2.2 accepted :: rest)
      ?_ ?_ hb htasks hbegun.tracker pre post hlog hd
    · obtain ⟨r, accepted, rest, hpost⟩ := hrun
      refine ⟨(readDeny fields).1, (readDeny fields).2.2, r, accepted, rest, ?_, ?_, ?_, ?_, ?_⟩
      · rw [hpost]
        congr 3
        have : (readDeny fields).2.1 = hs' := by
          simp only [readDeny, fieldValue_lookup]
          rcases hh with hh | ⟨hh, rfl⟩
          · rw [hh]; exact headerPairs_lists hs'
          · rw [hh]
        rw [this]
        rfl
      · intro n hn hlt
        simp only [readDeny, fieldValue_lookup, hn]
        exact Nat.mod_eq_of_lt hlt
      · intro hn
        simp only [readDeny, fieldValue_lookup, hn]
      · rintro (hn | hn) <;> simp only [readDeny, fieldValue_lookup, hn]
      · intro t ht hn
        simp only [readDeny, fieldValue_lookup, hn]
    · intro pre post es h hd
      obtain ⟨r, accepted, rest, h1⟩ := h hd
      exact ⟨r, accepted, rest ++ es, by rw [h1]; rfl⟩
    · intro k c es hk hid hw hj hac hl hd
      rw [hk hid hw] at hl
      obtain ⟨name, c', c'', h1, h2⟩ := hd (c.push (.applied x)) hac rfl
      rw [← testPred_tests] at h1
      have hst := (testPred_steady (o := o) (c.push (.applied x)) x pred).trans
        (by rw [h1]; exact evalExpr_steady (o := o) c' x e)
      rw [h2] at hst
      simp only [Core.apply, applySendReply, h1, h2] at hl
      obtain ⟨r, accepted, h3, _⟩ := finishReply_log (o := o) c'' fields head.terminal
      rw [h3, hst.log, hst.tracker] at hl
      have := List.append_cancel_left (as := c.log ++ [.applied x]) hl
      refine ⟨r, accepted, [], ?_⟩
      rw [← this]
      show _ = [_, Effect.reply _ (_ ++ tracked (trackingHeader cfg) r) _ _]
      rw [← hj]
      rfl
  · exfalso
    have := unrelated_run_idle (o := o) factory host events (fun p hp => hb ⟨p, hp⟩) (.applied x)
      (by rw [hlog]; simp)
    simp [Effect.unrelated] at this

/-- The action set of the examples. -/
def demoSet (actions : List ActionConfig) : ActionSet :=
  { name := "demo".toList, hostnames := ["*.com".toList, "Example.com".toList],
    predicates := ["true".toList], actions }

/-- A call whose reply action denies. -/
def denyingCall : List ActionConfig := [Demo.grpc "deny" [Demo.deny]]

theorem denying_served : ServedBy Demo.world Demo.parse (Demo.config denyingCall (some "x-id") true)
    (Demo.factory (Demo.config denyingCall (some "x-id") true)) 0 (demoSet denyingCall) :=
  ⟨_, _, rfl, rfl, rfl⟩

/-- The reply action of a call denies with status 403 and, in developer mode, the tracking header. -/
example : ∃ status body r accepted rest,
    (Demo.request denyingCall [.grpcResponse 1 0 0 5] (some "x-id") true).drop 10 =
      .denied :: .reply status ([] ++ [("x-id".toList, r)]) body accepted :: rest ∧ status = 403 ∧ body = none := by
  obtain ⟨status, body, r, accepted, rest, h1, h2, _, h4, _⟩ := C48_reply Demo.world Demo.parse _ _ 0 _
    denying_served "0.0".toList { predicate := "true".toList, terminal := true } "deny".toList
    (.reply (j := 0) (.top (i := 0) rfl rfl) rfl) _ _ rfl rfl [.grpcResponse 1 0 0 5] _ _
    (applied_at _ 9 "0.0".toList (by decide +kernel)) [("status".toList, .uint 403)]
    (fun _ _ _ => ⟨_, _, _, rfl, rfl⟩) [] (.inr ⟨rfl, rfl⟩)
  exact ⟨status, body, r, accepted, rest, h1, h2 403 rfl (by decide), h4 (.inl rfl)⟩

/-- Expressions of the demo and one with a status that needs more than 32 bits. -/
def wideParse (t : Text) : Option Expr :=
  if t = "wide".toList then some (Demo.const (.struct "DenyResponse".toList
    [("status".toList, .uint (2 ^ 32 + 200))]))
  else Demo.parse t

/-- C48, limits: a status beyond 32 bits is cut, here to 200. -/
theorem C48_truncated : ∃ (cfg : PluginConfig) (factory : Factory) (events : List (Event Nat)),
    Factory.tryFrom wideParse cfg = some factory ∧
    wideParse "wide".toList = some (Demo.const (.struct "DenyResponse".toList
      [("status".toList, .uint (2 ^ 32 + 200))])) ∧
    cfg.actionSets = [demoSet [.typed (.deny { predicate := "true".toList, terminal := true } "wide".toList)]] ∧
    ((Filter.run Demo.world factory 0 events).log.filterMap fun
      | .reply status .. => some status
      | _ => none) = [200] :=
  ⟨Demo.config [.typed (.deny { predicate := "true".toList, terminal := true } "wide".toList)],
    ((Factory.tryFrom wideParse (Demo.config
      [.typed (.deny { predicate := "true".toList, terminal := true } "wide".toList)])).getD {}), [],
    rfl, rfl, rfl, by decide +kernel⟩

/-- C46: every use of the request id within a request sees the same id: the calls, the tracking header of direct
replies, and the response header of developer mode. For the response header the CEL parser is assumed to read
`[['name', 'id']]` as the list it denotes when the id has neither quotes nor backslashes. -/
theorem C46_same_id (parse : Text → Option Expr) (cfg : PluginConfig) (factory : Factory)
    (hf : Factory.tryFrom parse cfg = some factory) (host : H) (events : List (Event H)) :
    ∃ r,
      (∀ id guard token svc message rid,
        .dispatch id guard token svc message rid ∈ (Filter.run o factory host events).log → rid = r) ∧
      (∀ name, trackingHeader cfg = some name →
        (.hits ∈ (Filter.run o factory host events).log → ∀ status hs body accepted,
          .reply status hs body accepted ∈ (Filter.run o factory host events).log →
          ∃ hs', hs = hs' ++ [(name, r)]) ∧
        ('\'' ∉ r → '\\' ∉ r →
          (∀ e, o.parse ("[['".toList ++ name ++ "', '".toList ++ r ++ "']]".toList) = some e →
            e.lit = some (.list [.list [.str name, .str r]])) →
          ∀ pre post, (Filter.run o factory host events).log = pre ++ .applied "kuadrant.devMode".toList :: post →
          (∀ c : Ctx H, Acting o factory host events c → c.log = pre ++ [.applied "kuadrant.devMode".toList] → ∃ hs h,
            o.getHeaders c .response = (.available hs, h) ∧ ∀ new,
              (o.setHeaders (c.withHost h) .response new).1 = .available ()) →
          ∃ new rest, post = .headersSet .response new :: rest ∧
            new.filter (fun p => p.1 = name) = [(name, r)])) := by
  by_cases hb : ∃ p, factory.build o { host := host } = .pipeline p
  · obtain ⟨p, hb⟩ := hb
    have hbegun := tryFrom_begun hf hb
    have hsame := begun_sameId (F := fun _ => True) hbegun (fun _ _ => trivial)
    have hsid : CtxInvAt o (Acting o factory host events) (Hearing o factory host events) (fun _ => True)
        (SameId o (fun _ => True) (trackingHeader cfg)) := sameId_inv
      ⟨fun _ _ _ _ => trivial, fun _ _ _ _ _ _ _ _ _ => trivial, fun _ _ => trivial⟩ _ (fun _ _ _ _ => trivial)
    have hinv := fun (Q : List Effect → Prop) hQ => hsid.run hb
      (fun t _ => Core.all_of (fun _ => trivial) _) hsame (Q := Q) hQ
    cases hn : trackingHeader cfg with
    | none =>
      obtain ⟨r, hr⟩ := hinv (fun log => ∃ r, ∀ id guard token svc message rid,
        .dispatch id guard token svc message rid ∈ log → rid = r) (by
        intro c hc
        cases hrid : c.requestId with
        | none =>
          refine ⟨[], ?_⟩
          intro id g tok svc b rid hm
          have := hc.calls _ _ _ _ _ _ hm
          rw [hrid] at this
          simp at this
        | some r =>
          refine ⟨r, ?_⟩
          intro id g tok svc b rid hm
          have := hc.calls _ _ _ _ _ _ hm
          rw [hrid] at this
          simpa using this.symm)
      exact ⟨r, hr, by simp⟩
    | some name =>
      obtain ⟨r, e, h1, h2, h3, h4⟩ := hbegun.tracked name hn
      refine ⟨r, ?_, ?_⟩
      · have := hsid.and (rid_inv (o := o) (P := fun _ => True)
          ⟨fun _ _ _ _ => trivial, fun _ _ _ _ _ _ _ _ _ => trivial, fun _ _ => trivial⟩ r).at
        refine this.run hb (fun t _ => Core.all_of (fun _ => trivial) _) ⟨hsame, h1⟩
          (Q := fun log => ∀ id guard token svc message rid,
            .dispatch id guard token svc message rid ∈ log → rid = r) ?_
        rintro c ⟨hc, hrid⟩ id g tok svc b rid hm
        have := hc.calls _ _ _ _ _ _ hm
        rw [hrid] at this
        simpa using this.symm
      · rintro _ ⟨⟩
        refine ⟨?_, ?_⟩
        · intro _
          have := hsid.and (rid_inv (o := o) (P := fun _ => True)
            ⟨fun _ _ _ _ => trivial, fun _ _ _ _ _ _ _ _ _ => trivial, fun _ _ => trivial⟩ r).at
          refine this.run hb (fun t _ => Core.all_of (fun _ => trivial) _) ⟨hsame, h1⟩
            (Q := fun log => ∀ status hs body accepted,
              .reply status hs body accepted ∈ log → ∃ hs', hs = hs' ++ [(name, r)]) ?_
          rintro c ⟨hc, hrid⟩ st hs b a hm
          obtain ⟨hs', r', h5, h6⟩ := hc.replies name hn _ _ _ _ hm
          rw [hrid] at h5
          cases h5
          exact ⟨hs', h6⟩
        · intro _ _ hparse pre post hlog hd
          have hlit := hparse e h3
          have htasks : Tasks (OnlyAt devId (.headers devId truePred e .response false)) p [] :=
            fun t ht => (h4 t ht).imp fun k hk hid _ => hk hid
          exact (rid_inv (o := o) (onlyAt_closed devId (.headers devId truePred e .response false) (by simp)
            (by simp)) r).after_run (x := devId)
            (Q := fun pre post => (∀ c : Ctx H, Acting o factory host events c → c.log = pre ++ [.applied devId] → ∃ hs h,
              o.getHeaders c .response = (.available hs, h) ∧ ∀ new,
              (o.setHeaders (c.withHost h) .response new).1 = .available ()) →
              ∃ new rest, post = .headersSet .response new :: rest ∧
                new.filter (fun p => p.1 = name) = [(name, r)])
            (by
              intro pre post es h hd
              obtain ⟨new, rest, h5, h6⟩ := h hd
              exact ⟨new, rest ++ es, by rw [h5]; rfl, h6⟩)
            (by
              intro k c es hk hid hw hj hac hl hd
              rw [hk hid hw] at hl
              obtain ⟨hs, h, h5, h6⟩ := hd (c.push (.applied devId)) hac rfl
              obtain ⟨new, hnew, hnf⟩ := tracking_headers (o := o) (c.push (.applied devId)) devId e name r hs h hlit h5 h6
              rw [show (Core.headers devId truePred e Target.response false).apply o (c.push (.applied devId)) =
                applyHeaders o (c.push (.applied devId)) devId truePred e .response false from rfl, hnew] at hl
              have := List.append_cancel_left (as := c.log ++ [.applied devId]) hl
              exact ⟨new, [], this.symm, hnf⟩)
            hb htasks h1 pre post hlog hd
  · have hidle := unrelated_run_idle (o := o) factory host events (fun p hp => hb ⟨p, hp⟩)
    refine ⟨[], ?_, ?_⟩
    · intro id g tok svc b rid hm
      have := hidle _ hm
      simp [Effect.unrelated] at this
    · intro name _
      refine ⟨?_, ?_⟩
      · intro hm
        have := hidle _ hm
        simp [Effect.unrelated] at this
      · intro _ _ _ pre post hlog
        have := hidle (.applied "kuadrant.devMode".toList) (by rw [hlog]; simp)
        simp [Effect.unrelated] at this

/-- The request id read from headers that have one. -/
theorem idFrom_header {F : Ctx H → Prop} {log : List Effect} {r x : Text} (h : IdFrom o F log r)
    (hx : ∀ c : Ctx H, F c → c.log = log → ∃ hs, (o.getHeaders c .request).1 = .available hs ∧
      hs.lookup "x-request-id".toList = some x) : r = x := by
  obtain ⟨c, h0, h1, h2, h3⟩ := h
  obtain ⟨hs, h4, h5⟩ := hx c h0 h1
  unfold requestId at h3
  rw [h2] at h3
  dsimp only at h3
  rw [h4] at h3
  dsimp only at h3
  rw [get_lookup, h5] at h3
  exact h3.symm

theorem idFrom_uuid {F : Ctx H → Prop} {log : List Effect} {r : Text} (h : IdFrom o F log r)
    (hx : ∀ (c : Ctx H) hs, F c → (o.getHeaders c .request).1 = .available hs →
      hs.lookup "x-request-id".toList = none) :
    ∃ c, F c ∧ r = (o.uuid (c.withHost (o.getHeaders c .request).2)).1 := by
  obtain ⟨c, h0, h1, h2, h3⟩ := h
  refine ⟨c, h0, ?_⟩
  unfold requestId at h3
  rw [h2] at h3
  dsimp only at h3
  cases hg : (o.getHeaders c .request).1 with
  | available hs =>
    rw [hg] at h3
    dsimp only at h3
    rw [get_lookup, hx c hs h0 hg] at h3
    exact h3.symm
  | pending => rw [hg] at h3; exact h3.symm
  | err => rw [hg] at h3; exact h3.symm

/-- The point where the request id of a call was determined. -/
theorem call_origin (parse : Text → Option Expr) (cfg : PluginConfig) (factory : Factory)
    (hf : Factory.tryFrom parse cfg = some factory) (host : H) (events : List (Event H))
    (pre post : List Effect) (id : Text) (guard : Bool) (token : Nat) (svc : Svc) (message : Bytes) (rid : Text)
    (hlog : (Filter.run o factory host events).log =
      pre ++ .dispatch id guard token svc message rid :: post) :
    (∃ early late, pre = early ++ late ∧ IdFrom o (Occurs o factory host events) early rid) ∧
    (trackingHeader cfg ≠ none → IdFrom o (Prepared o { host := host }) [] rid) := by
  by_cases hb : ∃ p, factory.build o { host := host } = .pipeline p
  · obtain ⟨p, hb⟩ := hb
    have hbegun := tryFrom_begun hf hb
    have hcl : Closed fun _ : Core => True :=
      ⟨fun _ _ _ _ => trivial, fun _ _ _ _ _ _ _ _ _ => trivial, fun _ _ => trivial⟩
    constructor
    · have hsame := begun_sameId hbegun (F := Occurs o factory host events) fun c hc => .inl hc
      have hsid : CtxInvAt o (Acting o factory host events) (Hearing o factory host events) (fun _ => True)
          (SameId o (Occurs o factory host events) (trackingHeader cfg)) :=
        sameId_inv hcl _ fun a c ha hc => .inr ⟨a, ha, hc⟩
      refine hsid.run hb (fun t _ => Core.all_of (fun _ => trivial) _) hsame
        (Q := fun log => log = pre ++ .dispatch id guard token svc message rid :: post → _) ?_ hlog
      intro c hc hl
      have hrid := hc.calls id guard token svc message rid (by rw [hl]; simp)
      obtain ⟨a, b, h1, h2, h3, h4⟩ := hc.origin rid hrid
      rw [hl] at h1
      rcases List.append_eq_append_iff.1 h1 with ⟨r, h5, h6⟩ | ⟨r, h5, h6⟩
      · cases r with
        | nil => exact ⟨a, [], by simpa using h5.symm, h2⟩
        | cons y r =>
          simp only [List.cons_append, List.cons.injEq] at h6
          have := h3 y (by rw [h5]; simp)
          rw [← h6.1] at this
          simp [Effect.isSend] at this
      · exact ⟨a, r, h5, h2⟩
    · intro hn
      cases hname : trackingHeader cfg with
      | none => exact absurd hname hn
      | some name =>
        obtain ⟨r, e, h1, h2, _⟩ := hbegun.tracked name hname
        have hsame := begun_sameId (F := fun _ => True) hbegun (fun _ _ => trivial)
        have hsid : CtxInvAt o (Acting o factory host events) (Hearing o factory host events) (fun _ => True)
            (SameId o (fun _ => True) (trackingHeader cfg)) := sameId_inv hcl _ (fun _ _ _ _ => trivial)
        have : rid = r := by
          refine (hsid.and (rid_inv (o := o) hcl r).at).run hb (fun t _ => Core.all_of (fun _ => trivial) _) ⟨hsame, h1⟩
            (Q := fun log => log = pre ++ .dispatch id guard token svc message rid :: post → rid = r) ?_ hlog
          rintro c ⟨hc, hr⟩ hl
          have := hc.calls id guard token svc message rid (by rw [hl]; simp)
          rw [hr] at this
          simpa using this.symm
        rw [this]
        exact h2
  · exfalso
    have := unrelated_run_idle (o := o) factory host events (fun p hp => hb ⟨p, hp⟩)
      (.dispatch id guard token svc message rid) (by rw [hlog]; simp)
    simp [Effect.unrelated] at this

/-- C46: calls carry the incoming `x-request-id`, provided the request headers can be read and no action has
replaced them before the first call. -/
theorem C46_incoming (parse : Text → Option Expr) (cfg : PluginConfig) (factory : Factory)
    (hf : Factory.tryFrom parse cfg = some factory) (host : H) (events : List (Event H)) (x : Text)
    (hx : ∀ c : Ctx H, Occurs o factory host events c → (∀ hs, .headersSet .request hs ∉ c.log) → ∃ hs,
      (o.getHeaders c .request).1 = .available hs ∧ hs.lookup "x-request-id".toList = some x)
    (pre post : List Effect) (id : Text) (guard : Bool) (token : Nat) (svc : Svc) (message : Bytes) (rid : Text)
    (hlog : (Filter.run o factory host events).log =
      pre ++ .dispatch id guard token svc message rid :: post)
    (hpre : ∀ hs, .headersSet .request hs ∉ pre) : rid = x := by
  obtain ⟨⟨early, late, h1, h2⟩, _⟩ := call_origin o parse cfg factory hf host events pre post id guard token svc
    message rid hlog
  refine idFrom_header o h2 ?_
  rintro c hc rfl
  exact hx c hc fun hs hm => hpre hs (by rw [h1]; simp [hm])

/-- C46: with a tracking header configured, calls carry the incoming `x-request-id` whatever the actions do. -/
theorem C46_incoming_tracked (parse : Text → Option Expr) (cfg : PluginConfig) (factory : Factory)
    (hf : Factory.tryFrom parse cfg = some factory) (ht : trackingHeader cfg ≠ none)
    (host : H) (events : List (Event H)) (x : Text)
    (hx : ∀ c : Ctx H, Prepared o { host := host } c → ∃ hs,
      (o.getHeaders c .request).1 = .available hs ∧ hs.lookup "x-request-id".toList = some x)
    (id : Text) (guard : Bool) (token : Nat) (svc : Svc) (message : Bytes) (rid : Text)
    (hlog : .dispatch id guard token svc message rid ∈ (Filter.run o factory host events).log) : rid = x := by
  obtain ⟨pre, post, hlog⟩ := List.append_of_mem hlog
  obtain ⟨_, h2⟩ := call_origin o parse cfg factory hf host events pre post id guard token svc message rid hlog
  exact idFrom_header o (h2 ht) fun c hc _ => hx c hc

/-- C46: without an `x-request-id` in the request headers, calls carry an id that was generated in this request. -/
theorem C46_generated (parse : Text → Option Expr) (cfg : PluginConfig) (factory : Factory)
    (hf : Factory.tryFrom parse cfg = some factory) (host : H) (events : List (Event H))
    (hx : ∀ (c : Ctx H) hs, Occurs o factory host events c → (o.getHeaders c .request).1 = .available hs →
      hs.lookup "x-request-id".toList = none)
    (id : Text) (guard : Bool) (token : Nat) (svc : Svc) (message : Bytes) (rid : Text)
    (hlog : .dispatch id guard token svc message rid ∈ (Filter.run o factory host events).log) :
    ∃ c, Occurs o factory host events c ∧ rid = (o.uuid (c.withHost (o.getHeaders c .request).2)).1 := by
  obtain ⟨pre, post, hlog⟩ := List.append_of_mem hlog
  obtain ⟨⟨early, late, h1, h2⟩, _⟩ := call_origin o parse cfg factory hf host events pre post id guard token svc
    message rid hlog
  exact idFrom_uuid o h2 hx

/-- In developer mode a call and a later deny show the same id. -/
example : ∃ r, (∀ id guard token svc message rid, .dispatch id guard token svc message rid ∈
      Demo.request denyingCall [.grpcResponse 1 0 0 5] (some "x-id") true → rid = r) ∧
    (∀ status hs body accepted, .reply status hs body accepted ∈
      Demo.request denyingCall [.grpcResponse 1 0 0 5] (some "x-id") true →
      ∃ hs', hs = hs' ++ [("x-id".toList, r)]) ∧
    Demo.view (Demo.request denyingCall [.grpcResponse 1 0 0 5] (some "x-id") true) =
      ["hits", "start 0", "call 0 guard token 0", "start kuadrant.devMode", "headers x-id=id",
       "completed kuadrant.devMode", "pause", "response 0 status 0", "completed 0", "start 0.0", "denied",
       "reply 403", "ended", "teardown", "export token 1"] := by
  obtain ⟨r, h1, h2⟩ := C46_same_id Demo.world Demo.parse (Demo.config denyingCall (some "x-id") true) _
    (Demo.factory_eq _ (by decide +kernel)) 0 [.grpcResponse 1 0 0 5]
  exact ⟨r, h1, (h2 _ rfl).1 (by
    have : ∀ (l : List Effect), (l.head?.any fun | .hits => true | _ => false) = true → .hits ∈ l := by
      intro l h
      cases l with
      | nil => simp at h
      | cons e l => cases e <;> simp at h ⊢
    exact this _ (by decide +kernel)), by decide +kernel⟩

/-- The response header of developer mode shows the id of the call. -/
example : ∃ new rest, (Demo.request denyingCall [] (some "x-id") true).drop 4 =
      .headersSet .response new :: rest ∧
      new.filter (fun p => p.1 = "x-id".toList) = [("x-id".toList, "id".toList)] := by
  obtain ⟨r, h1, h2⟩ := C46_same_id Demo.world Demo.parse (Demo.config denyingCall (some "x-id") true) _
    (Demo.factory_eq _ (by decide +kernel)) 0 []
  have hmem : "id".toList ∈ (Demo.request denyingCall [] (some "x-id") true).filterMap
      (fun | .dispatch _ _ _ _ _ rid => some rid | _ => none) := by decide +kernel
  obtain ⟨e, he, hrid⟩ := List.mem_filterMap.1 hmem
  have hr : "id".toList = r := by
    split at hrid
    · cases hrid; exact h1 _ _ _ _ _ _ he
    · cases hrid
  subst hr
  exact (h2 "x-id".toList rfl).2 (by decide) (by decide) (by rintro e ⟨⟩; rfl) _ _
    (applied_at _ 3 "kuadrant.devMode".toList (by decide +kernel))
    (fun _ _ _ => ⟨[], _, rfl, fun _ => rfl⟩)

/-- A world in which requests have the id `a` and the filter sees the headers it has set. -/
def headerWorld : Oracle Nat :=
  { Demo.world with
    getHeaders := fun c _ => (.available (c.log.foldl (fun hs e => match e with
      | .headersSet .request new => new
      | _ => hs) [("x-request-id".toList, "a".toList)]), c.host) }

theorem headerWorld_request (c : Ctx Nat) (h : ∀ hs, .headersSet .request hs ∉ c.log) :
    ∃ hs, (headerWorld.getHeaders c .request).1 = .available hs ∧
      hs.lookup "x-request-id".toList = some "a".toList := by
  have key : ∀ (l : List Effect) (hs0 : Headers), (∀ hs, .headersSet .request hs ∉ l) →
      l.foldl (fun hs e => match e with
        | .headersSet .request new => new
        | _ => hs) hs0 = hs0 := by
    intro l
    induction l with
    | nil => intro hs0 _; rfl
    | cons e l ih =>
      intro hs0 h
      have h' : ∀ hs, .headersSet .request hs ∉ l := fun hs hm => h hs (by simp [hm])
      rw [List.foldl_cons, ih _ h']
      cases e with
      | headersSet t new =>
        cases t with
        | request => exact absurd (List.mem_cons_self) (h new)
        | response => rfl
      | _ => rfl
  exact ⟨_, rfl, by rw [key _ _ h]; rfl⟩

/-- The call carries the incoming id. -/
example : ∀ id guard token svc message rid, .dispatch id guard token svc message rid ∈
      (Filter.run headerWorld (Demo.factory (Demo.config denyingCall (some "x-id") true)) 0 []).log →
      rid = "a".toList :=
  C46_incoming_tracked headerWorld Demo.parse _ _ (Demo.factory_eq (Demo.config denyingCall (some "x-id") true)
    (by decide +kernel)) (by decide +kernel) 0 [] "a".toList (fun c hc => headerWorld_request c (by rw [hc.log]; simp))

/-- Without a header the id is generated. -/
example : ∀ id guard token svc message rid, .dispatch id guard token svc message rid ∈
      Demo.request denyingCall [] → rid = "id".toList := by
  intro id guard token svc message rid hm
  obtain ⟨c, h⟩ := C46_generated Demo.world Demo.parse _ _ (Demo.factory_eq (Demo.config denyingCall)
    (by decide +kernel)) 0 [] (by rintro c hs _ ⟨⟩; rfl) id guard token svc message rid hm
  exact h.2

/-- Expressions of the demo and one that sets `x-request-id`. -/
def rewriteParse (t : Text) : Option Expr :=
  if t = "rewrite".toList then
    some (Demo.const (.list [.list [.str "x-request-id".toList, .str "b".toList]]))
  else Demo.parse t

/-- C46, limits: without a tracking header the id is fixed by the first call, so an action that replaces
`x-request-id` before it changes the id: the request came with `a` and the call carries `b`. -/
theorem C46_rewritten : ∃ (cfg : PluginConfig) (factory : Factory) (events : List (Event Nat)),
    Factory.tryFrom rewriteParse cfg = some factory ∧
    (∀ c : Ctx Nat, (∀ hs, .headersSet .request hs ∉ c.log) → ∃ hs,
      (headerWorld.getHeaders c .request).1 = .available hs ∧
      hs.lookup "x-request-id".toList = some "a".toList) ∧
    ((Filter.run headerWorld factory 0 events).log.filterMap fun
      | .dispatch _ _ _ _ _ rid => some rid
      | _ => none) = ["b".toList] :=
  ⟨Demo.config [.typed (.headers { predicate := "true".toList } .request "rewrite".toList), Demo.grpc "deny"],
    ((Factory.tryFrom rewriteParse (Demo.config
      [.typed (.headers { predicate := "true".toList } .request "rewrite".toList), Demo.grpc "deny"])).getD {}), [],
    rfl, headerWorld_request, by decide +kernel⟩

end Verif.Props
