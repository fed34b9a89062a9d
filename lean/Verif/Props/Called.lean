import Verif.Lemmas.CalledFirst
/-!
C83: the services are called exactly when the conditions of their actions hold of what the host says.
-/
namespace Verif.Props
open Verif Verif.Spec Verif.Legacy Verif.Cel

variable {W : Type} (w : World W)

/-- A fact that stands still stands when an action is started. -/
theorem Stands.applied {abi : Abi W} {json : JsonLib} {world : W} {services : Text → Option SvcInst} {s : ActionSet}
    {log : List Effect} {f : Fact} (h : f.Stands abi json world services s log) (x : Text) :
    f.Stands abi json world services s (log ++ [.applied x]) where
  given := h.given
  visible := h.visible
  simple := h.simple
  free := h.free
  unwritten e he := by
    rcases List.mem_append.1 he with he | he
    · exact h.unwritten e he
    · cases List.mem_singleton.1 he
      exact id

theorem parse_read {t : Text} {x : CelExpr} (h : w.lib.cel t = some x) : ∃ e, w.oracle.parse t = some e := by
  unfold World.oracle
  dsimp only
  rw [h]
  exact ⟨_, rfl⟩

theorem dispatch_takes {bytes : Bytes} (svc : Svc) (rid : Text)
    (htakes : ∀ x call, call.message = bytes → ∃ token, (w.abi.dispatch x call).1 = .ok token) (d : Ctx (Attrs W)) :
    ∃ token, (w.oracle.dispatch d svc bytes rid).1 = some token := by
  unfold World.oracle
  dsimp only
  generalize hcall : GrpcCall.mk _ _ _ _ bytes _ = call
  obtain ⟨token, ht⟩ := htakes d.host.world call (by rw [← hcall])
  unfold Abi.dispatchCall
  generalize w.abi.dispatch d.host.world call = q at ht
  obtain ⟨r, y⟩ := q
  cases ht
  exact ⟨token, rfl⟩

/-- C83: when a translated action is started, its predicate is true of what the host says about the request, this
gives its message a value that can be encoded, and the host takes calls, the service is called at once with this
message. Authorization, rate limit and check calls hold the request. -/
theorem C83_called (cfg : PluginConfig) (factory : Factory) (world : W) (s : ActionSet)
    (hs : ServedBy w.oracle w.oracle.parse cfg factory { world } s) (i : Nat) (a : LegacyAction) (data : RequestData)
    (hi : s.actions[i]? = some (a.config data)) (kind : SvcKind) (svc : Svc) (deny : Bool)
    (hsvc : cfg.services a.service = some (.call kind svc deny)) (hdyn : kind ≠ .dynamic)
    (events : List (Event W))
    (hres : ∀ c, Fetching w.oracle factory { world } (w.trail factory world events) c →
      ∀ path n, (path, n) ∈ w.reserved c → KeepsAt cfg.services s path)
    (pre post : List Effect) (hlog : (w.session factory world events).filter.log = pre ++ .applied (natText i) :: post)
    (facts : List Fact) (hfacts : ∀ f ∈ facts, f.Stands w.abi w.lib.json world cfg.services s pre)
    (hread : ∀ t ∈ [(translate a data kind).head.predicate, requestOf (translate a data kind)], w.lib.cel t ≠ none)
    (hpred : FactsDecide w.lib facts (translate a data kind).head.predicate (.bool true))
    (v : Val) (hmsg : FactsDecide w.lib facts (requestOf (translate a data kind)) v)
    (bytes : Bytes) (henc : w.lib.encode svc v = some bytes)
    (htakes : ∀ x call, call.message = bytes → ∃ token, (w.abi.dispatch x call).1 = .ok token) :
    ∃ guard token rid rest, post = .dispatch (natText i) guard token svc bytes rid :: rest ∧
      (guard = true ↔ kind = .auth ∨ kind = .rateLimit ∨ kind = .rateLimitCheck) := by
  have hrun := (session_trail w factory world events).2.1
  rw [hrun] at hlog
  have hat : At cfg.services s (natText i) (translate a data kind) :=
    .top hi (by simp [LegacyAction.config, standsFor, hsvc, hdyn])
  have hb : ∃ p, factory.build w.oracle { host := { world } } = .pipeline p := by
    refine Classical.byContradiction fun hb => ?_
    have := unrelated_run_idle (o := w.oracle) factory { world } _ (fun p hp => hb ⟨p, hp⟩) (.applied (natText i))
      (by rw [hlog]; simp)
    simp [Effect.unrelated] at this
  have hshape : ∃ head var message replies, translate a data kind = .grpc head a.service var message replies := by
    cases kind with
    | dynamic => exact absurd rfl hdyn
    | _ => exact ⟨_, _, _, _, rfl⟩
  obtain ⟨head, var, message, replies, hshape⟩ := hshape
  have hparse : ∀ t ∈ [(translate a data kind).head.predicate, requestOf (translate a data kind)],
      ∃ e, w.oracle.parse t = some e := by
    intro t ht
    cases hx : w.lib.cel t with
    | none => exact absurd hx (hread t ht)
    | some x => exact parse_read w hx
  obtain ⟨pe, hpe⟩ := hparse _ (List.mem_cons_self ..)
  obtain ⟨me, hme⟩ := hparse _ (List.mem_cons_of_mem _ (List.mem_cons_self ..))
  rw [hshape] at hat hpred hmsg hpe hme
  simp only [TypedAction.head, requestOf] at hpred hmsg hpe hme
  have hd : ∃ token rid rest, post = .dispatch (natText i) head.guard token svc bytes rid :: rest := by
    refine sent_at_once (o := w.oracle) w.oracle.parse cfg factory { world } s hs (natText i) head a.service var message replies hat kind
      svc deny hsvc pe me hpe hme (w.trail factory world events) pre post hlog bytes ?_
    intro c hc hclog
    have hst : ∀ f ∈ facts, f.Stands w.abi w.lib.json world cfg.services s c.log := by
      intro f hf
      rw [hclog]
      exact Stands.applied (hfacts f hf) _
    obtain ⟨c', h1, h2⟩ := standing_value w hs hb hres hc .none hst hpred hpe (natText i)
    obtain ⟨c'', h3, _⟩ := standing_value w hs hb hres hc h2 hst hmsg hme (natText i)
    refine ⟨c', c'', v, by simp [tests, h1, truth], h3, henc, ?_⟩
    intro d rid _
    exact dispatch_takes w svc rid htakes d
  obtain ⟨token, rid, rest, h⟩ := hd
  refine ⟨_, token, rid, rest, h, ?_⟩
  exact (C59_legacy w.oracle w.oracle.parse cfg factory { world } s hs i a data hi kind svc deny hsvc hdyn _ _
    token svc bytes rid (by rw [hlog, h]; simp)).2

/-- C83: no service is called for a translated action whose predicate is false of what the host says about the
request. -/
theorem C83_spared (cfg : PluginConfig) (factory : Factory) (world : W) (s : ActionSet)
    (hs : ServedBy w.oracle w.oracle.parse cfg factory { world } s) (i : Nat) (a : LegacyAction) (data : RequestData)
    (hi : s.actions[i]? = some (a.config data)) (kind : SvcKind) (svc : Svc) (deny : Bool)
    (hsvc : cfg.services a.service = some (.call kind svc deny)) (hdyn : kind ≠ .dynamic)
    (events : List (Event W))
    (hres : ∀ c, Fetching w.oracle factory { world } (w.trail factory world events) c →
      ∀ path n, (path, n) ∈ w.reserved c → KeepsAt cfg.services s path)
    (facts : List Fact)
    (hfacts : ∀ f ∈ facts, f.Stands w.abi w.lib.json world cfg.services s (w.session factory world events).filter.log)
    (hpred : FactsDecide w.lib facts (translate a data kind).head.predicate (.bool false))
    (guard : Bool) (token : Nat) (svc' : Svc) (bytes : Bytes) (rid : Text) :
    .dispatch (natText i) guard token svc' bytes rid ∉ (w.session factory world events).filter.log := by
  intro hmem
  have hrun := (session_trail w factory world events).2.1
  rw [hrun] at hmem hfacts
  obtain ⟨pre, post, hlog⟩ := List.append_of_mem hmem
  have hat : At cfg.services s (natText i) (translate a data kind) :=
    .top hi (by simp [LegacyAction.config, standsFor, hsvc, hdyn])
  have hb := call_built w.oracle factory { world } _ hmem
  obtain ⟨head, service, var, message, replies, pred, msg, kind', deny', u, after, early, h1, h2, h3, h4, h5, h6, h7, h8⟩ :=
    C59_configured w.oracle w.oracle.parse cfg factory { world } s hs _ _ hat _ pre post guard token svc' bytes rid hlog
  rw [h1] at hpred
  obtain ⟨c, c', hc1, _, hc2, hc3, _⟩ := h7
  obtain ⟨d', h9, _⟩ := standing_value w hs hb hres hc2 .none (fun f hf => by
    have := hfacts f hf
    exact ⟨this.given, this.visible, this.simple, this.free, fun e he => this.unwritten e (by
      rw [hlog]
      exact List.mem_append_left _ (hc1 ▸ he))⟩) hpred h4 (natText i)
  rw [show tests w.oracle c (natText i) pred = (truth (evalExpr w.oracle c (natText i) pred).1, _) from rfl, h9] at hc3
  simp [truth] at hc3

/-- C83: if the first action of the set is such an action, and no tokens are to be counted for it, calling its service is
the first thing that is done for the request. -/
theorem C83_first (cfg : PluginConfig) (factory : Factory) (world : W) (s : ActionSet)
    (hs : ServedBy w.oracle w.oracle.parse cfg factory { world } s) (a : LegacyAction) (data : RequestData)
    (hi : s.actions[0]? = some (a.config data)) (kind : SvcKind) (svc : Svc) (deny : Bool)
    (hsvc : cfg.services a.service = some (.call kind svc deny)) (hdyn : kind ≠ .dynamic)
    (events : List (Event W))
    (hres : ∀ c, Fetching w.oracle factory { world } (w.trail factory world events) c →
      ∀ path n, (path, n) ∈ w.reserved c → KeepsAt cfg.services s path)
    (hhit : .hits ∈ (w.session factory world events).filter.log)
    (htok : .applied "token_usage".toList ∉ (w.session factory world events).filter.log)
    (facts : List Fact) (hfacts : ∀ f ∈ facts, f.Stands w.abi w.lib.json world cfg.services s [])
    (hread : ∀ t ∈ [(translate a data kind).head.predicate, requestOf (translate a data kind)], w.lib.cel t ≠ none)
    (hpred : FactsDecide w.lib facts (translate a data kind).head.predicate (.bool true))
    (v : Val) (hmsg : FactsDecide w.lib facts (requestOf (translate a data kind)) v)
    (bytes : Bytes) (henc : w.lib.encode svc v = some bytes)
    (htakes : ∀ x call, call.message = bytes → ∃ token, (w.abi.dispatch x call).1 = .ok token) :
    ∃ guard token rid rest, (w.session factory world events).filter.log =
        .hits :: .applied (natText 0) :: .dispatch (natText 0) guard token svc bytes rid :: rest ∧
      (guard = true ↔ kind = .auth ∨ kind = .rateLimit ∨ kind = .rateLimitCheck) := by
  have hrun := (session_trail w factory world events).2.1
  rw [hrun] at hhit htok
  obtain ⟨post, hlog⟩ := first_started (o := w.oracle) hs (w.trail factory world events) hhit
    (by intro h; rw [h] at hi; cases hi) htok
  rw [← hrun] at hlog
  obtain ⟨guard, token, rid, rest, h1, h2⟩ := C83_called w cfg factory world s hs 0 a data hi kind svc deny hsvc hdyn events
    hres [.hits] post hlog facts
    (fun f hf => by
      have h := hfacts f hf
      refine ⟨h.given, h.visible, h.simple, h.free, fun e he hw => ?_⟩
      cases List.mem_singleton.1 he
      exact hw)
    hread hpred v hmsg bytes henc htakes
  exact ⟨guard, token, rid, rest, by rw [hlog, h1], h2⟩

end Verif.Props
