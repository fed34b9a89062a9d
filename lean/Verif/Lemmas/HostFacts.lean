import Verif.Spec.HostFacts
import Verif.Spec.Session
import Verif.Lemmas.CelLib
import Verif.Lemmas.Evaluator
import Verif.Lemmas.Asked
import Verif.Lemmas.ActingValues
import Verif.Props.CelEnv
import Verif.Props.AttrTypes
import Verif.Props.IdentityHost
import Verif.Props.Request
/-! Expressions see what the host says. -/
namespace Verif
open Spec Cel Props Legacy

/-! ### An expression that was evaluated -/

section
variable {W : Type} (w : World W)

/-- The variables of an expression that was evaluated on the host. -/
theorem evaluated_vars {c after : Ctx (Attrs W)} {id : Text} {e : Expr} {v : Val} (hlit : e.lit = none)
    (h : evalExpr w.oracle c id e = (.available v, after)) :
    ∃ d x grpc vars, Asked w.oracle c d ∧ w.lib.cel e.src = some x ∧
      celVars (w.store d) (fun p => (attrGet w.abi.backend w.lib.json d.host p).1) grpc d.req.values d.resp.values
        (scopeVars d.bindings id) (compileExpr x) = .available vars ∧ w.lib.exec e.src vars = some v := by
  unfold evalExpr at h
  rw [hlit] at h
  dsimp only at h
  split at h
  · cases h
  · cases h
  · rename_i u s hs
    split at h
    · have hd : Asked w.oracle c (c.withHost s) := by
        have := Asked.attributes (o := w.oracle) (a := c) e .none
        rw [hs] at this
        exact this
      generalize c.withHost s = d at h hd
      split at h
      · rename_i v' s' hr
        cases h
        simp only [World.oracle, World.compiled] at hr
        cases hx : w.lib.cel e.src with
        | none => rw [hx] at hr; cases hr
        | some x =>
          rw [hx] at hr
          simp only [Option.map_some] at hr
          split at hr
          · rename_i vars hv
            refine ⟨d, x, _, vars, hd, rfl, hv, ?_⟩
            exact (Prod.mk.inj hr).1
          · cases hr
      · cases h
    · cases h

end

/-! ### What it sees -/

theorem refers_long {x : CelExpr} {p : Path} (h : Refers x p) : 2 ≤ p.length := by
  induction h with
  | chain _ h => exact h
  | inside _ _ _ ih => exact ih

/-- An attribute that is mentioned is seen, unless something was stored in its place. -/
theorem seen_attribute {ex : CelExpr} (hplain : PlainExpr ex) {s : ValueStore} {get : Path → Ans Val}
    {grpc : Option Val} {req resp scope vars : List (Text × Val)}
    (h : celVars s get grpc req resp scope (compileExpr ex) = .available vars) {root field : Text}
    (href : Refers ex [root, field]) (hvis : root ∈ visibleRoots) (hgrpc : [root, field] ≠ grpcRoot)
    (h1 : s.get root = none) (h2 : s.get (root ++ '.' :: field) = none) :
    ∃ v, get [root, field] = .available v ∧ seenAt vars [root, field] = some v := by
  obtain ⟨m, r, q, hm, _, _, _, _, hv⟩ := vars_get h
  have hg : ¬grpcRoot <+: [root, field] := fun hp => hgrpc (hp.eq_of_length rfl).symm
  have hp : [root, field] ∈ (compileExpr ex).attributes := (C45_exact ex hplain _).1.mpr ⟨href, hg⟩
  have hne : root ≠ [] ∧ isHostRoot root = true ∧ root ≠ "@responseBodyJSON".toList ∧
      root ≠ "@requestBodyJSON".toList ∧ root ∉ hiddenRoots := by
    simp only [visibleRoots, List.mem_cons, List.not_mem_nil, or_false] at hvis
    rcases hvis with rfl | rfl | rfl | rfl <;> decide
  have habove : ∀ r, Above r [root, field] → r = [root] := by
    intro r hr
    rcases r with _ | ⟨a, _ | ⟨b, as⟩⟩
    · exact absurd rfl hr.1
    · rw [(List.cons_prefix_cons.1 hr.2.1).1]
    · exact absurd (hr.2.1.eq_of_length_le (by simp)) hr.2.2
  have hno : ∀ r, Above r [root, field] → r ∉ (compileExpr ex).attributes := by
    intro r hr hm
    have := compile_long ex r hm
    rw [habove r hr] at this
    simp at this
  have htree := compile_tree ex [root, field] (by simp)
  rw [if_pos ⟨hp, hno⟩] at htree
  have hmain := (map_follow (store := s) (get := get) hm root [field] (.inr hne.1) htree
    (fun r hr => by rw [habove r hr]; exact h1)).2 (by
      show s.get (entryPath (entryPath [] root) field) = none
      rw [show entryPath [] root = root from rfl, entryPath, if_neg hne.1]
      exact h2) (fun hs => by
      have := hs.2.1
      rw [hne.2.1] at this
      cases this)
  obtain ⟨v, h3, h4⟩ := hmain.2 _ rfl
  refine ⟨v, h3, seen_of_follow (hv root hne.2.2.1 hne.2.2.2.1) h4 hne.2.2.2.2 ?_⟩
  rintro rfl
  exact ⟨by simp, fun hh => hgrpc (by cases hh; rfl)⟩

/-- Following the path is what selecting the field does. -/
theorem seenAt_eval {vars : List (Text × Val)} {root field : Text} {v : Val} (hvis : root ∈ visibleRoots)
    (h : seenAt vars [root, field] = some v) : eval (mapGet vars) (Cel.path root [field]) = some v := by
  rw [seenAt] at h
  obtain ⟨m, h1, h2⟩ := Option.bind_eq_some_iff.1 h
  show eval (mapGet vars) (.select (.ident root) field) = some v
  have hc : constant root = none := by
    simp only [visibleRoots, List.mem_cons, List.not_mem_nil, or_false] at hvis
    rcases hvis with rfl | rfl | rfl | rfl <;> decide
  rw [eval, eval, h1, hc]
  cases m <;> simp_all [follow, Cel.field, mapGet_lookup]

/-! ### What the host says -/

theorem not_mem_print {root field : Text} (hr : ∀ c ∈ root, c ≠ '.' ∧ c ≠ '\\') (hf : ∀ c ∈ field, c ≠ '.' ∧ c ≠ '\\') :
    '\\' ∉ Path.print [root, field] ∧ Path.print [root, field] ≠ [] := by
  have he : ∀ t : Text, (∀ c ∈ t, c ≠ '.' ∧ c ≠ '\\') → escapeDots t = t := by
    intro t ht
    unfold escapeDots
    induction t with
    | nil => rfl
    | cons a t ih =>
      rw [List.flatMap_cons, ih fun c hc => ht c (List.mem_cons_of_mem _ hc), if_neg (ht a (List.mem_cons_self ..)).1]
      rfl
  have : Path.print [root, field] = root ++ '.' :: field := by
    unfold Path.print
    simp [joinWith, he root hr, he field hf]
  rw [this]
  refine ⟨?_, by simp⟩
  intro h
  rcases List.mem_append.1 h with h | h
  · exact (hr _ h).2 rfl
  · rcases List.mem_cons.1 h with h | h
    · exact absurd h (by decide)
    · exact (hf _ h).2 rfl

/-- No other path is written like one of plain names. -/
theorem print_plain {p : Path} {root field : Text} (hr : ∀ c ∈ root, c ≠ '.' ∧ c ≠ '\\')
    (hf : ∀ c ∈ field, c ≠ '.' ∧ c ≠ '\\') (h : p.print = Path.print [root, field]) : p = [root, field] := by
  obtain ⟨h1, h2⟩ := not_mem_print hr hf
  refine print_inj ⟨?_, ?_⟩ ⟨by simp, ?_⟩ h
  · rintro rfl
    exact h2 h.symm
  · intro u hu hm
    exact h1 (h ▸ mem_joinWith (List.mem_map_of_mem hu) (mem_escapeDots (by decide) hm))
  · intro u hu hm
    simp only [List.mem_cons, List.not_mem_nil, or_false] at hu
    rcases hu with rfl | rfl
    · exact (hr _ hm).2 rfl
    · exact (hf _ hm).2 rfl

section
variable {W : Type} {w : World W}

/-- What is known of an attribute is what the host always says, unless the filter has written it. -/
theorem steady_inv (k : Text) (v : Cached)
    (h0 : ∀ (x : W) (p : Path) u, p.print = k → (fetchAttribute w.abi.backend x p).1 = .ok u → u = v) :
    SessionInv w fun s l => (∃ e ∈ l, WritesKey k e) ∨ ∀ u, mapGet s.cache k = some u → u = v where
  push s l e _ h := h.imp (fun ⟨x, hx, hw⟩ => ⟨x, List.mem_append_left _ hx, hw⟩) id
  grows s s' l hg h := h.imp id fun h u hu => by
    rcases hg.new _ _ hu with h1 | ⟨p, h1, h2⟩
    · exact h u h1
    · exact h0 _ p u h1 h2
  dispatch c svc m rid id guard call h _ _ _ _ _ _ := by
    generalize w.abi.dispatch c.host.world call = q
    obtain ⟨r, y⟩ := q
    cases r with
    | ok token => exact h.imp (fun ⟨x, hx, hw⟩ => ⟨x, List.mem_append_left _ hx, hw⟩) _root_.id
    | error e => exact h
  exported c call h _ _ _ := by
    generalize w.abi.dispatch c.host.world call = q
    obtain ⟨r, y⟩ := q
    cases r with
    | ok token => exact h.imp (fun ⟨x, hx, hw⟩ => ⟨x, List.mem_append_left _ hx, hw⟩) id
    | error e => exact h
  reply s l status hs body h := by
    generalize w.abi.reply s.world status hs (body.map utf8) = q
    obtain ⟨r, y⟩ := q
    cases r <;> exact h.imp (fun ⟨x, hx, hw⟩ => ⟨x, List.mem_append_left _ hx, hw⟩) id
  headers s l t old pairs h hc hp := by
    generalize w.abi.setMap s.world t (setAll old pairs) = q
    obtain ⟨r, y⟩ := q
    cases r with
    | ok u =>
      by_cases hk : k = (headersPath t).print
      · exact .inl ⟨_, List.mem_append_right _ (.head _), hk⟩
      · refine h.imp (fun ⟨x, hx, hw⟩ => ⟨x, List.mem_append_left _ hx, hw⟩) fun h => ?_
        simp only [Attrs.insert, mapGet_mapInsert, if_neg hk]
        exact h
    | error e => exact h
  property s l path v h := by
    generalize w.abi.setProperty s.world (Attrs.hostPath (Path.parse path)) v = q
    obtain ⟨r, y⟩ := q
    cases r with
    | ok u =>
      by_cases hk : k = (Path.parse path).print
      · exact .inl ⟨_, List.mem_append_right _ (.head _), hk⟩
      · refine h.imp (fun ⟨x, hx, hw⟩ => ⟨x, List.mem_append_left _ hx, hw⟩) fun h => ?_
        simp only [Attrs.insert, mapGet_mapInsert, if_neg hk]
        exact h
    | error e => exact h

variable (w)

theorem fetch_property {x : W} {p : Path} {bytes : Bytes} (hp : p ∉ derived) (hroot : p.head? ≠ some "auth".toList)
    (h : w.abi.getProperty x p = .ok (some bytes)) :
    (fetchAttribute w.abi.backend x p).1 = .ok (.bytes (some bytes)) := by
  unfold fetchAttribute
  rw [if_neg (fun he => hp (by rw [he]; decide)), if_neg (fun he => hp (by rw [he]; decide)),
    if_neg (fun he => hp (by rw [he]; decide)), if_neg hroot]
  simp only [Abi.backend, Abi.property, h]

theorem visible_plain {root : Text} (h : root ∈ visibleRoots) : (∀ c ∈ root, c ≠ '.' ∧ c ≠ '\\') ∧ root ≠ "auth".toList := by
  simp only [visibleRoots, List.mem_cons, List.not_mem_nil, or_false] at h
  rcases h with rfl | rfl | rfl | rfl <;> decide

/-- What is read of a fact while an action is carried out. -/
theorem fact_read {factory : Factory} {world : W} {events : List (Event W)} {services : Text → Option SvcInst}
    {s : ActionSet} {f : Fact} {c d : Ctx (Attrs W)} (hb : ∃ p, factory.build w.oracle { host := { world } } = .pipeline p)
    (hc : Acting w.oracle factory { world } (w.trail factory world events) c) (hd : Asked w.oracle c d)
    (hf : f.Stands w.abi w.lib.json world services s c.log) :
    (attrGet w.abi.backend w.lib.json d.host f.path).1 = .available f.value := by
  obtain ⟨p, hb⟩ := hb
  have hall := (session_trail w factory world events).2.2
  have hw := hf.unwritten
  have hvis := visible_plain hf.visible
  have hlog := (asked_log hd).1
  cases hf.given with
  | @property root field bytes v hn hp h hv =>
    have hi := (steady_inv (w := w) (Path.print [root, field]) (.bytes (some bytes)) (by
      intro x p u h1 h2
      cases print_plain hvis.1 hn h1
      rw [fetch_property w hp (by intro hh; cases hh; exact hvis.2 rfl) (h x)] at h2
      cases h2
      rfl)).hostInv
    have h0 : ∀ p, factory.build w.oracle { host := { world } } = .pipeline p → On (fun s l =>
        (∃ e ∈ l, WritesKey (Path.print [root, field]) e) ∨
        ∀ u, mapGet s.cache (Path.print [root, field]) = some u → u = .bytes (some bytes)) p.ctx :=
      fun p hb => hi.built (.inr fun u hu => by cases hu) hb
    obtain ⟨_, h1⟩ := hall _ hi h0 (fun _ _ _ _ h => h) p hb
    rcases hi.asked (h1 c hc) hd with ⟨e, he, hk⟩ | h2
    · exact absurd hk (hw e (hlog ▸ he))
    · cases hcache : d.host.cached [root, field] with
      | some u =>
        cases h2 u hcache
        show (attrGet w.abi.backend w.lib.json d.host [root, field]).1 = .available v
        rw [attrGet_cached hcache, answer, attrVal_means hv]
      | none =>
        have h3 := fetch_property w (x := d.host.world) hp (by intro hh; cases hh; exact hvis.2 rfl) (h _)
        have h4 : fetchAttribute w.abi.backend d.host.world [root, field] = (.ok (.bytes (some bytes)), _) := Prod.ext h3 rfl
        exact C58_value _ _ d.host [root, field] bytes _ v hcache h4 hv
  | @headers m h hne =>
    have hi := (snapshot_inv (w := w) (headersPath .request).print (.headers m) []).hostInv
    obtain ⟨_, h1⟩ := hall _ hi (fun p hb => build_headers w factory h hne hb) (fun _ _ _ _ h => h) p hb
    obtain ⟨new, h2, h3⟩ := hi.asked (h1 c hc) hd
    rcases h3 with ⟨e, he, hk⟩ | h3
    · exact absurd hk (hw e (by rw [← hlog, h2]; exact he))
    · show (attrGet w.abi.backend w.lib.json d.host (headersPath .request)).1 = _
      rw [attrGet_cached h3, show knownType (headersPath .request) = some .map from by decide +kernel]
      rfl

/-- What a call says, if what the host says settles it. -/
theorem facts_sent (cfg : PluginConfig) (factory : Factory) (world : W) (s : ActionSet)
    (hs : ServedBy w.oracle w.oracle.parse cfg factory { world } s) (i : Nat) (a : LegacyAction) (data : RequestData)
    (hi : s.actions[i]? = some (a.config data)) (kind : SvcKind) (svc : Svc) (deny : Bool)
    (hsvc : cfg.services a.service = some (.call kind svc deny)) (hdyn : kind ≠ .dynamic)
    (hlib : Cel.Follows w.lib (requestOf (translate a data kind)))
    (hmirror : Cel.Mirrors w.lib (requestOf (translate a data kind)))
    (events : List (Event W)) (pre post : List Effect) (guard : Bool) (token : Nat) (svc' : Svc) (bytes : Bytes)
    (rid : Text)
    (hlog : (w.session factory world events).filter.log =
      pre ++ .dispatch (natText i) guard token svc' bytes rid :: post)
    (facts : List Fact) (hfacts : ∀ f ∈ facts, f.Stands w.abi w.lib.json world cfg.services s pre ∧
      Mentions (requestOf (translate a data kind)) f.path)
    (hparses : ∃ ast, Parses (requestOf (translate a data kind)) ast) (v : Val)
    (hv : ∀ env, (∀ f ∈ facts, f.Seen env) → ∃ ast, Parses (requestOf (translate a data kind)) ast ∧
      eval env ast = some v) :
    svc' = svc ∧ w.lib.encode svc v = some bytes ∧ ∃ env, ∀ f ∈ facts, f.Seen env := by
  have hrun := (session_trail w factory world events).2.1
  rw [hrun] at hlog
  have hb := call_built w.oracle factory { world } _ (id := natText i) (guard := guard) (token := token)
    (svc := svc') (message := bytes) (rid := rid) (by rw [hlog]; simp)
  have hat : At cfg.services s (natText i) (translate a data kind) :=
    .top hi (by simp [LegacyAction.config, standsFor, hsvc, hdyn])
  have hsv := (C59_legacy w.oracle w.oracle.parse cfg factory { world } s hs i a data hi kind svc deny hsvc hdyn _ guard
    token svc' bytes rid (by rw [hlog]; simp)).1
  obtain ⟨head, service, var, message, replies, pred, msg, kind', deny', u, after, early, h1, h2, h3, h4, h5, h6, h7, h8⟩ :=
    C59_configured w.oracle w.oracle.parse cfg factory { world } s hs _ _ hat _ pre post guard token svc' bytes rid hlog
  subst hsv
  have hreq : requestOf (translate a data kind) = message := by rw [h1]; rfl
  rw [hreq] at hlib hmirror hv hfacts hparses
  refine ⟨rfl, ?_⟩
  obtain ⟨c, c', hc1, _, hc2, hc3, hc4⟩ := h7
  have hask : Asked w.oracle c c' := by
    have := evalExpr_asked (o := w.oracle) c (natText i) pred
    rw [show (evalExpr w.oracle c (natText i) pred).2 = c' from (Prod.mk.inj hc3).2] at this
    exact this
  have hmsg : msg.lit = none ∧ msg.src = message := by
    obtain ⟨y, _, rfl⟩ := Option.map_eq_some_iff.1 h5
    exact ⟨rfl, rfl⟩
  obtain ⟨d, x, grpc, vars, hd, hx, hvars, hexec⟩ := evaluated_vars w hmsg.1 hc4
  rw [hmsg.2] at hx hexec
  have hask2 : Asked w.oracle c d := hask.trans hd
  obtain ⟨ast0, hp0⟩ := hparses
  have hseen : ∀ f ∈ facts, f.Seen (mapGet vars) := by
    intro f hf
    obtain ⟨hst, hm⟩ := hfacts f hf
    have hgrpc : f.path ≠ grpcRoot := hst.simple
    have hstore : ∀ k, (∀ path, KeepsAt cfg.services s path → path ≠ k) → (w.store d).get k = none := by
      intro k hk
      cases hg : (w.store d).get k with
      | none => rfl
      | some u =>
        obtain ⟨x, head, source, exported, hat⟩ := fetching_values hs ⟨c, hc2, hask2⟩ (world_store_mem w hg)
        exact absurd rfl (hk k ⟨x, head, source, exported, hat⟩)
    obtain ⟨u, h9, h10⟩ := seen_attribute (hmirror.plain x hx) hvars (root := f.root) (field := f.field)
      (hmirror.refers ast0 x hp0 hx _ (hm ast0 hp0)) hst.visible hgrpc
      (hstore _ fun path hp => (hst.free path hp).1) (hstore _ fun path hp => (hst.free path hp).2)
    have h11 := fact_read w hb hc2 hask2 (f := f) (by rw [hc1]; exact hst)
    rw [show f.path = [f.root, f.field] from rfl, h9] at h11
    cases h11
    exact seenAt_eval hst.visible h10
  obtain ⟨ast, h9, h10⟩ := hv (mapGet vars) hseen
  have h11 := hlib.value ast vars v h9 h10
  rw [hexec] at h11
  cases h11
  exact ⟨h8, _, hseen⟩

end

end Verif
