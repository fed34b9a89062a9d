import Verif.Spec.Routed
import Verif.Lemmas.HostFacts
import Verif.Props.Routing
/-! Expressions that what the host says settles, tested while the action set of a request is chosen. -/
namespace Verif
open Spec Cel Props

section
variable {S : Type} {store : ValueStore} {get : S → Path → Ans Val × S}

mutual
theorem readMap_available {I : S → Prop} {ps : List Path}
    (hpend : ∀ q, q ≠ [] → (∃ p ∈ ps, q <+: p) → store.isPending (under [] q) = false)
    (hstep : ∀ s p, I s → I (get s p).2) (hget : ∀ s, I s → ∀ p ∈ ps, ∃ v, (get s p).1 = .available v) (loc : Path)
    (m : List (Text × AttrTree)) (h : located ps loc m) (s : S) (hs : I s) :
    ∃ out s', readMap store get (under [] loc) m s = (.available out, s') ∧ I s' := by
  match m, h with
  | [], _ => exact ⟨[], s, by rw [readMap], hs⟩
  | (t, tree) :: rest, h =>
    rw [located] at h
    have hu : under [] (loc ++ [t]) = entryPath (under [] loc) t := under_append [] loc [t]
    rw [readMap]
    cases store.get (entryPath (under [] loc) t) with
    | some v =>
      obtain ⟨out, s', h1, h2⟩ := readMap_available hpend hstep hget loc rest h.2 s hs
      exact ⟨_, s', by simp only [h1]; rfl, h2⟩
    | none =>
      have hp : store.isPending (entryPath (under [] loc) t) = false := by
        rw [← hu]
        refine hpend _ (by simp) ?_
        cases tree with
        | value a => exact ⟨a, h.1.2, h.1.1 ▸ List.prefix_refl _⟩
        | node n => exact h.1.1
      simp only [hp, Bool.false_eq_true, if_false]
      split
      · exact readMap_available hpend hstep hget loc rest h.2 s hs
      · obtain ⟨v, s1, h1, h2⟩ := readTree_available hpend hstep hget (loc ++ [t]) tree h.1 s hs
        obtain ⟨out, s', h3, h4⟩ := readMap_available hpend hstep hget loc rest h.2 s1 h2
        rw [hu] at h1
        exact ⟨_, s', by simp only [h1, h3]; rfl, h4⟩

theorem readTree_available {I : S → Prop} {ps : List Path}
    (hpend : ∀ q, q ≠ [] → (∃ p ∈ ps, q <+: p) → store.isPending (under [] q) = false)
    (hstep : ∀ s p, I s → I (get s p).2) (hget : ∀ s, I s → ∀ p ∈ ps, ∃ v, (get s p).1 = .available v) (loc : Path)
    (tree : AttrTree) (h : locatedTree ps loc tree) (s : S) (hs : I s) :
    ∃ v s', readTree store get (under [] loc) tree s = (.available v, s') ∧ I s' := by
  match tree, h with
  | .value a, h =>
    rw [readTree]
    obtain ⟨v, hv⟩ := hget s hs a h.2
    exact ⟨v, (get s a).2, Prod.ext hv rfl, hstep s a hs⟩
  | .node n, h =>
    obtain ⟨out, s', h1, h2⟩ := readMap_available hpend hstep hget loc n h.2 s hs
    exact ⟨.map out, s', by rw [readTree, h1], h2⟩
end

end

section
variable {W : Type} (w : World W)

/-- What is read of a fact before anything was written. -/
theorem reported_read {world : W} {f : Fact} (hf : Reported w.abi w.lib.json world f) (hvis : f.root ∈ visibleRoots)
    {s : Attrs W} (hs : Grows w.abi { world } s) :
    (attrGet w.abi.backend w.lib.json s f.path).1 = .available f.value := by
  have hv := visible_plain hvis
  cases hf with
  | @property root field bytes v hn hp h hm =>
    have hfetch := fetch_property w (x := world) hp (by intro hh; cases hh; exact hv.2 rfl) h
    show (attrGet w.abi.backend w.lib.json s [root, field]).1 = .available v
    cases hcache : s.cached [root, field] with
    | some u =>
      rcases hs.new _ _ hcache with h1 | ⟨p, h1, h2⟩
      · cases h1
      · cases print_plain hv.1 hn h1
        rw [hfetch] at h2
        cases h2
        rw [attrGet_cached hcache, answer, attrVal_means hm]
    | none =>
      have h4 : fetchAttribute w.abi.backend s.world [root, field] = (.ok (.bytes (some bytes)), _) :=
        Prod.ext (by rw [hs.world]; exact hfetch) rfl
      exact C58_value _ _ s [root, field] bytes _ v hcache h4 hm
  | @headers m h hne =>
    have hfetch : (fetchAttribute w.abi.backend world (headersPath .request)).1 = .ok (.headers m) := by
      unfold fetchAttribute
      rw [if_pos rfl]
      simp only [Abi.backend, Abi.map, h]
      rw [if_neg (by simpa using hne)]
    have hplain : ∀ t : Text, t = "request".toList ∨ t = "headers".toList → ∀ c ∈ t, c ≠ '.' ∧ c ≠ '\\' := by
      rintro t (rfl | rfl) <;> decide
    have hk : knownType (headersPath .request) = some .map := by decide +kernel
    show (attrGet w.abi.backend w.lib.json s (headersPath .request)).1 = _
    cases hcache : s.cached (headersPath .request) with
    | some u =>
      rcases hs.new _ _ hcache with h1 | ⟨p, h1, h2⟩
      · cases h1
      · cases print_plain (hplain _ (.inl rfl)) (hplain _ (.inr rfl)) h1
        rw [show (["request".toList, "headers".toList] : Path) = headersPath .request from rfl, hfetch] at h2
        cases h2
        rw [attrGet_cached hcache, hk]
        rfl
    | none =>
      have h4 : fetchAttribute w.abi.backend s.world (headersPath .request) = (.ok (.headers m), _) :=
        Prod.ext (by rw [hs.world]; exact hfetch) rfl
      unfold attrGet Attrs.read
      rw [hcache, h4, hk]
      rfl

/-- Before anything was stored. -/
theorem fresh_store {s : Attrs W} (hres : w.reserved { host := s } = []) :
    (∀ k, (w.store { host := s }).get k = none) ∧ ∀ k, (w.store { host := s }).isPending k = false := by
  constructor
  · intro k; rfl
  · intro k
    unfold World.store ValueStore.isPending
    simp [hres]

/-- Nothing is stored in place of the attribute, and nothing will be. -/
def Unstored (store : ValueStore) (f : Fact) : Prop :=
  ∀ k, k = f.root ∨ k = f.root ++ '.' :: f.field → store.get k = none ∧ store.isPending k = false

theorem Unstored.prefixes {store : ValueStore} {f : Fact} (hvis : f.root ∈ visibleRoots) (h : Unstored store f) {q : Path}
    (hq : q ≠ []) (hp : q <+: f.path) : store.isPending (under [] q) = false := by
  have hne : f.root ≠ [] := by
    simp only [visibleRoots, List.mem_cons, List.not_mem_nil, or_false] at hvis
    rcases hvis with h | h | h | h <;> (rw [h]; decide)
  rcases q with _ | ⟨a, _ | ⟨b, as⟩⟩
  · exact absurd rfl hq
  · rw [(List.cons_prefix_cons.1 hp).1]
    exact (h _ (.inl rfl)).2
  · have := hp.eq_of_length_le (by simp [Fact.path])
    rw [this]
    show store.isPending (entryPath (entryPath [] f.root) f.field) = false
    rw [show entryPath [] f.root = f.root from rfl, entryPath, if_neg hne]
    exact (h _ (.inr rfl)).2

/-- An expression that the facts decide has its value wherever they can be read and nothing is stored in their place. -/
theorem decided_value {facts : List Fact} {c : Ctx (Attrs W)}
    (hfacts : ∀ f ∈ facts, f.root ∈ visibleRoots ∧ f.path ≠ ["request".toList, "grpc".toList])
    (hread : ∀ s, Grows w.abi c.host s → ∀ f ∈ facts,
      (attrGet w.abi.backend w.lib.json s f.path).1 = .available f.value)
    (hstore : ∀ f ∈ facts, Unstored (w.store c) f)
    {t : Text} {v : Val} (ht : FactsDecide w.lib facts t v) {e : Expr} (he : w.oracle.parse t = some e)
    (hstore' : ∀ f ∈ facts, Unstored (w.store (c.withHost (w.oracle.attrs c e).2)) f) (id : Text) :
    ∃ s', evalExpr w.oracle c id e = (.available v, c.withHost s') ∧ Grows w.abi c.host s' := by
  obtain ⟨x, hx, hxe⟩ := Option.map_eq_some_iff.1 he
  obtain ⟨a0, hp0⟩ := ht.parses
  have hattr : ∀ p ∈ (compileExpr x).attributes, ∃ f ∈ facts, f.path = p ∧ Mentions t f.path := by
    intro p hp
    have href := ((C45_exact x (ht.mirrors.plain x hx) p).1.mp hp).1
    have hch := ht.reflects a0 x hp0 hx p href
    obtain ⟨f, hf, rfl⟩ := ht.only a0 hp0 p hch
    exact ⟨f, hf, rfl, fun a ha => by cases parses_unique ha hp0; exact hch⟩
  have hgrpc : (compileExpr x).needsGrpc = false := by
    cases hg : (compileExpr x).needsGrpc with
    | false => rfl
    | true =>
      obtain ⟨p, href, hpre⟩ := (C45_exact x (ht.mirrors.plain x hx) []).2.mp hg
      obtain ⟨f, hf, rfl⟩ := ht.only a0 hp0 p (ht.reflects a0 x hp0 hx p href)
      exact absurd (hpre.eq_of_length rfl).symm (hfacts f hf).2
  have hbody : (compileExpr x).requestFields = [] ∧ (compileExpr x).responseFields = [] := by
    constructor
    · rw [List.eq_nil_iff_forall_not_mem]
      intro u hu
      exact ht.bodiless a0 hp0 "requestBodyJSON".toList (by simp [bodyFunctions]) (ht.follows.functions a0 x hp0 hx _
        (by simp [bodyFunctions]) _ ((C45_body_fields x u).1.mp hu))
    · rw [List.eq_nil_iff_forall_not_mem]
      intro u hu
      exact ht.bodiless a0 hp0 "responseBodyJSON".toList (by simp [bodyFunctions]) (ht.follows.functions a0 x hp0 hx _
        (by simp [bodyFunctions]) _ ((C45_body_fields x u).2.mp hu))
  have hloc : located (compileExpr x).attributes [] (attrTree (compileExpr x).attributes) := by
    refine located_mono _ (fun p hp => ⟨hp, ?_⟩) [] trivial
    intro h0
    have := compile_long x p hp
    rw [h0] at this
    simp at this
  have hget : ∀ s, Grows w.abi c.host s → ∀ p ∈ (compileExpr x).attributes, ∃ v,
      (attrGet w.abi.backend w.lib.json s p).1 = .available v := by
    intro s hs p hp
    obtain ⟨f, hf, rfl, _⟩ := hattr p hp
    exact ⟨_, hread s hs f hf⟩
  have hpend : ∀ store, (∀ f ∈ facts, Unstored store f) → ∀ q, q ≠ [] → (∃ p ∈ (compileExpr x).attributes, q <+: p) →
      store.isPending (under [] q) = false := by
    rintro store hst q hq ⟨p, hp, hpre⟩
    obtain ⟨f, hf, rfl, _⟩ := hattr p hp
    exact (hst f hf).prefixes (hfacts f hf).1 hq hpre
  -- the attributes
  have hs1 := grows_ensure (a := w.abi) (World.hostAttributes (compileExpr x)) c.host
  obtain ⟨out, s2, h1, h2⟩ := readMap_available (store := w.store c)
    (get := attrGet w.abi.backend w.lib.json) (I := fun s => Grows w.abi c.host s) (hpend _ hstore)
    (fun s p h => h.trans (grows_read _ s p)) hget [] _ hloc _ hs1
  have he1 : e.lit = none ∧ e.src = t ∧ e.reqFields = [] ∧ e.respFields = [] := by
    rw [← hxe]
    exact ⟨rfl, rfl, hbody.1, hbody.2⟩
  obtain ⟨hlit, hsrc, hreq, hresp⟩ := he1
  rw [show (under [] [] : Text) = [] from rfl] at h1
  have hattrs : w.oracle.attrs c e = (.available (), s2) := by
    simp only [World.oracle, World.compiled, hsrc, hx, Option.map_some, World.readData, h1]
  rw [hattrs] at hstore'
  dsimp only at hstore'
  -- the value
  obtain ⟨m, hm⟩ := map_available (store := w.store (c.withHost s2))
    (get := fun p => (attrGet w.abi.backend w.lib.json s2 p).1) (hpend _ hstore') (hget s2 h2) []
    _ hloc
  have hvars : ∃ vars, celVars (w.store (c.withHost s2)) (fun p => (attrGet w.abi.backend w.lib.json s2 p).1) none
      c.req.values c.resp.values (scopeVars c.bindings id) (compileExpr x) = .available vars := by
    unfold celVars dataMap
    rw [show (under [] [] : Text) = [] from rfl] at hm
    rw [hm, hbody.1, hbody.2]
    exact ⟨_, rfl⟩
  obtain ⟨vars, hvars⟩ := hvars
  have hseen : ∀ f ∈ facts, Mentions t f.path → f.Seen (mapGet vars) := by
    intro f hf hme
    obtain ⟨hvis, hsimple⟩ := hfacts f hf
    obtain ⟨u, h3, h4⟩ := seen_attribute (ht.mirrors.plain x hx) hvars (root := f.root) (field := f.field)
      (ht.mirrors.refers a0 x hp0 hx _ (hme a0 hp0)) hvis hsimple (hstore' f hf _ (.inl rfl)).1
      (hstore' f hf _ (.inr rfl)).1
    have h5 := hread s2 h2 f hf
    rw [show f.path = [f.root, f.field] from rfl, h3] at h5
    cases h5
    exact seenAt_eval hvis h4
  obtain ⟨a, h3, h4⟩ := ht.value _ hseen
  have hexec := ht.follows.value a vars v h3 h4
  refine ⟨s2, ?_, h2⟩
  have hav : fieldsAvailable (c.withHost s2) e = true := by
    unfold fieldsAvailable
    rw [hreq, hresp]
    rfl
  have hres2 : w.oracle.resolve (c.withHost s2) (scopeVars c.bindings id) e = (some v, s2) := by
    simp only [World.oracle, World.compiled, hsrc, hx, Option.map_some, hgrpc, Ctx.withHost, Bool.false_eq_true, if_false]
    have hv := hvars
    simp only [Ctx.withHost] at hv
    rw [hv]
    simp only [hexec]
  unfold evalExpr
  rw [hlit]
  dsimp only
  rw [hattrs]
  dsimp only
  rw [if_pos hav]
  rw [show (c.withHost s2).bindings = c.bindings from rfl, hres2]
  rfl

/-- A settled expression has its value whenever it is asked for before the actions of a request are set up. -/
theorem settled_value {world : W} {facts : List Fact} (hres : ∀ s, w.reserved { host := s } = [])
    (hfacts : ∀ f ∈ facts, Reported w.abi w.lib.json world f ∧ f.root ∈ visibleRoots ∧
      f.path ≠ ["request".toList, "grpc".toList])
    {t : Text} {v : Val} (ht : FactsDecide w.lib facts t v) {e : Expr} (he : w.oracle.parse t = some e)
    {s : Attrs W} (hs : Grows w.abi { world } s) (id : Text) :
    ∃ s', evalExpr w.oracle { host := s } id e = (.available v, { host := s' }) ∧ Grows w.abi { world } s' := by
  obtain ⟨s', h1, h2⟩ := decided_value w (c := { host := s }) (fun f hf => (hfacts f hf).2)
    (fun s' hs' f hf => reported_read w (hfacts f hf).1 (hfacts f hf).2.1 (hs.trans hs'))
    (fun f _ k _ => ⟨(fresh_store w (hres s)).1 k, (fresh_store w (hres s)).2 k⟩) ht he
    (fun f _ k _ => ⟨(fresh_store w (hres _)).1 k, (fresh_store w (hres _)).2 k⟩) id
  exact ⟨s', h1, hs.trans h2⟩

end

/-! ### The choice -/

section
variable {H : Type} {o : Oracle H} {parse : Text → Option Expr} {I : Ctx H → Prop} {holds : Text → Bool}

theorem conj_settled {ts : List Text} (htest : ∀ t ∈ ts, ∀ e, parse t = some e → ∀ c, I c →
      ∃ c', tests o c [] e = (.available (holds t), c') ∧ I c')
    {c c' : Ctx H} {es : List Expr} {a : Ans Bool} (h : Conj o c es a c') (hts : ts.map parse = es.map some) (hc : I c) :
    a = .available (ts.all holds) ∧ I c' := by
  induction h generalizing ts with
  | nil c =>
    cases ts with
    | nil => exact ⟨rfl, hc⟩
    | cons t ts => cases hts
  | @holds c c1 c2 p ps r h hr ih =>
    cases ts with
    | nil => cases hts
    | cons t ts =>
      obtain ⟨h1, h2⟩ := List.cons.inj hts
      obtain ⟨c', h3, h4⟩ := htest t (List.mem_cons_self ..) p h1 c hc
      rw [h] at h3
      obtain ⟨h5, h6⟩ := Prod.mk.inj h3
      injection h5 with h5
      subst h6
      rw [List.all_cons, ← h5, Bool.true_and]
      exact ih (fun t ht => htest t (List.mem_cons_of_mem _ ht)) h2 h4
  | @stops c c1 p ps a h ha =>
    cases ts with
    | nil => cases hts
    | cons t ts =>
      obtain ⟨h1, h2⟩ := List.cons.inj hts
      obtain ⟨c', h3, h4⟩ := htest t (List.mem_cons_self ..) p h1 c hc
      rw [h] at h3
      obtain ⟨h5, h6⟩ := Prod.mk.inj h3
      subst h6 h5
      cases hh : holds t with
      | true => rw [hh] at ha; exact absurd rfl ha
      | false => rw [List.all_cons, hh]; exact ⟨rfl, h4⟩

theorem routes_settled {s : ActionSet} (hens : ∀ c es, I c → I (c.withHost (o.ensure c es)))
    (htest : ∀ t ∈ s.predicates, ∀ e, parse t = some e → ∀ c, I c →
      ∃ c', tests o c [] e = (.available (holds t), c') ∧ I c')
    {c c' : Ctx H} {a : Ans Bool} (h : Routes o parse c s a c') (hc : I c) :
    a = .available (s.predicates.all holds) ∧ I c' := by
  cases h with
  | always h ha hc' => subst ha hc'; rw [h]; exact ⟨rfl, hc⟩
  | test es hne hp hr => exact conj_settled htest hr hp (hens _ _ hc)

theorem first_settled {ss : List ActionSet} (hens : ∀ c es, I c → I (c.withHost (o.ensure c es)))
    (htest : ∀ s ∈ ss, ∀ t ∈ s.predicates, ∀ e, parse t = some e → ∀ c, I c →
      ∃ c', tests o c [] e = (.available (holds t), c') ∧ I c')
    {c c' : Ctx H} {pick : Pick} (h : FirstOf o parse c ss pick c') (hc : I c) :
    pick = match ss.find? fun s => s.predicates.all holds with
      | some s => .set s
      | none => .none := by
  induction h with
  | nil c => rfl
  | @hit c c' s ss h =>
    have := (routes_settled hens (htest s (List.mem_cons_self ..)) h hc).1
    injection this with this
    rw [List.find?_cons, ← this]
  | @skip c c' c'' s ss r h hr ih =>
    obtain ⟨h1, h2⟩ := routes_settled hens (htest s (List.mem_cons_self ..)) h hc
    injection h1 with h1
    rw [List.find?_cons, ← h1]
    exact ih (fun s hs => htest s (List.mem_cons_of_mem _ hs)) h2
  | @pending c c' s ss h =>
    have := (routes_settled hens (htest s (List.mem_cons_self ..)) h hc).1
    cases this
  | @failed c c' s ss h =>
    have := (routes_settled hens (htest s (List.mem_cons_self ..)) h hc).1
    cases this

/-- A set that lists the hostname twice is found where it is first. -/
theorem find_candidates (cfg : PluginConfig) (p : Text) (f : ActionSet → Bool) :
    (candidates cfg p).find? f = (setsFor cfg p).find? f := by
  unfold candidates setsFor
  induction cfg.actionSets with
  | nil => rfl
  | cons s ss ih =>
    rw [List.flatMap_cons, List.find?_append, List.filter_cons, ih]
    cases hx : (s.hostnames.filter fun h => asciiLower h = p) with
    | nil =>
      have : ¬ (s.hostnames.any fun q => decide (asciiLower q = p)) = true := by
        intro ha
        obtain ⟨q, hq, hqp⟩ := List.any_eq_true.1 ha
        have : q ∈ (s.hostnames.filter fun h => asciiLower h = p) := List.mem_filter.2 ⟨hq, hqp⟩
        rw [hx] at this
        simp at this
      rw [if_neg this]
      rfl
    | cons q qs =>
      have : (s.hostnames.any fun q => decide (asciiLower q = p)) = true := by
        have : q ∈ (s.hostnames.filter fun h => asciiLower h = p) := by rw [hx]; simp
        obtain ⟨h1, h2⟩ := List.mem_filter.1 this
        exact List.any_eq_true.2 ⟨q, h1, h2⟩
      rw [if_pos this, List.find?_cons]
      cases hfs : f s with
      | true => simp [hfs]
      | false =>
        have hno : ∀ l : List Text, (l.map fun _ => s).find? f = none := by
          intro l
          simp only [List.find?_eq_none, List.mem_map]
          rintro x ⟨_, _, rfl⟩
          simp [hfs]
        rw [hno]
        rfl

end

end Verif
