import Verif.Lemmas.Routed
import Verif.Props.Cause
/-! Expressions that what the host says decides, while the actions of a request are carried out. -/
namespace Verif
open Spec Cel Props Legacy

section
variable {W : Type} (w : World W)

/-- What is read of a fact while an action is carried out, also after other reads. -/
theorem fact_kept {factory : Factory} {world : W} {events : List (Event W)} {services : Text → Option SvcInst}
    {s : ActionSet} {f : Fact} {c d : Ctx (Attrs W)} (hb : ∃ p, factory.build w.oracle { host := { world } } = .pipeline p)
    (hc : Acting w.oracle factory { world } (w.trail factory world events) c) (hd : Asked w.oracle c d)
    (hf : f.Stands w.abi w.lib.json world services s c.log) {s' : Attrs W} (hs' : Grows w.abi d.host s') :
    (attrGet w.abi.backend w.lib.json s' f.path).1 = .available f.value := by
  obtain ⟨p, hb⟩ := hb
  have hall := (session_trail w factory world events).2.2
  have hw := hf.unwritten
  have hvis := visible_plain hf.visible
  have hlog := (asked_log hd).1
  cases hf.given with
  | @property root field bytes v hn hp h hv =>
    have hsi := steady_inv (w := w) (Path.print [root, field]) (.bytes (some bytes)) (by
      intro x p u h1 h2
      cases print_plain hvis.1 hn h1
      rw [fetch_property w hp (by intro hh; cases hh; exact hvis.2 rfl) (h x)] at h2
      cases h2
      rfl)
    have hi := hsi.hostInv
    have h0 : ∀ p, factory.build w.oracle { host := { world } } = .pipeline p → On (fun s l =>
        (∃ e ∈ l, WritesKey (Path.print [root, field]) e) ∨
        ∀ u, mapGet s.cache (Path.print [root, field]) = some u → u = .bytes (some bytes)) p.ctx :=
      fun p hb => hi.built (.inr fun u hu => by cases hu) hb
    obtain ⟨_, h1⟩ := hall _ hi h0 (fun _ _ _ _ h => h) p hb
    rcases hsi.grows _ _ _ hs' (hi.asked (h1 c hc) hd) with ⟨e, he, hk⟩ | h2
    · exact absurd hk (hw e (hlog ▸ he))
    · cases hcache : s'.cached [root, field] with
      | some u =>
        cases h2 u hcache
        show (attrGet w.abi.backend w.lib.json s' [root, field]).1 = .available v
        rw [attrGet_cached hcache, answer, attrVal_means hv]
      | none =>
        have h3 := fetch_property w (x := s'.world) hp (by intro hh; cases hh; exact hvis.2 rfl) (h _)
        have h4 : fetchAttribute w.abi.backend s'.world [root, field] = (.ok (.bytes (some bytes)), _) := Prod.ext h3 rfl
        exact C58_value _ _ s' [root, field] bytes _ v hcache h4 hv
  | @headers m h hne =>
    have hsi := snapshot_inv (w := w) (headersPath .request).print (.headers m) []
    have hi := hsi.hostInv
    obtain ⟨_, h1⟩ := hall _ hi (fun p hb => build_headers w factory h hne hb) (fun _ _ _ _ h => h) p hb
    obtain ⟨new, h2, h3⟩ := hsi.grows _ _ _ hs' (hi.asked (h1 c hc) hd)
    rcases h3 with ⟨e, he, hk⟩ | h3
    · exact absurd hk (hw e (by rw [← hlog, h2]; exact he))
    · show (attrGet w.abi.backend w.lib.json s' (headersPath .request)).1 = _
      rw [attrGet_cached h3, show knownType (headersPath .request) = some .map from by decide +kernel]
      rfl

/-- Nothing is stored in place of a fact that stands. -/
theorem fact_unstored {cfg : PluginConfig} {factory : Factory} {world : W} {events : List (Event W)} {s : ActionSet}
    (hs : ServedBy w.oracle w.oracle.parse cfg factory { world } s)
    {f : Fact} {log : List Effect} {d : Ctx (Attrs W)}
    (hd : Fetching w.oracle factory { world } (w.trail factory world events) d)
    (hres : ∀ path n, (path, n) ∈ w.reserved d → KeepsAt cfg.services s path)
    (hf : f.Stands w.abi w.lib.json world cfg.services s log) : Unstored (w.store d) f := by
  intro k hk
  have hne : ∀ path, KeepsAt cfg.services s path → path ≠ k := by
    intro path hp
    rcases hk with rfl | rfl
    · exact (hf.free path hp).1
    · exact (hf.free path hp).2
  constructor
  · cases hg : (w.store d).get k with
    | none => rfl
    | some u =>
      obtain ⟨x, head, source, exported, hat⟩ := fetching_values hs hd (world_store_mem w hg)
      exact absurd rfl (hne k ⟨x, head, source, exported, hat⟩)
  · unfold ValueStore.isPending World.store
    rw [Bool.and_eq_false_iff]
    refine .inr ?_
    rw [List.any_eq_false]
    rintro ⟨path, n⟩ hm he
    exact hne path (hres path n hm) (by simpa using he)

/-- An expression that the facts decide has its value while an action is carried out. -/
theorem standing_value {cfg : PluginConfig} {factory : Factory} {world : W} {events : List (Event W)} {s : ActionSet}
    (hs : ServedBy w.oracle w.oracle.parse cfg factory { world } s)
    (hb : ∃ p, factory.build w.oracle { host := { world } } = .pipeline p)
    (hres : ∀ c, Fetching w.oracle factory { world } (w.trail factory world events) c →
      ∀ path n, (path, n) ∈ w.reserved c → KeepsAt cfg.services s path)
    {c d : Ctx (Attrs W)} (hc : Acting w.oracle factory { world } (w.trail factory world events) c)
    (hd : Asked w.oracle c d) {facts : List Fact}
    (hfacts : ∀ f ∈ facts, f.Stands w.abi w.lib.json world cfg.services s c.log)
    {t : Text} {v : Val} (ht : FactsDecide w.lib facts t v) {e : Expr} (he : w.oracle.parse t = some e) (id : Text) :
    ∃ d', evalExpr w.oracle d id e = (.available v, d') ∧ Asked w.oracle c d' := by
  obtain ⟨s', h1, _⟩ := decided_value w (c := d) (fun f hf => ⟨(hfacts f hf).visible, (hfacts f hf).simple⟩)
    (fun s' hs' f hf => fact_kept w hb hc hd (hfacts f hf) hs')
    (fun f hf => fact_unstored w hs ⟨c, hc, hd⟩ (hres _ ⟨c, hc, hd⟩) (hfacts f hf)) ht he
    (fun f hf => fact_unstored w hs ⟨c, hc, hd.attributes e⟩ (hres _ ⟨c, hc, hd.attributes e⟩) (hfacts f hf)) id
  refine ⟨_, h1, ?_⟩
  have := evalExpr_asked (o := w.oracle) d id e
  rw [h1] at this
  exact hd.trans this

end

/-! ### Starting a call -/

section
variable {H : Type} {o : Oracle H}

/-- The call is sent at once when its predicate is true, its message can be computed and encoded and the host accepts
it. -/
theorem sent_at_once (parse : Text → Option Expr) (cfg : PluginConfig) (factory : Factory) (host : H)
    (s : ActionSet) (hs : ServedBy o parse cfg factory host s) (x : Text) (head : TypedHead)
    (service var message : Text) (replies : List TypedAction)
    (hat : At cfg.services s x (.grpc head service var message replies)) (kind : SvcKind) (svc : Svc) (deny : Bool)
    (hsvc : cfg.services service = some (.call kind svc deny))
    (pred msg : Expr) (hp : parse head.predicate = some pred) (hm : parse message = some msg)
    (events : List (Event H)) (pre post : List Effect)
    (hlog : (Filter.run o factory host events).log = pre ++ .applied x :: post) (bytes : Bytes)
    (hd : ∀ c : Ctx H, Acting o factory host events c → c.log = pre ++ [.applied x] → ∃ c' c'' v,
      tests o c x pred = (.available true, c') ∧ evalExpr o c' x msg = (.available v, c'') ∧
      o.encode c'' svc v = some bytes ∧
      ∀ (d : Ctx H) (rid : Text), d.log = c.log → ∃ token, (o.dispatch d svc bytes rid).1 = some token) :
    ∃ token rid rest, post = .dispatch x head.guard token svc bytes rid :: rest := by
  by_cases hb : ∃ p, factory.build o { host := host } = .pipeline p
  · obtain ⟨p, hb⟩ := hb
    obtain ⟨b, hbuilt, hfs⟩ := servedBy_fromSet hs hb
    have htasks : Tasks (fun k => k.id = x → k.waits = false → ∃ deps r,
        k = .grpc x deps head.guard pred msg var svc r) p [] := by
      refine fromSet_tasks hbuilt hfs hat (fun k hk h => absurd h hk) ?_
      intro y deps k hco hm' hid hw
      cases hco with
      | grpc _ _ _ _ _ _ _ _ _ _ _ _ hp' hs' hmm =>
        rw [hp] at hp'; cases hp'
        rw [hm] at hmm; cases hmm
        rw [hsvc] at hs'; cases hs'
        cases hm'
        exact ⟨_, _, rfl⟩
    have hinv : CtxInv o (fun k => k.id = x → k.waits = false → ∃ deps r,
        k = .grpc x deps head.guard pred msg var svc r) (fun _ => True) := by
      refine ⟨⟨?_, by simp [Core.waits], by simp [Core.waits]⟩, fun _ _ _ _ _ _ => trivial,
        fun _ _ _ _ _ _ _ _ => trivial, fun _ _ => trivial, fun _ _ _ _ => trivial⟩
      intro k k' h ha
      cases ha with
      | same => exact h
      | store => intro hid _; obtain ⟨_, _, h⟩ := h hid rfl; cases h
      | tokenUsage => intro hid _; obtain ⟨_, _, h⟩ := h hid rfl; cases h
    refine hinv.after_run (x := x)
      (Q := fun pre post => (∀ c : Ctx H, Acting o factory host events c → c.log = pre ++ [.applied x] → ∃ c' c'' v,
        tests o c x pred = (.available true, c') ∧ evalExpr o c' x msg = (.available v, c'') ∧
        o.encode c'' svc v = some bytes ∧
        ∀ (d : Ctx H) (rid : Text), d.log = c.log → ∃ token, (o.dispatch d svc bytes rid).1 = some token) →
        ∃ token rid rest, post = .dispatch x head.guard token svc bytes rid :: rest)
      ?_ ?_ hb htasks trivial pre post hlog hd
    · intro pre post es h hd
      obtain ⟨token, rid, rest, h1⟩ := h hd
      exact ⟨token, rid, rest ++ es, by rw [h1]; rfl⟩
    · intro k c es hk hid hw _ hS hl hd
      obtain ⟨deps, r, rfl⟩ := hk hid hw
      obtain ⟨c', c'', v, h1, h2, h3, h4⟩ := hd (c.push (.applied x)) hS rfl
      rw [← testPred_tests] at h1
      have hl2 : c''.log = c.log ++ [.applied x] := (Gave.log (o := o) ⟨c', h1, h2⟩)
      have hlr : (requestId o c'').2.log = c''.log := by simpa using (requestId_ext o c'').log
      obtain ⟨token, h5⟩ := h4 (requestId o c'').2 (requestId o c'').1 (hlr.trans hl2)
      simp only [Core.apply, applyGrpc, h1, h2, dispatchValue, h3] at hl
      generalize hq : o.dispatch (requestId o c'').2 svc bytes (requestId o c'').1 = q at h5 hl
      obtain ⟨a, hh⟩ := q
      dsimp only at h5
      subst h5
      dsimp only at hl
      refine ⟨token, (requestId o c'').1, [], ?_⟩
      have hlog' : (requestId o c'').2.log ++ [.dispatch x head.guard token svc bytes (requestId o c'').1] =
          c.log ++ [.applied x] ++ es := by
        split at hl <;> exact hl
      rw [hlr, hl2] at hlog'
      exact (List.append_cancel_left hlog').symm
  · exfalso
    have := unrelated_run_idle (o := o) factory host events (fun p hp => hb ⟨p, hp⟩) (.applied x) (by rw [hlog]; simp)
    simp [Effect.unrelated] at this

end

end Verif
