import Verif.Lemmas.Routed
/-!
C82: the action set that serves a request is the one that the configuration gives for what the host says about it.
-/
namespace Verif.Props
open Verif Verif.Spec Verif.Cel

variable {W : Type} (w : World W)

theorem hostname_eq (c : Ctx (Attrs W)) : w.oracle.hostname c =
    c.host.read w.abi.backend (fromBytes fromUtf8) (Path.parse "request.host".toList) := rfl

theorem read_fetched {α : Type} {b : Backend W} {as : Cached → Except AttrErr α} {s : Attrs W} {path : Path} {v : Cached}
    {x : α} (hc : s.cached path = none) (hf : (fetchAttribute b s.world path).1 = .ok v) (ha : as v = .ok x) :
    (s.read b as path).1 = .available x := by
  have h4 : fetchAttribute b s.world path = (.ok v, _) := Prod.ext hf rfl
  unfold Attrs.read
  rw [hc, h4]
  simp only [ha]

/-- The host name of a request is what the host says it is. -/
theorem reported_hostname {world : W} {raw : Text}
    (h : Reported w.abi w.lib.json world ⟨"request".toList, "host".toList, .str raw⟩) :
    ∃ s, w.oracle.hostname { host := { world } } = (.available (some raw), s) ∧ Grows w.abi { world } s := by
  generalize hf : (⟨"request".toList, "host".toList, .str raw⟩ : Fact) = f at h
  cases h with
  | headers => cases hf
  | @property root field bytes v hn hp h hv =>
    cases hf
    have hk : knownType ["request".toList, "host".toList] = some .string := by decide +kernel
    rw [hk] at hv
    cases hv
    have hfetch := fetch_property w (x := world) hp (by decide) h
    have hpath : Path.parse "request.host".toList = ["request".toList, "host".toList] := by decide +kernel
    have hread : (w.oracle.hostname { host := { world } }).1 = .available (some raw) := by
      rw [hostname_eq, hpath]
      exact read_fetched rfl hfetch (by simp only [fromBytes, fromUtf8_utf8])
    have hgrows := grows_hostname w { host := { world } }
    generalize w.oracle.hostname { host := { world } } = q at hread hgrows
    obtain ⟨r, s⟩ := q
    cases hread
    exact ⟨s, rfl, hgrows⟩

/-- C82: a request is served by the first action set, among those for the most specific hostname that covers its host,
whose route predicates hold of what the host says about the request. If there is none, no action set serves it, and
nothing is done for it unless developer mode is on. -/
theorem C82_served (cfg : PluginConfig) (factory : Factory)
    (hf : Factory.tryFrom w.oracle.parse cfg = some factory) (hc : ∀ p ∈ patterns cfg, '$' ∉ p)
    (world : W) (hres : ∀ s, w.reserved { host := s } = []) (raw : Text)
    (hraw : Reported w.abi w.lib.json world ⟨"request".toList, "host".toList, .str raw⟩)
    (hd : '$' ∉ hostOf raw) (hs : (hostOf raw).head? ≠ some '*') (p : Text) (hp : Best cfg (hostOf raw) p)
    (facts : List Fact) (hfacts : ∀ f ∈ facts, Reported w.abi w.lib.json world f ∧ f.root ∈ visibleRoots ∧
      f.path ≠ ["request".toList, "grpc".toList])
    (holds : Text → Bool)
    (hh : ∀ s ∈ setsFor cfg p, ∀ t ∈ s.predicates, FactsDecide w.lib facts t (.bool (holds t))) :
    match (setsFor cfg p).find? fun s => s.predicates.all holds with
    | some s => ServedBy w.oracle w.oracle.parse cfg factory { world } s
    | none => match devModeAction cfg with
      | none => (factory.select w.oracle { host := { world } }).1 = .none
      | some a => (factory.select w.oracle { host := { world } }).1 =
          .found { name := "kuadrant.devMode".toList, routePredicates := [], actions := [a] } := by
  obtain ⟨s0, h0, hg0⟩ := reported_hostname w hraw
  rcases C17_most_specific w.oracle w.oracle.parse cfg factory hf hc { host := { world } } raw s0 h0 hd hs with
    ⟨p', hp', pick, h1, h2⟩ | ⟨h1, _⟩
  · have : p' = p := hp'.unique hs hp
    subst this
    have hmem : ∀ s ∈ candidates cfg p', s ∈ setsFor cfg p' := by
      intro s hs
      obtain ⟨x, hx, hm⟩ := List.mem_flatMap.1 hs
      obtain ⟨q, hq, rfl⟩ := List.mem_map.1 hm
      obtain ⟨hq1, hq2⟩ := List.mem_filter.1 hq
      exact List.mem_filter.2 ⟨hx, List.any_eq_true.2 ⟨q, hq1, hq2⟩⟩
    have hpick := first_settled (I := fun c => ∃ s, c = { host := s } ∧ Grows w.abi { world } s) (holds := holds)
      (o := w.oracle) (parse := w.oracle.parse) (ss := candidates cfg p')
      (by
        rintro _ es ⟨s, rfl, hg⟩
        exact ⟨_, rfl, hg.trans (grows_oracle_ensure w { host := s } es)⟩)
      (by
        rintro s hs t ht e he _ ⟨x, rfl, hg⟩
        obtain ⟨x', h3, h4⟩ := settled_value w hres hfacts (hh s (hmem s hs) t ht) he hg []
        exact ⟨_, by unfold tests; rw [h3]; rfl, x', rfl, h4⟩)
      h1 ⟨s0, rfl, hg0⟩
    rw [find_candidates] at hpick
    generalize (setsFor cfg p').find? _ = r at hpick ⊢
    cases r with
    | none =>
      dsimp only at hpick ⊢
      subst hpick
      generalize (factory.select w.oracle { host := { world } }).1 = r at h2 ⊢
      cases h2 with
      | none hn =>
        have : devModeAction cfg = none := devMode_none.2 hn
        rw [this]
      | fallback a ha => rw [ha]
    | some s =>
      dsimp only at hpick ⊢
      subst hpick
      unfold ServedBy
      generalize (factory.select w.oracle { host := { world } }).1 = r at h2 ⊢
      cases h2 with
      | set s b hb =>
        obtain ⟨b', h3, h4⟩ := Option.map_eq_some_iff.1 hb
        exact ⟨b, b', rfl, h3, h4.symm⟩
  · exact absurd hp.covers (h1 p hp.configured)

/-- C82: if no configured hostname covers the host, nothing is done for the request. -/
theorem C82_uncovered (cfg : PluginConfig) (factory : Factory)
    (hf : Factory.tryFrom w.oracle.parse cfg = some factory) (hc : ∀ p ∈ patterns cfg, '$' ∉ p)
    (world : W) (raw : Text)
    (hraw : Reported w.abi w.lib.json world ⟨"request".toList, "host".toList, .str raw⟩)
    (hd : '$' ∉ hostOf raw) (hs : (hostOf raw).head? ≠ some '*') (hp : ∀ p ∈ patterns cfg, ¬Covers p (hostOf raw)) :
    (factory.select w.oracle { host := { world } }).1 = .none := by
  obtain ⟨s0, h0, hg0⟩ := reported_hostname w hraw
  rcases C17_most_specific w.oracle w.oracle.parse cfg factory hf hc { host := { world } } raw s0 h0 hd hs with
    ⟨p', hp', _⟩ | ⟨_, h1⟩
  · exact absurd hp'.covers (hp p' hp'.configured)
  · exact h1

end Verif.Props
