import Verif.Lemmas.HostFacts
import Verif.Props.WireRequest
/-!
C81: the authorization service and the rate limiter are told what the host says about the request.
-/
namespace Verif
open Spec Cel Legacy

/-- The names of a header map are distinct. -/
theorem toMap_nodup (m : Headers) : (m.toMap.map Prod.fst).Nodup := by
  unfold Headers.toMap
  suffices h : ∀ acc : List (Text × Text), (acc.map Prod.fst).Nodup → ((m.foldl (init := acc) fun m (k, v) =>
      if m.any (fun e => e.1 = k) then m.map (fun e => if e.1 = k then (k, e.2 ++ ',' :: v) else e)
      else List.append m [(k, v)]).map Prod.fst).Nodup from h [] List.nodup_nil
  induction m with
  | nil => exact fun _ h => h
  | cons e m ih =>
    intro acc h
    rw [List.foldl_cons]
    apply ih
    dsimp only
    split
    · rw [List.map_map, show acc.map _ = acc.map Prod.fst from List.map_congr_left fun x _ => by
        show (if x.1 = e.1 then (e.1, x.2 ++ ',' :: e.2) else x).1 = x.1
        split
        · rename_i h
          exact h.symm
        · rfl]
      exact h
    · rename_i hn
      show ((acc ++ [(e.1, e.2)]).map Prod.fst).Nodup
      rw [List.map_append, List.nodup_append]
      refine ⟨h, by simp, ?_⟩
      rintro a ha b hb rfl
      simp only [List.map_cons, List.map_nil, List.mem_singleton] at hb
      obtain ⟨x, hx, hxa⟩ := List.mem_map.1 ha
      exact hn (List.any_eq_true.2 ⟨x, hx, by simp [hxa, hb]⟩)

/-- The message to the authorization service mentions all attributes it tells. -/
theorem auth_mentions (P : Text → Ast) (scope : Text) (domains : List Text) (data : RequestData) (t : CheckFacts) :
    ∀ f ∈ t.attributes, f.path ∈ chains (authAst P scope domains data) := by
  have h : ∀ p ∈ t.attributes.map Fact.path, p ∈ chains (authAst P scope domains data) := by
    rw [show t.attributes.map Fact.path = [["request".toList, "time".toList], ["request".toList, "host".toList],
      ["request".toList, "method".toList], ["request".toList, "scheme".toList], ["request".toList, "path".toList],
      ["request".toList, "protocol".toList], ["request".toList, "headers".toList],
      ["destination".toList, "address".toList], ["destination".toList, "port".toList],
      ["source".toList, "address".toList], ["source".toList, "port".toList]] from rfl]
    simp only [authAst, message, List.map_cons, List.map_nil, chains, chainsOfFields, httpRequestAst, peerAst, toUintAst,
      chainsOf, Cel.path, List.foldl_cons, List.foldl_nil, chainOf, Option.map_some, List.cons_append, List.nil_append,
      List.append_nil]
    generalize chainsOfFields _ = rest
    generalize chains _ = rest'
    simp
  exact fun f hf => h _ (List.mem_map_of_mem hf)

end Verif

namespace Verif.Props
open Verif Verif.Spec Verif.Legacy Verif.Cel

variable {L : ProtoLib} {P : Text → Ast} {W : Type} (w : World W)

/-- C81: every call sent to an authorization service for a translated action tells what the host says about the request:
its time, host, method, scheme, path, protocol, headers and the ends of the connection, and the request data that follow
from what the host says. Assumed is what the CEL library makes of the text of the message. -/
theorem C81_check (cfg : PluginConfig) (factory : Factory) (world : W) (s : ActionSet)
    (hs : ServedBy w.oracle w.oracle.parse cfg factory { world } s) (i : Nat) (a : LegacyAction) (data : RequestData)
    (hi : s.actions[i]? = some (a.config data)) (svc : Svc) (deny : Bool)
    (hsvc : cfg.services a.service = some (.call .auth svc deny))
    (hp : ∀ d ∈ availableTo .auth data, Proper P d.2)
    (hn : ((availableTo .auth data).map Prod.fst).Nodup)
    (hlib : Cel.Follows w.lib (requestOf (translate a data .auth)))
    (hmirror : Cel.Mirrors w.lib (requestOf (translate a data .auth)))
    (events : List (Event W)) (pre post : List Effect) (guard : Bool) (token : Nat) (svc' : Svc) (bytes : Bytes)
    (rid : Text)
    (hlog : (w.session factory world events).filter.log =
      pre ++ .dispatch (natText i) guard token svc' bytes rid :: post)
    (t : CheckFacts) (more : List Fact)
    (hstands : ∀ f ∈ t.attributes ++ more, f.Stands w.abi w.lib.json world cfg.services s pre)
    (hmore : ∀ f ∈ more, Mentions (requestOf (translate a data .auth)) f.path)
    (hscope : t.scope = a.scope) (hdomains : Domains (availableTo .auth data) (t.metadata.map Prod.fst))
    (hdata : ∀ env, (∀ f ∈ t.attributes ++ more, f.Seen env) → ∀ d ∈ t.metadata,
      Each (fun r f => f.1 = r.1.2 ∧ SentAs (eval env) P r.2 f.2)
        ((availableTo .auth data).filter fun r => domainName r.1.1 = d.1) d.2)
    (hG : GoodDescs L) (hR : RequestDescs L) (wire : ProtoVal → Bytes)
    (henc : ∀ v, w.lib.encode svc v = (toMessage L v checkRequestName).map wire) :
    svc' = svc ∧ ∃ p, bytes = wire p ∧ t.On p := by
  have hnanos : t.nanos < 2 ^ 31 := by
    have h := (hstands ⟨"request".toList, "time".toList, .timestamp t.seconds t.nanos⟩ (by simp [CheckFacts.attributes])).given
    generalize hf : (⟨"request".toList, "time".toList, .timestamp t.seconds t.nanos⟩ : Fact) = f at h
    cases h with
    | property _ _ _ hv =>
      cases hf
      rw [show knownType ["request".toList, "time".toList] = some .timestamp from by decide +kernel] at hv
      cases hv with
      | time h => exact Nat.lt_trans h (by decide)
    | headers => cases hf
  have hdistinct : (t.headers.map Prod.fst).Nodup := by
    have h := (hstands ⟨"request".toList, "headers".toList, .map (t.headers.map fun h => (.str h.1, .str h.2))⟩
      (by simp [CheckFacts.attributes])).given
    generalize hf : (⟨"request".toList, "headers".toList, .map (t.headers.map fun h => (.str h.1, .str h.2))⟩ : Fact) = f at h
    cases h with
    | property _ hd =>
      cases hf
      exact absurd (by decide) hd
    | @headers m =>
      have h1 : t.headers.map (fun h : Text × Text => ((.str h.1, .str h.2) : Key × Val)) =
          m.toMap.map fun e => (.str e.1, .str e.2) := by
        injection hf with _ _ h
        injection h
      have h2 := congrArg (List.map fun e : Key × Val => e.1) h1
      have hinj : Function.Injective Key.str := fun a b h => by cases h; rfl
      rw [List.map_map, List.map_map] at h2
      have h3 : (t.headers.map Prod.fst).map Key.str = (m.toMap.map Prod.fst).map Key.str := by
        rw [List.map_map, List.map_map]
        exact h2
      rw [List.map_inj_right (fun _ _ h => hinj h)] at h3
      rw [h3]
      exact toMap_nodup m
  have hfacts : ∀ env, (∀ f ∈ t.attributes ++ more, f.Seen env) →
      TrueFacts (eval env) P a.scope (availableTo .auth data) t := by
    intro env he
    have h : ∀ f ∈ t.attributes, f.Seen env := fun f hf => he f (List.mem_append_left _ hf)
    simp only [CheckFacts.attributes, List.forall_mem_cons] at h
    obtain ⟨h1, h2, h3, h4, h5, h6, h7, h8, h9, h10, h11, -⟩ := h
    exact ⟨h1, hnanos, h2, h3, h4, h5, h6, h7, hdistinct, ⟨h8, _, h9, .int _⟩, ⟨h10, _, h11, .int _⟩, hscope, hdomains,
      hdata env he⟩
  obtain ⟨domains, hd, hparse⟩ := C32_auth_request P a data hp
  obtain ⟨h1, h2, env, henv⟩ := facts_sent w cfg factory world s hs i a data hi .auth svc deny hsvc (by simp) hlib hmirror events pre
    post guard token svc' bytes rid hlog (t.attributes ++ more) (fun f hf => ⟨hstands f hf, by
      rcases List.mem_append.1 hf with hf | hf
      · intro ast hast
        cases parses_unique hast hparse
        exact auth_mentions P _ _ _ t f hf
      · exact hmore f hf⟩) ⟨_, hparse⟩ (checkQuery t).value
    (fun env he => C76_check P a data hp hn _ (evaluator env) _ (facts_check (hfacts env he)))
  have hmeta : ∀ d ∈ t.metadata, (d.2.map Prod.fst).Nodup := by
    intro d hd
    rw [each_fst (fun r => r.1.2) (fun a b h => h.1) (hdata env henv d hd)]
    exact nodup_fields hn d.1
  obtain ⟨p, h3, h4⟩ := check_made hG hR t hnanos hdistinct (hdomains.sorted.imp fun h => h.2) hmeta
  rw [henc, h3] at h2
  exact ⟨h1, p, (Option.some.inj h2).symm, h4⟩

/-- C81: every call sent to a rate limit service for a translated action asks what follows from what the host says about
the request. -/
theorem C81_limit (cfg : PluginConfig) (factory : Factory) (world : W) (s : ActionSet)
    (hs : ServedBy w.oracle w.oracle.parse cfg factory { world } s) (i : Nat) (a : LegacyAction) (data : RequestData)
    (hi : s.actions[i]? = some (a.config data)) (kind : SvcKind) (svc : Svc) (deny : Bool)
    (hsvc : cfg.services a.service = some (.call kind svc deny))
    (hk : kind = .rateLimit ∨ kind = .rateLimitCheck ∨ kind = .rateLimitReport)
    (hp : ProperConfig P a.conditionalData (availableTo kind data))
    (hlib : Cel.Follows w.lib (requestOf (translate a data kind)))
    (hmirror : Cel.Mirrors w.lib (requestOf (translate a data kind)))
    (events : List (Event W)) (pre post : List Effect) (guard : Bool) (token : Nat) (svc' : Svc) (bytes : Bytes)
    (rid : Text)
    (hlog : (w.session factory world events).filter.log =
      pre ++ .dispatch (natText i) guard token svc' bytes rid :: post)
    (facts : List Fact) (hfacts : ∀ f ∈ facts, f.Stands w.abi w.lib.json world cfg.services s pre ∧
      Mentions (requestOf (translate a data kind)) f.path)
    (q : LimitQuery) (hq : ∀ env, (∀ f ∈ facts, f.Seen env) →
      Queries (eval env) P a.scope a.conditionalData (availableTo kind data) q)
    (hG : GoodDescs L) (hR : RequestDescs L) (wire : ProtoVal → Bytes)
    (henc : ∀ v, w.lib.encode svc v = (toMessage L v limitRequestName).map wire) :
    svc' = svc ∧ ∃ p, bytes = wire p ∧ limitOn q p := by
  obtain ⟨h1, h2, -⟩ := facts_sent w cfg factory world s hs i a data hi kind svc deny hsvc
    (by rcases hk with rfl | rfl | rfl <;> simp) hlib hmirror events pre
    post guard token svc' bytes rid hlog facts hfacts ⟨_, C32_ratelimit_request P a data kind hk hp⟩ q.value
    (fun env he => C76_limit P a data kind hk hp _ (evaluator env) q (hq env he))
  obtain ⟨p, h3, h4⟩ := limit_made hG hR q
  rw [henc, h3] at h2
  exact ⟨h1, p, (Option.some.inj h2).symm, h4⟩

end Verif.Props
