import Verif.Lemmas.CelLib
import Verif.Lemmas.ActingValues
import Verif.Lemmas.Gate
import Verif.Spec.Obliging
import Verif.Props.Gate
import Verif.Props.IdentityHost
import Verif.Props.VerdictDemo
/-!
C34, C35 and C68 on the composed model: what is assumed are the answers of the host and the CEL library, the latter
only for the texts of the reply actions.
-/
set_option linter.unusedSimpArgs false
namespace Verif.Props
open Verif Spec Cel Legacy

variable {W : Type}

/-! ### What a set leaves alone -/

theorem clear_of_spared (w : World W) {parse : Text → Option Expr} {cfg : PluginConfig} {factory : Factory} {host : Attrs W}
    {s : ActionSet} (hs : ServedBy w.oracle parse cfg factory host s) {events : List (Event (Attrs W))} {var : Text}
    (hfree : Spared cfg.services s var) {c : Ctx (Attrs W)} (hc : Fetching w.oracle factory host events c)
    (hres : ∀ path n, (path, n) ∈ w.reserved c → KeepsAt cfg.services s path) : Clear (w.store c) var := by
  have hval : ∀ k v, (k, v) ∈ (w.store c).values → KeepsAt cfg.services s k := by
    intro k v h
    rcases treeInserts_mem c.values [] h with h | h
    · exact fetching_values hs hc h
    · cases h
  refine ⟨?_, ?_, ?_⟩
  · cases hg : (w.store c).get var with
    | none => rfl
    | some v => exact absurd rfl (hfree var (fetching_values hs hc (world_store_mem w hg))).1
  · unfold ValueStore.isPending
    rw [Bool.and_eq_false_iff]
    refine .inr (List.any_eq_false.2 fun e he h => ?_)
    have h1 := of_decide_eq_true h
    exact (hfree e.1 (hres e.1 e.2 he)).1 h1
  · unfold ValueStore.hasPrefix
    rw [Bool.or_eq_false_iff]
    constructor
    · cases he : (w.store c).values.find? fun e => textLe (var ++ ['.']) e.1 with
      | none => rfl
      | some e =>
        rw [Option.any_some, Bool.eq_false_iff]
        intro h
        exact (hfree e.1 (hval e.1 e.2 (List.mem_of_find?_eq_some he))).2 (startsWith_iff.1 h)
    · refine List.any_eq_false.2 fun e he h => ?_
      exact (hfree e.1 (hres e.1 e.2 he)).2 (startsWith_iff.1 h)

/-! ### The texts of the reply actions -/

/-- The texts mention only the name of the response, and no function for fields of the bodies. -/
theorem table_about : ∀ t ∈ VerdictDemo.table, (∀ n ∈ variables t.2.2, n = t.2.1) ∧
    ∀ f ∈ bodyFunctions, f ∉ functions t.2.2 := by
  decide +kernel

theorem table_names : ∀ t ∈ VerdictDemo.table, t.2.1 ∉ takenNames := by decide +kernel

/-- The reply texts with the variable they are about. -/
theorem table_interprets (w : World W) {t : Text × (Text × Ast)} (ht : t ∈ VerdictDemo.table)
    (hlib : Cel.Follows w.lib t.1) {known : Ctx (Attrs W) → Prop}
    (hclear : ∀ c, known c → Clear (w.store c) t.2.1) (log : List Effect) (id : Text) (v : Val) (a : Ast) (e : Expr)
    (hp : Parses t.1 a) (he : w.oracle.parse t.1 = some e) :
    (e.reqFields = [] ∧ e.respFields = []) ∧ ∀ c, (known c ∧ SeesValue log id t.2.1 v c) →
      (∀ u, eval (bound t.2.1 v) a = some u → (evalExpr w.oracle c id e).1 = .available u) ∧
      (Fails w.lib t.1 → eval (bound t.2.1 v) a = none → (evalExpr w.oracle c id e).1 = .err) := by
  have hpa := parses_unique hp (VerdictDemo.table_parses t ht)
  subst hpa
  obtain ⟨hv, hf⟩ := table_about t ht
  have hn := table_names t ht
  simp only [World.oracle, Option.map_eq_some_iff] at he
  obtain ⟨x, hx, rfl⟩ := he
  have hreq : t.2.1 ≠ "request".toList := fun h => hn (by rw [h]; decide)
  have ha : About (compileExpr x) t.2.1 := about_of_parts
    (fun n h => hv n (hlib.variables _ x hp hx n h))
    (fun f hfb args h => hf f hfb (hlib.functions _ x hp hx f hfb args h)) hreq
  refine ⟨⟨ha.request, ha.response⟩, fun c hc => ?_⟩
  obtain ⟨vars, h1, h2⟩ := about_eval w
    (e := ⟨t.1, (compileExpr x).requestFields, (compileExpr x).responseFields, none⟩) hx rfl ha.request ha.response ha hn c (hclear c hc.1) id hc.2.2
  have hcongr : eval (mapGet vars) t.2.2 = eval (bound t.2.1 v) t.2.2 := eval_congr _ fun n hm => by
    rw [hv n hm, h1]
    simp [bound]
  refine ⟨fun u hu => ?_, fun hfail hu => ?_⟩
  · rw [h2, hlib.value _ vars u hp (hcongr.trans hu)]
  · rw [h2, hfail _ vars hp (hcongr.trans hu)]

/-- All texts of the replies are in the table. -/
theorem limit_texts : ∀ r ∈ ratelimitOnReply rlName, ∀ u ∈ exprTexts r,
    ∃ t ∈ VerdictDemo.table, t.1 = u ∧ t.2.1 = rlName := by
  decide +kernel

theorem auth_texts : ∀ r ∈ authOnReply authName, ∀ u ∈ exprTexts r,
    ∃ t ∈ VerdictDemo.table, t.1 = u ∧ t.2.1 = authName := by
  decide +kernel

theorem understands_of (w : World W) {known : Ctx (Attrs W) → Prop} {x var : Text} {replies : List TypedAction}
    (htab : ∀ r ∈ replies, ∀ u ∈ exprTexts r, ∃ t ∈ VerdictDemo.table, t.1 = u ∧ t.2.1 = var)
    (hlib : ∀ r ∈ replies, ∀ u ∈ exprTexts r, Cel.Follows w.lib u) (hclear : ∀ c, known c → Clear (w.store c) var) (v : Val)
    (log : List Effect) : Understands w.oracle known w.oracle.parse x replies var v log := by
  intro j r hj u hu a e hp he
  obtain ⟨t, ht, rfl, rfl⟩ := htab r (List.mem_of_getElem? hj) u hu
  have h := table_interprets w ht (hlib r (List.mem_of_getElem? hj) _ hu) hclear log (x ++ '.' :: natText j) v a e hp he
  exact ⟨h.1.1, h.1.2, fun u hu c hc => (h.2 c hc).1 u hu⟩

/-! ### Header maps -/

/-- The property written is the header map. -/
def WritesOver (t : Target) : Effect → Prop
  | .attrSet path _ _ => Path.parse path = headersPath t
  | _ => False

/-- What is remembered of a header map is a header map, unless a property was written in its place. -/
def TypedMap (t : Target) (s : Attrs W) (l : List Effect) : Prop :=
  (∃ e ∈ l, WritesOver t e) ∨ ∀ v, mapGet s.cache (headersPath t).print = some v → ∃ hs, v = .headers hs

theorem typed_world {t : Target} {s : Attrs W} {l : List Effect} {world : W} (h : TypedMap t s l) :
    TypedMap t { s with world } l := h

theorem typed_empty (t : Target) (world : W) : TypedMap t ({ world } : Attrs W) [] := by
  refine .inr fun v hv => ?_
  generalize (headersPath t).print = k at hv
  cases hv

theorem typed_inv (w : World W) (t : Target) : SessionInv w (TypedMap t) where
  push s l e _ h := h.imp (fun ⟨x, hx, hw⟩ => ⟨x, List.mem_append_left _ hx, hw⟩) id
  grows s s' l hg h := by
    refine h.imp id fun h v hv => ?_
    rcases hg.new _ _ hv with h1 | ⟨p, h1, h2⟩
    · exact h v h1
    · cases print_headers h1
      cases t with
      | request =>
        simp only [fetchAttribute, if_true] at h2
        split at h2 <;> cases h2
        exact ⟨_, rfl⟩
      | response =>
        rw [fetchAttribute, if_neg (by decide), if_pos rfl] at h2
        split at h2 <;> cases h2
        exact ⟨_, rfl⟩
  dispatch c svc m rid id guard call h _ _ _ _ _ _ := by
    generalize w.abi.dispatch c.host.world call = q
    obtain ⟨r, y⟩ := q
    cases r with
    | ok token => exact h.imp (fun ⟨x, hx, hw⟩ => ⟨x, List.mem_append_left _ hx, hw⟩) _root_.id
    | error e => exact h
  exported c call h _ _ _ := by
    generalize w.abi.dispatch c.host.world call = q
    obtain ⟨r, y⟩ := q
    cases r with
    | ok token => exact h.imp (fun ⟨x, hx, hw⟩ => ⟨x, List.mem_append_left _ hx, hw⟩) id
    | error e => exact h
  reply s l status hs body h := by
    generalize w.abi.reply s.world status hs (body.map utf8) = q
    obtain ⟨r, y⟩ := q
    cases r <;> exact h.imp (fun ⟨x, hx, hw⟩ => ⟨x, List.mem_append_left _ hx, hw⟩) id
  headers s l t' old pairs h hc hp := by
    generalize w.abi.setMap s.world t' (setAll old pairs) = q
    obtain ⟨r, y⟩ := q
    cases r with
    | ok u =>
      refine h.imp (fun ⟨x, hx, hw⟩ => ⟨x, List.mem_append_left _ hx, hw⟩) fun h v hv => ?_
      simp only [Attrs.insert, mapGet_mapInsert] at hv
      split at hv
      · exact ⟨_, (Option.some.inj hv).symm⟩
      · exact h v hv
    | error e => exact h
  property s l path v h := by
    generalize w.abi.setProperty s.world (Attrs.hostPath (Path.parse path)) v = q
    obtain ⟨r, y⟩ := q
    cases r with
    | ok u =>
      by_cases hk : (headersPath t).print = (Path.parse path).print
      · exact .inl ⟨_, List.mem_append_right _ (.head _), print_headers hk.symm⟩
      · refine h.imp (fun ⟨x, hx, hw⟩ => ⟨x, List.mem_append_left _ hx, hw⟩) fun h v hv => ?_
        simp only [Attrs.insert, mapGet_mapInsert, if_neg hk] at hv
        exact h v hv
    | error e => exact h

/-- The header map is remembered, unless a property was written in its place. -/
def KnownMap (t : Target) (s : Attrs W) (l : List Effect) : Prop :=
  (∃ e ∈ l, WritesOver t e) ∨ ∃ hs, mapGet s.cache (headersPath t).print = some (.headers hs)

theorem known_world {t : Target} {s : Attrs W} {l : List Effect} {world : W} (h : KnownMap t s l) :
    KnownMap t { s with world } l := h

theorem known_inv (w : World W) (t : Target) : SessionInv w (KnownMap t) where
  push s l e _ h := h.imp (fun ⟨x, hx, hw⟩ => ⟨x, List.mem_append_left _ hx, hw⟩) id
  grows s s' l hg h := h.imp id fun ⟨hs, h⟩ => ⟨hs, hg.kept _ _ h⟩
  dispatch c svc m rid id guard call h _ _ _ _ _ _ := by
    generalize w.abi.dispatch c.host.world call = q
    obtain ⟨r, y⟩ := q
    cases r with
    | ok token => exact h.imp (fun ⟨x, hx, hw⟩ => ⟨x, List.mem_append_left _ hx, hw⟩) _root_.id
    | error e => exact h
  exported c call h _ _ _ := by
    generalize w.abi.dispatch c.host.world call = q
    obtain ⟨r, y⟩ := q
    cases r with
    | ok token => exact h.imp (fun ⟨x, hx, hw⟩ => ⟨x, List.mem_append_left _ hx, hw⟩) id
    | error e => exact h
  reply s l status hs body h := by
    generalize w.abi.reply s.world status hs (body.map utf8) = q
    obtain ⟨r, y⟩ := q
    cases r <;> exact h.imp (fun ⟨x, hx, hw⟩ => ⟨x, List.mem_append_left _ hx, hw⟩) id
  headers s l t' old pairs h hc hp := by
    generalize w.abi.setMap s.world t' (setAll old pairs) = q
    obtain ⟨r, y⟩ := q
    cases r with
    | ok u =>
      refine h.imp (fun ⟨x, hx, hw⟩ => ⟨x, List.mem_append_left _ hx, hw⟩) fun ⟨hs, h⟩ => ?_
      simp only [Attrs.insert, mapGet_mapInsert]
      split
      · exact ⟨_, rfl⟩
      · exact ⟨hs, h⟩
    | error e => exact h
  property s l path v h := by
    generalize w.abi.setProperty s.world (Attrs.hostPath (Path.parse path)) v = q
    obtain ⟨r, y⟩ := q
    cases r with
    | ok u =>
      by_cases hk : (headersPath t).print = (Path.parse path).print
      · exact .inl ⟨_, List.mem_append_right _ (.head _), print_headers hk.symm⟩
      · refine h.imp (fun ⟨x, hx, hw⟩ => ⟨x, List.mem_append_left _ hx, hw⟩) fun ⟨hs, h⟩ => ⟨hs, ?_⟩
        simp only [Attrs.insert, mapGet_mapInsert, if_neg hk]
        exact h
    | error e => exact h

theorem known_built (w : World W) {cfg : PluginConfig} {factory : Factory} {world : W} {s : ActionSet}
    (hs : ServedBy w.oracle w.oracle.parse cfg factory { world } s) {m : Headers}
    (hm : w.abi.getMap world .request = .ok m) (hne : m ≠ []) {p : Pipe (Attrs W)}
    (hb : factory.build w.oracle { host := { world } } = .pipeline p) : On (KnownMap .request) p.ctx := by
  have h0 := (servedBy_begun hs hb).log
  obtain ⟨new, h1, h2⟩ := build_headers w factory hm hne hb
  rcases h2 with ⟨e, he, _⟩ | h2
  · rw [h0] at h1
    rw [List.nil_append] at h1
    subst h1
    cases he
  · exact .inr ⟨m, h2⟩

/-- No property is written in place of the header map. -/
theorem no_overwrite {w : World W} {cfg : PluginConfig} {factory : Factory} {host : Attrs W} {s : ActionSet}
    (hs : ServedBy w.oracle w.oracle.parse cfg factory host s) {t : Target}
    (hfree : ∀ path, KeepsAt cfg.services s path → Path.parse path ≠ headersPath t) {events : List (Event (Attrs W))}
    {a : Ctx (Attrs W)} (ha : Acting w.oracle factory host events a) : ∀ e ∈ a.log, ¬WritesOver t e := by
  intro e he hw
  have hj := acting_justified hs ha
  obtain ⟨pre, post, hlog⟩ := List.append_of_mem he
  cases e with
  | attrSet path b ok =>
    have := hj.cause pre _ post hlog rfl
    cases this with
    | «attribute» hat => exact hfree path ⟨_, _, _, _, hat⟩ hw
  | _ => exact hw

/-- The contexts of a request remember header maps as such. -/
theorem typed_session (w : World W) {cfg : PluginConfig} {factory : Factory} {world : W} {s : ActionSet}
    (hs : ServedBy w.oracle w.oracle.parse cfg factory { world } s) (t : Target)
    (hfree : ∀ path, KeepsAt cfg.services s path → Path.parse path ≠ headersPath t) (events : List (Event W))
    {c : Ctx (Attrs W)} (hc : Fetching w.oracle factory { world } (w.trail factory world events) c) :
    ∀ v, mapGet c.host.cache (headersPath t).print = some v → ∃ hs, v = .headers hs := by
  have hi := (typed_inv w t).hostInv
  obtain ⟨a, ha, hask⟩ := hc
  by_cases hb : ∃ p, factory.build w.oracle { host := { world } } = .pipeline p
  · obtain ⟨p, hb⟩ := hb
    obtain ⟨_, _, hall⟩ := session_trail w factory world events
    have hstart : ∀ p, factory.build w.oracle { host := { world } } = .pipeline p → On (TypedMap t) p.ctx := by
      exact fun p hb => hi.built (typed_empty t world) hb
    obtain ⟨_, h1⟩ := hall (TypedMap t) hi hstart (fun _ _ _ _ h => typed_world h) p hb
    have h2 : On (TypedMap t) c := hi.asked (h1 a ha) hask
    rcases h2 with ⟨e, he, hw⟩ | h2
    · rw [(asked_log hask).1] at he
      exact absurd hw (no_overwrite hs hfree ha e he)
    · exact h2
  · obtain ⟨before, e, ts, _, hm⟩ := ha
    rw [idle_turns factory _ (fun p hp => hb ⟨p, hp⟩) before e] at hm
    cases hm

/-- The headers of the request were read when the request came in. -/
theorem known_session (w : World W) {cfg : PluginConfig} {factory : Factory} {world : W} {s : ActionSet}
    (hs : ServedBy w.oracle w.oracle.parse cfg factory { world } s) {m : Headers}
    (hm : w.abi.getMap world .request = .ok m) (hne : m ≠ [])
    (hfree : ∀ path, KeepsAt cfg.services s path → Path.parse path ≠ headersPath .request) (events : List (Event W))
    {c : Ctx (Attrs W)} (hc : Fetching w.oracle factory { world } (w.trail factory world events) c) :
    ∃ hs, c.host.cached (headersPath .request) = some (.headers hs) := by
  have hi := (known_inv w .request).hostInv
  obtain ⟨a, ha, hask⟩ := hc
  by_cases hb : ∃ p, factory.build w.oracle { host := { world } } = .pipeline p
  · obtain ⟨p, hb⟩ := hb
    obtain ⟨_, _, hall⟩ := session_trail w factory world events
    have hstart : ∀ p, factory.build w.oracle { host := { world } } = .pipeline p → On (KnownMap .request) p.ctx :=
      fun p hb => known_built w hs hm hne hb
    obtain ⟨_, h1⟩ := hall (KnownMap .request) hi hstart (fun _ _ _ _ h => known_world h) p hb
    have h2 : On (KnownMap .request) c := hi.asked (h1 a ha) hask
    rcases h2 with ⟨e, he, hw⟩ | h2
    · rw [(asked_log hask).1] at he
      exact absurd hw (no_overwrite hs hfree ha e he)
    · exact h2
  · obtain ⟨before, e, ts, _, hm⟩ := ha
    rw [idle_turns factory _ (fun p hp => hb ⟨p, hp⟩) before e] at hm
    cases hm

theorem replies_on_host (w : World W) (hh : Obliging w.abi) (c : Ctx (Attrs W)) (st : Nat) (hs : Headers)
    (b : Option Text) : (w.oracle.sendReply c st hs b).1 = true := by
  have := hh.reply c.host.world st hs (b.map utf8)
  simp only [World.oracle, Abi.sendReply]
  generalize w.abi.reply c.host.world st hs (b.map utf8) = q at this
  obtain ⟨r, y⟩ := q
  cases this
  rfl

theorem writes_on_host (w : World W) (hh : Obliging w.abi) (c : Ctx (Attrs W)) (t : Target) (hs : Headers) :
    ∃ u, (w.oracle.setHeaders c t hs).1 = .available u := by
  have := hh.write c.host.world t hs
  simp only [World.oracle, Attrs.writeHeaders, Abi.backend, Abi.setAttributeMap]
  generalize w.abi.setMap c.host.world t hs = q at this
  obtain ⟨r, y⟩ := q
  cases this
  exact ⟨(), rfl⟩

theorem takes_property (w : World W) (hh : Obliging w.abi) (c : Ctx (Attrs W)) (path : Text) (v : Bytes) :
    (w.oracle.setAttr c path v).1 ≠ .err := by
  have := hh.property c.host.world (Attrs.hostPath (Path.parse path)) v
  simp only [World.oracle, Attrs.writeBytes, Abi.backend, Abi.setAttribute]
  generalize w.abi.setProperty c.host.world (Attrs.hostPath (Path.parse path)) v = q at this
  obtain ⟨r, y⟩ := q
  cases this
  simp

theorem offers_on_host (w : World W) (hh : Obliging w.abi) {cfg : PluginConfig} {factory : Factory} {world : W}
    {s : ActionSet} (hs : ServedBy w.oracle w.oracle.parse cfg factory { world } s)
    (hfree : ∀ path, KeepsAt cfg.services s path → Path.parse path ≠ headersPath .response) (events : List (Event W)) :
    Offers w.oracle (Fetching w.oracle factory { world } (w.trail factory world events)) .response where
  reply c _ st hs b := replies_on_host w hh c st hs b
  read c hc := by
    have htyped := typed_session w hs .response hfree events hc
    simp only [World.oracle, Attrs.read]
    split
    · rename_i v hv
      obtain ⟨hs', rfl⟩ := htyped v hv
      simp [asHeaders]
    · obtain ⟨hs', hm⟩ := hh.read c.host.world
      have hf : fetchAttribute w.abi.backend c.host.world (headersPath .response) =
          (if hs'.isEmpty then .error .notAvailable else .ok (.headers hs'), c.host.world) := by
        rw [fetchAttribute, if_neg (by decide), if_pos rfl]
        simp only [Abi.backend, Abi.map, hm]
        cases hs'.isEmpty <;> rfl
      rw [hf]
      cases hs'.isEmpty <;> simp [asHeaders]
  write c old h _ _ hs := writes_on_host w hh _ _ hs

theorem willing_on_host (w : World W) (hh : Obliging w.abi) {cfg : PluginConfig} {factory : Factory} {world : W}
    {s : ActionSet} (hs : ServedBy w.oracle w.oracle.parse cfg factory { world } s)
    {m : Headers} (hm : w.abi.getMap world .request = .ok m) (hne : m ≠ [])
    (hfree : ∀ path, KeepsAt cfg.services s path → Path.parse path ≠ headersPath .request) (events : List (Event W)) :
    Willing w.oracle (Fetching w.oracle factory { world } (w.trail factory world events)) .request where
  reply c _ st hs b := replies_on_host w hh c st hs b
  read c hc := by
    obtain ⟨hs', h⟩ := known_session w hs hm hne hfree events hc
    exact ⟨hs', read_cached (as := asHeaders) h⟩
  write c _ hs := writes_on_host w hh c .request hs

/-! ### The response -/

/-- The response that comes last is looked at with the host of that callback. -/
theorem hearing_last {H : Type} {o : Oracle H} {factory : Factory} {host host' : H} {events : List (Event H)}
    {token s z : Nat} {c : Ctx H} (h : Hearing o factory host (events ++ [.grpcResponse host' token s z]) token s z c)
    (hlog : c.log = (Filter.run o factory host events).log ++ [.responded token s z]) : c.host = host' := by
  obtain ⟨b, now, p, hpre, hcr, hp, rfl⟩ := h
  rcases List.prefix_concat_iff.1 hpre with h1 | h1
  · have h2 := List.append_inj_right' h1 rfl
    cases h2
    rfl
  · exfalso
    obtain ⟨r, rfl⟩ := h1
    obtain ⟨more, hmore⟩ := run_more (o := o) factory host (b ++ [.grpcResponse now token s z]) r
    have h2 : (Filter.run o factory host b).log ++ [.responded token s z] =
        (Filter.run o factory host (b ++ [.grpcResponse now token s z] ++ r)).log ++ [.responded token s z] := hlog
    have h3 := List.append_cancel_right h2
    rw [hmore, run_snoc] at h3
    have hshape := step_shape (o := o) (Filter.run o factory host b) (.grpcResponse now token s z) hcr
      (run_sound (o := o) factory host _)
    have hlen := congrArg List.length h3
    generalize (Filter.run o factory host b).step o (.grpcResponse now token s z) = f' at hshape hlen
    cases hshape with
    | late host' t s' z' _ _ hl => rw [hl] at hlen; simp at hlen
    | response host' t s' z' _ _ es _ _ hes _ _ hl => rw [hl] at hlen; simp at hlen

theorem run_snoc_session (w : World W) (factory : Factory) (world world' : W) (events : List (Event W))
    (token status size : Nat) :
    w.trail factory world (events ++ [.grpcResponse world' token status size]) =
      w.trail factory world events ++
        [.grpcResponse { (w.session factory world events).host with world := world' } token status size] := by
  rw [trail_snoc]
  rfl

/-- C35 on the host: the answer of the rate limiter that the host delivers is carried out. Assumed are the answers of
the host, and what the CEL library makes of the texts of the reply actions. -/
theorem C35_on_host (w : World W) (hh : Obliging w.abi) (cfg : PluginConfig) (factory : Factory) (world : W)
    (s : ActionSet) (hs : ServedBy w.oracle w.oracle.parse cfg factory { world } s) (x : Text) (a : LegacyAction)
    (data : RequestData) (hat : At cfg.services s x (translateRatelimit a data))
    (kind : SvcKind) (svc : Svc) (deny : Bool) (hsvc : cfg.services a.service = some (.call kind svc deny))
    (hlib : ∀ r ∈ ratelimitOnReply (lit "ratelimit_response"), ∀ t ∈ exprTexts r, Cel.Follows w.lib t)
    (hfree : Spared cfg.services s (lit "ratelimit_response"))
    (hmap : ∀ path, KeepsAt cfg.services s path → Path.parse path ≠ headersPath .response)
    (events : List (Event W)) (world' : W) (token size : Nat) (callbacks : List (Event W))
    (hcb : callbacks = events ++ [.grpcResponse world' token 0 size])
    (hres : ∀ c, Fetching w.oracle factory { world } (w.trail factory world callbacks) c →
      ∀ path n, (path, n) ∈ w.reserved c → KeepsAt cfg.services s path)
    (before : List Effect) (hbefore : (w.session factory world events).filter.log = before)
    (hcall : InFlightFor before token x) (hend : ¬Ended before) (bytes : Bytes) (v : Val) (r : LimitReply)
    (hbytes : w.abi.grpcResponse world' size = some bytes) (hdec : w.lib.decode svc bytes = some v) (hr : r.Is v) :
    ∃ mine rest, (w.session factory world callbacks).filter.log =
        before ++ [.responded token 0 size, .completed x] ++ mine ++ rest ∧
      r.verdict.Undertaken w.oracle (Fetching w.oracle factory { world } (w.trail factory world callbacks))
        .response (x ++ ".1".toList) (before ++ [.responded token 0 size, .completed x]) mine := by
  subst hcb
  have hclear : ∀ c, Fetching w.oracle factory { world }
      (w.trail factory world (events ++ [.grpcResponse world' token 0 size])) c →
      Clear (w.store c) (lit "ratelimit_response") := fun c hc => clear_of_spared w hs hfree hc (hres c hc)
  have hoff := offers_on_host w hh hs hmap (events ++ [.grpcResponse world' token 0 size])
  have hrun := (session_trail w factory world (events ++ [.grpcResponse world' token 0 size])).2.1
  have hrun0 := (session_trail w factory world events).2.1
  rw [run_snoc_session] at hclear hoff hrun ⊢
  rw [hrun]
  rw [hrun0] at hbefore
  subst hbefore
  refine C35_decided w.oracle.parse cfg factory _ s hs x a data hat kind svc deny hsvc _ _ token size _ rfl hcall hend v r
    hr (fun c hc hlog => ?_) (understands_of w limit_texts hlib hclear v _) hoff
  have hhost := hearing_last hc hlog
  simp only [World.oracle, hhost, hbytes, Option.bind_some, hdec]

/-- C34 on the host: the answer of the authorization service that the host delivers is carried out. -/
theorem C34_on_host (w : World W) (hh : Obliging w.abi) (cfg : PluginConfig) (factory : Factory) (world : W)
    (s : ActionSet) (hs : ServedBy w.oracle w.oracle.parse cfg factory { world } s) (x : Text) (a : LegacyAction)
    (data : RequestData) (hat : At cfg.services s x (translateAuth a data))
    (kind : SvcKind) (svc : Svc) (deny : Bool) (hsvc : cfg.services a.service = some (.call kind svc deny))
    (hlib : ∀ r ∈ authOnReply (lit "auth_response"), ∀ t ∈ exprTexts r, Cel.Follows w.lib t)
    (hfree : Spared cfg.services s (lit "auth_response"))
    (hmap : ∀ path, KeepsAt cfg.services s path → Path.parse path ≠ headersPath .request)
    (events : List (Event W)) (world' : W) (token size : Nat) (callbacks : List (Event W))
    (hcb : callbacks = events ++ [.grpcResponse world' token 0 size])
    (hres : ∀ c, Fetching w.oracle factory { world } (w.trail factory world callbacks) c →
      ∀ path n, (path, n) ∈ w.reserved c → KeepsAt cfg.services s path)
    (before : List Effect) (hbefore : (w.session factory world events).filter.log = before)
    (hcall : InFlightFor before token x) (hend : ¬Ended before) (bytes : Bytes) (v : Val) (r : CheckReply)
    (hbytes : w.abi.grpcResponse world' size = some bytes) (hdec : w.lib.decode svc bytes = some v) (hr : r.Is v)
    (hstatus : ∀ status items body, r.result = .denied status items body →
      ∃ code, status = some code ∧ 0 ≤ code ∧ code < 2 ^ 32)
    (m : Headers) (hm : w.abi.getMap world .request = .ok m) (hne : m ≠ [])
    (hmeta : ∀ m, r.metadata = some m → ∃ bytes, w.lib.toBytes m = some bytes) :
    ∃ mine rest, (w.session factory world callbacks).filter.log =
        before ++ [.responded token 0 size, .completed x] ++ mine ++ rest ∧
      r.verdict.Done w.oracle (Fetching w.oracle factory { world } (w.trail factory world callbacks))
        .request (before ++ [.responded token 0 size, .completed x]) mine ∧
      ∀ items m, r.verdict = .proceed items → r.metadata = some m → .stored "auth".toList m ∈ mine := by
  subst hcb
  have hclear : ∀ c, Fetching w.oracle factory { world }
      (w.trail factory world (events ++ [.grpcResponse world' token 0 size])) c →
      Clear (w.store c) (lit "auth_response") := fun c hc => clear_of_spared w hs hfree hc (hres c hc)
  have hwill := willing_on_host w hh hs hm hne hmap (events ++ [.grpcResponse world' token 0 size])
  have hrun := (session_trail w factory world (events ++ [.grpcResponse world' token 0 size])).2.1
  have hrun0 := (session_trail w factory world events).2.1
  rw [run_snoc_session] at hclear hwill hrun ⊢
  rw [hrun]
  rw [hrun0] at hbefore
  subst hbefore
  refine C34_decided w.oracle.parse cfg factory _ s hs x a data hat kind svc deny hsvc _ _ token size _ rfl hcall hend v r
    hr hstatus (fun c hc hlog => ?_) (understands_of w auth_texts hlib hclear v _) hwill
    (fun m hm => (hmeta m hm).imp fun bytes hb => ⟨hb, fun c _ => takes_property w hh c _ bytes⟩)
  have hhost := hearing_last hc hlog
  simp only [World.oracle, hhost, hbytes, Option.bind_some, hdec]

/-- The status of a denial: without one, or with a negative one, the request goes on, also on the host. -/
theorem C34_no_status_on_host (w : World W) (cfg : PluginConfig) (factory : Factory) (world : W)
    (s : ActionSet) (hs : ServedBy w.oracle w.oracle.parse cfg factory { world } s) (x : Text) (a : LegacyAction)
    (data : RequestData) (hat : At cfg.services s x (translateAuth a data))
    (kind : SvcKind) (svc : Svc) (deny : Bool) (hsvc : cfg.services a.service = some (.call kind svc deny))
    (hlib : ∀ r ∈ authOnReply (lit "auth_response"), ∀ t ∈ exprTexts r, Cel.Follows w.lib t ∧ Cel.Fails w.lib t)
    (hfree : Spared cfg.services s (lit "auth_response"))
    (events : List (Event W)) (world' : W) (token size : Nat) (callbacks : List (Event W))
    (hcb : callbacks = events ++ [.grpcResponse world' token 0 size])
    (hres : ∀ c, Fetching w.oracle factory { world } (w.trail factory world callbacks) c →
      ∀ path n, (path, n) ∈ w.reserved c → KeepsAt cfg.services s path)
    (before : List Effect) (hbefore : (w.session factory world events).filter.log = before)
    (hcall : InFlightFor before token x) (hend : ¬Ended before) (bytes : Bytes) (v : Val) (r : CheckReply)
    (hbytes : w.abi.grpcResponse world' size = some bytes) (hdec : w.lib.decode svc bytes = some v) (hr : r.Is v)
    (status : Option Int) (items : List Val) (body : Text) (hden : r.result = .denied status items body)
    (hstatus : ∀ code, status = some code → code < 0) :
    ∃ mine rest, (w.session factory world callbacks).filter.log =
        before ++ [.responded token 0 size, .completed x] ++ mine ++ rest ∧
      started mine = replyIds x 5 ∧
      ∀ e ∈ mine, (∃ id, e = .applied id) ∨ (∃ id, e = .completed id) ∨ (∃ id, e = .failed id) := by
  subst hcb
  have hclear : ∀ c, Fetching w.oracle factory { world }
      (w.trail factory world (events ++ [.grpcResponse world' token 0 size])) c →
      Clear (w.store c) (lit "auth_response") := fun c hc => clear_of_spared w hs hfree hc (hres c hc)
  have hrun := (session_trail w factory world (events ++ [.grpcResponse world' token 0 size])).2.1
  have hrun0 := (session_trail w factory world events).2.1
  rw [run_snoc_session] at hclear hrun
  rw [hrun]
  rw [hrun0] at hbefore
  subst hbefore
  refine C34_no_status w.oracle.parse cfg factory _ s hs x a data hat kind svc deny hsvc _ _ token size _ rfl hcall hend
    v r hr status items body hden hstatus (fun c hc hlog => ?_)
    (understands_of w auth_texts (fun r hr t ht => (hlib r hr t ht).1) hclear v _) (fun t ht u hu b e hp he hn c hc => ?_)
  · have hhost := hearing_last hc hlog
    simp only [World.oracle, hhost, hbytes, Option.bind_some, hdec]
  · have hmem := List.mem_of_getElem? ht
    obtain ⟨q, hq, rfl, hvar⟩ := auth_texts t hmem u hu
    have hvar' : q.2.1 = lit "auth_response" := hvar
    rw [← hvar'] at hclear hn hc
    exact ((table_interprets w hq (hlib t hmem _ hu).1 hclear _ _ v b e hp he).2 c hc).2 (hlib t hmem _ hu).2 hn

/-- A response is looked at with the host of one of the callbacks that deliver it. -/
theorem hearing_world {w : World W} {factory : Factory} {world : W} {callbacks : List (Event W)} {token size : Nat}
    {c : Ctx (Attrs W)} (h : Hearing w.oracle factory { world } (w.trail factory world callbacks) token 0 size c) :
    .grpcResponse c.host.world token 0 size ∈ callbacks := by
  obtain ⟨b, now, p, hpre, _, _, rfl⟩ := h
  have h1 : (.grpcResponse now token 0 size : Event (Attrs W)) ∈ w.trail factory world callbacks :=
    hpre.subset (by simp)
  have h2 := List.mem_map_of_mem (f := Event.map Attrs.world) h1
  rw [(session_trail w factory world callbacks).1] at h2
  exact h2

/-- C68 on the host: a request that goes on after the answer of an authorization service that guards it was allowed by
that answer. -/
theorem C68_authorized_on_host (w : World W) (hh : Obliging w.abi) (cfg : PluginConfig) (factory : Factory) (world : W)
    (s : ActionSet) (hs : ServedBy w.oracle w.oracle.parse cfg factory { world } s) (x : Text) (a : LegacyAction)
    (data : RequestData) (hat : At cfg.services s x (translateAuth a data))
    (kind : SvcKind) (svc : Svc) (deny : Bool) (hsvc : cfg.services a.service = some (.call kind svc deny))
    (hlib : ∀ r ∈ authOnReply (lit "auth_response"), ∀ t ∈ exprTexts r, Cel.Follows w.lib t)
    (hfree : Spared cfg.services s (lit "auth_response"))
    (hmap : ∀ path, KeepsAt cfg.services s path → Path.parse path ≠ headersPath .request)
    (callbacks : List (Event W))
    (hres : ∀ c, Fetching w.oracle factory { world } (w.trail factory world callbacks) c →
      ∀ path n, (path, n) ∈ w.reserved c → KeepsAt cfg.services s path)
    (pre post : List Effect) (e : Effect) (hlog : (w.session factory world callbacks).filter.log = pre ++ e :: post)
    (he : GoesOn e) (hend : ¬Ended pre)
    (before after : List Effect) (token size : Nat) (hpre : pre = before ++ .responded token 0 size :: after)
    (hcall : InFlightFor before token x) (v : Val) (r : CheckReply) (hr : r.Is v)
    (hbytes : ∀ world', .grpcResponse world' token 0 size ∈ callbacks →
      ∃ bytes, w.abi.grpcResponse world' size = some bytes ∧ w.lib.decode svc bytes = some v)
    (hstatus : ∀ status items body, r.result = .denied status items body →
      ∃ code, status = some code ∧ 0 ≤ code ∧ code < 2 ^ 32)
    (m : Headers) (hm : w.abi.getMap world .request = .ok m) (hne : m ≠ [])
    (hmeta : ∀ m, r.metadata = some m → ∃ bytes, w.lib.toBytes m = some bytes) :
    ∃ items mine rest, r.verdict = .proceed items ∧ after = .completed x :: mine ++ rest ∧
      r.verdict.Done w.oracle (Fetching w.oracle factory { world } (w.trail factory world callbacks)) .request
        (before ++ [.responded token 0 size, .completed x]) mine ∧
      ∀ m, r.metadata = some m → .stored "auth".toList m ∈ mine := by
  have hwill := willing_on_host w hh hs hm hne hmap callbacks
  rw [(session_trail w factory world callbacks).2.1] at hlog
  refine C68_authorized _ w.oracle.parse cfg factory _ s hs x a data hat kind svc deny hsvc _ pre post e hlog he hend
    before after token size hpre hcall v r hr hstatus (fun c hc _ => ?_)
    (understands_of w auth_texts hlib (fun c hc => clear_of_spared w hs hfree hc (hres c hc)) v _) hwill
    (fun m hm => (hmeta m hm).imp fun bytes hb => ⟨hb, fun c _ => takes_property w hh c _ bytes⟩)
  obtain ⟨bytes, h1, h2⟩ := hbytes _ (hearing_world hc)
  simp only [World.oracle, h1, Option.bind_some, h2]

/-- C68 on the host: a request that goes on after the answer of a rate limiter that guards it was within its limits. -/
theorem C68_within_limit_on_host (w : World W) (hh : Obliging w.abi) (cfg : PluginConfig) (factory : Factory) (world : W)
    (s : ActionSet) (hs : ServedBy w.oracle w.oracle.parse cfg factory { world } s) (x : Text) (a : LegacyAction)
    (data : RequestData) (hat : At cfg.services s x (translateRatelimit a data))
    (kind : SvcKind) (svc : Svc) (deny : Bool) (hsvc : cfg.services a.service = some (.call kind svc deny))
    (hlib : ∀ r ∈ ratelimitOnReply (lit "ratelimit_response"), ∀ t ∈ exprTexts r, Cel.Follows w.lib t)
    (hfree : Spared cfg.services s (lit "ratelimit_response"))
    (hmap : ∀ path, KeepsAt cfg.services s path → Path.parse path ≠ headersPath .response)
    (callbacks : List (Event W))
    (hres : ∀ c, Fetching w.oracle factory { world } (w.trail factory world callbacks) c →
      ∀ path n, (path, n) ∈ w.reserved c → KeepsAt cfg.services s path)
    (pre post : List Effect) (e : Effect) (hlog : (w.session factory world callbacks).filter.log = pre ++ e :: post)
    (he : GoesOn e) (hend : ¬Ended pre)
    (before after : List Effect) (token size : Nat) (hpre : pre = before ++ .responded token 0 size :: after)
    (hcall : InFlightFor before token x) (v : Val) (r : LimitReply) (hr : r.Is v)
    (hbytes : ∀ world', .grpcResponse world' token 0 size ∈ callbacks →
      ∃ bytes, w.abi.grpcResponse world' size = some bytes ∧ w.lib.decode svc bytes = some v) :
    r.code = 1 ∧ ∃ mine rest, after = .completed x :: mine ++ rest ∧
      r.verdict.Undertaken w.oracle (Fetching w.oracle factory { world } (w.trail factory world callbacks)) .response
        (x ++ ".1".toList) (before ++ [.responded token 0 size, .completed x]) mine := by
  have hoff := offers_on_host w hh hs hmap callbacks
  rw [(session_trail w factory world callbacks).2.1] at hlog
  refine C68_within_limit _ w.oracle.parse cfg factory _ s hs x a data hat kind svc deny hsvc _ pre post e hlog he hend
    before after token size hpre hcall v r hr (fun c hc _ => ?_)
    (understands_of w limit_texts hlib (fun c hc => clear_of_spared w hs hfree hc (hres c hc)) v _) hoff
  obtain ⟨bytes, h1, h2⟩ := hbytes _ (hearing_world hc)
  simp only [World.oracle, h1, Option.bind_some, h2]

end Verif.Props
