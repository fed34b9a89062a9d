import Verif.Props.CelEnv
import Verif.Props.GrpcPath
import Verif.Lemmas.BodyFeed
import Verif.Props.CelEnvDemo
import Verif.Props.Hosted
import Verif.Model.World
/-!
C39 on the host: what expressions see under `request.grpc`.
-/
namespace Verif.Props
open Verif Verif.Spec

theorem request_var {ex : CelExpr} {s : ValueStore} {get : Path → Ans Val} {grpc : Option Val}
    {req resp scope vars : List (Text × Val)}
    (h : celVars s get grpc req resp scope (compileExpr ex) = .available vars) (hself : s.get "request".toList = none) :
    ∃ m, dataMap s get (compileExpr ex) = .available m ∧
      mapGet vars "request".toList = some (requestVal (compileExpr ex) grpc m) := by
  obtain ⟨m, _, _, hm, _, _, _, _, hvars⟩ := vars_get h
  refine ⟨m, hm, ?_⟩
  rw [hvars _ (by decide) (by decide)]
  unfold varValue
  rw [if_neg (by rw [hself]; simp), if_neg (by rw [show isHostRoot "request".toList = true by decide]; simp),
    if_neg (by decide), if_pos rfl]

/-- C55: an expression that refers to `request.grpc` sees what was found out about the call there. -/
theorem C55_grpc (ex : CelExpr) (hplain : PlainExpr ex) (s : ValueStore) (get : Path → Ans Val) (g : Val)
    (req resp scope vars : List (Text × Val))
    (h : celVars s get (some g) req resp scope (compileExpr ex) = .available vars) (p : Path) (href : Refers ex p)
    (hp : grpcRoot <+: p) (hself : s.get "request".toList = none) : seenAt vars grpcRoot = some g := by
  obtain ⟨m, hm, hv⟩ := request_var h hself
  have hneed : (compileExpr ex).needsGrpc = true := (C45_exact ex hplain p).2.2 ⟨p, href, hp⟩
  show (mapGet vars "request".toList).bind (fun v => follow v ["grpc".toList]) = some g
  rw [hv, Option.bind_some, requestVal, if_pos hneed]
  generalize "grpc".toList = key
  show (mapGet (mapInsert _ (Key.str key) g) (Key.str key)).bind _ = _
  rw [mapGet_insert, if_pos rfl]
  rfl

/-- C55: if nothing was found out about the call, it sees nothing there. -/
theorem C55_no_grpc (ex : CelExpr) (s : ValueStore) (get : Path → Ans Val) (req resp scope vars : List (Text × Val))
    (h : celVars s get none req resp scope (compileExpr ex) = .available vars)
    (hself : s.get "request".toList = none) : seenAt vars grpcRoot = none := by
  obtain ⟨m, hm, hv⟩ := request_var h hself
  show (mapGet vars "request".toList).bind (fun v => follow v ["grpc".toList]) = none
  rw [hv, Option.bind_some]
  have hlong : ∀ q ∈ (compileExpr ex).attributes, ¬grpcRoot <+: q := by
    intro q hq hg
    have := ((compile_mem ex q).1 hq).2
    rw [(grpcPath_iff q).2 hg] at this
    cases this
  have hkey : ∀ fields, keyGet m "request".toList = some (.map fields) → keyGet fields "grpc".toList = none := by
    intro fields hf
    have h1 := compile_tree ex ["request".toList] (by simp)
    have h2 := compile_tree ex grpcRoot (by simp [grpcRoot])
    rw [if_neg (fun hv => hlong _ hv.1 (List.prefix_refl _)),
      if_neg (fun hn => by obtain ⟨⟨p, hp, hpre, _⟩, _⟩ := hn; exact hlong p hp hpre)] at h2
    rw [if_neg (fun hv => by have := compile_long ex _ hv.1; simp at this)] at h1
    have hg := map_get hm "request".toList
    unfold grpcRoot at h2
    unfold kindAt at h1 h2
    cases ht : mapGet (attrTree (compileExpr ex).attributes) "request".toList with
    | none =>
      rw [hg.1 ht] at hf
      cases hf
    | some tree =>
      rw [ht] at h1 h2
      cases tree with
      | value p =>
        dsimp only at h1
        rw [if_pos rfl] at h1
        split at h1 <;> cases h1
      | node n =>
        dsimp only at h2
        have hn : mapGet n "grpc".toList = none := by
          unfold kindAt at h2
          generalize mapGet n "grpc".toList = t at h2
          cases t with
          | none => rfl
          | some t =>
            cases t with
            | value p => simp at h2
            | node k => simp [kindAt] at h2
        rcases hg.2 _ ht with ⟨v, h3, _⟩ | ⟨_, _, ⟨_, h3⟩ | ⟨_, v, h3, h4⟩⟩
        · rw [show entryPath [] "request".toList = "request".toList from rfl, hself] at h3
          cases h3
        · rw [h3] at hf
          cases hf
        · rw [hf] at h4
          cases h4
          unfold treeValue at h3
          split at h3
          · rename_i out hout
            cases h3
            exact (map_get hout "grpc".toList).1 hn
          · cases h3
          · cases h3
  have hfollow : ∀ fields, keyGet fields "grpc".toList = none → follow (.map fields) ["grpc".toList] = none := by
    intro fields hf
    show (mapGet fields (Key.str _)).bind _ = none
    rw [show mapGet fields (Key.str "grpc".toList) = none from hf]
    rfl
  unfold requestVal
  generalize hr : keyGet m "request".toList = r at hkey
  have hval : ∀ v : Val, (∀ fields, v = .map fields → keyGet fields "grpc".toList = none) → follow v ["grpc".toList] = none := by
    intro v hv
    cases v with
    | map fields => exact hfollow fields (hv _ rfl)
    | _ => rfl
  split
  · dsimp only
    refine hfollow _ ?_
    cases r with
    | none => rfl
    | some v =>
      cases v with
      | map fields => exact hkey fields rfl
      | _ => rfl
  · refine hval _ ?_
    intro fields hf
    cases r with
    | none => cases hf
    | some v =>
      have : v = .map fields := hf
      exact hkey fields (by rw [this])

variable {W : Type} (w : World W)

/-- C39 on the host: an expression that refers to `request.grpc` sees there the service and the method of the request if
the host says that its content type begins with `application/grpc` and that its path is `/service/method`. -/
theorem C39_on_host (c : Ctx (Attrs W)) (scope : List (Text × Val)) (e : Expr) (x : CelExpr)
    (hx : w.lib.cel e.src = some x) (hplain : PlainExpr x) (p : Path) (href : Refers x p) (hp : grpcRoot <+: p)
    (hself : (w.store c).get "request".toList = none) (u : Val) (hu : (w.oracle.resolve c scope e).1 = some u)
    (rest service method : Text)
    (hct : w.abi.mapValue c.host.world .request "content-type".toList = .ok (some ("application/grpc".toList ++ rest)))
    (hpath : (c.host.read w.abi.backend (fromBytes fromUtf8) ["request".toList, "url_path".toList]).1 =
      .available (some ('/' :: service ++ '/' :: method)))
    (hs : service ≠ [] ∧ '/' ∉ service) (hm : method ≠ [] ∧ '/' ∉ method) :
    ∃ vars, w.lib.exec e.src vars = some u ∧ seenAt vars grpcRoot =
      some (.map [(.str "service".toList, .str service), (.str "method".toList, .str method)]) := by
  have hneed : (compileExpr x).needsGrpc = true := (C45_exact x hplain p).2.2 ⟨p, href, hp⟩
  have hg : (w.readGrpc c.host).1 = some (.map [(.str "service".toList, .str service), (.str "method".toList, .str method)]) := by
    have hr : w.requestHeader c.host "content-type".toList = some ("application/grpc".toList ++ rest) := by
      simp only [World.requestHeader, hct]
    have hres := (C39_attribute (some ("application/grpc".toList ++ rest)) (some ('/' :: service ++ '/' :: method)) _).2
      ⟨rest, service, method, rfl, rfl, hs.1, hm.1, hs.2, hm.2, rfl⟩
    have hcond : isGrpcContentType ("application/grpc".toList ++ rest) = true := by
      unfold resolveGrpc at hres
      dsimp only at hres
      split at hres
      · assumption
      · cases hres
    unfold World.readGrpc
    rw [hr, Option.any_some, if_pos hcond]
    generalize c.host.read w.abi.backend (fromBytes fromUtf8) ["request".toList, "url_path".toList] = q at hpath
    obtain ⟨a, s'⟩ := q
    dsimp only at hpath
    subst hpath
    exact hres
  simp only [World.oracle, World.compiled, hx, Option.map_some, hneed, if_true] at hu
  split at hu
  · rename_i vars hvars
    rw [hg] at hvars
    exact ⟨vars, hu, C55_grpc x hplain _ _ _ _ _ _ _ hvars p href hp hself⟩
  · cases hu

/-- C39 on the host: for any other request it sees nothing there. -/
theorem C39_on_host_other (c : Ctx (Attrs W)) (scope : List (Text × Val)) (e : Expr)
    (hself : (w.store c).get "request".toList = none) (u : Val) (hu : (w.oracle.resolve c scope e).1 = some u)
    (hother : ∀ rest service method,
      w.abi.mapValue c.host.world .request "content-type".toList = .ok (some ("application/grpc".toList ++ rest)) →
      (c.host.read w.abi.backend (fromBytes fromUtf8) ["request".toList, "url_path".toList]).1 =
        .available (some ('/' :: service ++ '/' :: method)) →
      service = [] ∨ method = [] ∨ '/' ∈ service ∨ '/' ∈ method) :
    ∃ vars, w.lib.exec e.src vars = some u ∧ seenAt vars grpcRoot = none := by
  have hg : (w.readGrpc c.host).1 = none := by
    cases hv : (w.readGrpc c.host).1 with
    | none => rfl
    | some v =>
      refine absurd hv ?_
      unfold World.readGrpc
      split
      · have hct : ∀ t, w.requestHeader c.host "content-type".toList = some t →
            w.abi.mapValue c.host.world .request "content-type".toList = .ok (some t) := by
          intro t ht
          unfold World.requestHeader at ht
          split at ht
          · rename_i h; rw [h, ht]
          · cases ht
        generalize hq : c.host.read w.abi.backend (fromBytes fromUtf8) ["request".toList, "url_path".toList] = q at hother
        obtain ⟨a, s'⟩ := q
        have key : ∀ urlPath, (∀ t, urlPath = some t → a = .available (some t)) →
            resolveGrpc (w.requestHeader c.host "content-type".toList) urlPath ≠ some v := by
          intro urlPath hu hres
          obtain ⟨rest, service, method, h1, h2, h3, h4, h5, h6, _⟩ := (C39_attribute _ _ _).1 hres
          rcases hother rest service method (hct _ h1) (hu _ h2) with h | h | h | h
          · exact h3 h
          · exact h4 h
          · exact h5 h
          · exact h6 h
        cases a with
        | available t => exact key t (fun _ h => by rw [h])
        | pending => exact key none (fun _ h => by cases h)
        | err => exact key none (fun _ h => by cases h)
      · simp
  simp only [World.oracle] at hu
  split at hu
  · cases hu
  · rename_i y x hx
    have hgrpc : (if x.needsGrpc then w.readGrpc c.host else (none, c.host)).1 = none := by
      split
      · exact hg
      · rfl
    unfold World.compiled at hx
    cases hl : w.lib.cel e.src with
    | none => rw [hl] at hx; cases hx
    | some z =>
      rw [hl] at hx
      cases hx
      rw [hgrpc] at hu
      split at hu
      · rename_i vars hvars
        exact ⟨vars, hu, C55_no_grpc _ _ _ _ _ _ _ hvars hself⟩
      · cases hu

/-! Examples: a gRPC request to `/shop.Cart/Add`, and the same request with another content type. -/

def grpcExpr : CelExpr := .select (.select (.ident "request".toList) "grpc".toList) "service".toList

def grpcCtx (contentType : Text) : Ctx (Attrs Hosted.Proxy) :=
  { host := { world := { request := [("content-type".toList, contentType)] } } }

def textOf : Option Val → Text
  | some (.str t) => t
  | _ => []

example : ∃ e, Hosted.world.lib.cel e.src = some grpcExpr ∧ PlainExpr grpcExpr ∧
    Refers grpcExpr ["request".toList, "grpc".toList, "service".toList] ∧
    (Hosted.world.store (grpcCtx "application/grpc+proto".toList)).get "request".toList = none ∧
    textOf (Hosted.world.oracle.resolve (grpcCtx "application/grpc+proto".toList) [] e).1 = "shop.Cart".toList ∧
    Hosted.world.abi.mapValue (grpcCtx "application/grpc+proto".toList).host.world .request "content-type".toList =
      .ok (some ("application/grpc".toList ++ "+proto".toList)) ∧
    ((grpcCtx "application/grpc+proto".toList).host.read Hosted.world.abi.backend (fromBytes fromUtf8)
      ["request".toList, "url_path".toList]).1 = .available (some ('/' :: "shop.Cart".toList ++ '/' :: "Add".toList)) :=
  ⟨{ src := "request.grpc.service".toList }, rfl, plain_of _ (by decide +kernel),
    (refers_list _ (by decide +kernel) _).2 (by decide +kernel), rfl, by decide +kernel,
    by rfl, by rfl⟩

example : (Hosted.world.oracle.resolve (grpcCtx "text/plain".toList) [] { src := "request.grpc.service".toList }).1.isSome = false ∧
    (Hosted.world.oracle.resolve (grpcCtx "text/plain".toList) [] { src := "true".toList }).1.isSome = true ∧
    ∀ rest, Hosted.world.abi.mapValue (grpcCtx "text/plain".toList).host.world .request "content-type".toList ≠
      .ok (some ("application/grpc".toList ++ rest)) := by
  refine ⟨by decide +kernel, by decide +kernel, fun rest h => ?_⟩
  have h' : Hosted.world.abi.mapValue (grpcCtx "text/plain".toList).host.world .request "content-type".toList =
      .ok (some "text/plain".toList) := by rfl
  rw [h'] at h
  injection h with h; injection h with h
  simp at h

end Verif.Props
