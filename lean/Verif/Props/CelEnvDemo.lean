import Verif.Props.CelEnv
/-! Examples for C44, C45 and C55, and the cases in which the code falls short of them. -/
set_option linter.unusedSimpArgs false
namespace Verif.Props
open Verif Spec

mutual
/-- Decides `PlainExpr`. -/
def plainB : CelExpr → Bool
  | .call _ args => plainL args
  | .method target _ args => plainB target && plainL args
  | .select operand _ => rootedB operand && plainB operand
  | .list elems => plainL elems
  | .map kvs => plainL kvs
  | .struct _ values => plainL values
  | .comprehension a b c d e => plainB a && plainB b && plainB c && plainB d && plainB e
  | _ => true

def plainL : List CelExpr → Bool
  | [] => true
  | e :: es => plainB e && plainL es

def rootedB : CelExpr → Bool
  | .ident _ => true
  | .call _ _ => true
  | .select operand _ => rootedB operand
  | _ => false
end

theorem rooted_of (e : CelExpr) (h : rootedB e = true) : Rooted e := by
  induction e using CelExpr.ind with
  | h e ih =>
    cases e <;> first | exact .ident _ | exact .call _ _ | skip
    case select o f => exact .select f (ih o (by simp [parts]) (by simpa [rootedB] using h))
    all_goals simp [rootedB] at h

theorem plainL_mem {l : List CelExpr} (h : plainL l = true) : ∀ q ∈ l, plainB q = true := by
  induction l with
  | nil => simp
  | cons e es ih =>
    simp only [plainL, Bool.and_eq_true] at h
    intro q hq
    rcases List.mem_cons.mp hq with rfl | hq
    · exact h.1
    · exact ih h.2 q hq

theorem plain_of (e : CelExpr) (h : plainB e = true) : PlainExpr e := by
  induction e using CelExpr.ind with
  | h e ih =>
    intro o f hp
    rcases part_iff.mp hp with rfl | ⟨q, hq, hp⟩
    · simp only [plainB, Bool.and_eq_true] at h
      exact rooted_of o h.1
    · refine ih q hq ?_ o f hp
      cases e <;> simp only [parts, List.mem_cons, List.not_mem_nil, or_false] at hq
      case call => exact plainL_mem (by simpa [plainB] using h) q hq
      case method =>
        simp only [plainB, Bool.and_eq_true] at h
        rcases hq with rfl | hq
        · exact h.1
        · exact plainL_mem h.2 q hq
      case select =>
        simp only [plainB, Bool.and_eq_true] at h
        subst hq; exact h.2
      case list => exact plainL_mem (by simpa [plainB] using h) q hq
      case map => exact plainL_mem (by simpa [plainB] using h) q hq
      case struct => exact plainL_mem (by simpa [plainB] using h) q hq
      case comprehension =>
        simp only [plainB, Bool.and_eq_true] at h
        rcases hq with rfl | rfl | rfl | rfl | rfl
        · exact h.1.1.1.1
        · exact h.1.1.1.2
        · exact h.1.1.2
        · exact h.1.2
        · exact h.2

/-- The chains of a plain expression. -/
theorem refers_list (e : CelExpr) (h : plainB e = true) (p : Path) : Refers e p ↔ p ∈ (properties e {}).all := by
  rw [(plain_adds e (plain_of e h) {} (.inl rfl)).2]; simp

namespace CelDemo

def id (t : String) : CelExpr := .ident t.toList
def sel (e : CelExpr) (t : String) : CelExpr := .select e t.toList
def str (t : String) : CelExpr := .string t.toList
def path (l : List String) : Path := l.map String.toList

/-- `request.headers['a'] == request.host && request.headers.b != auth.identity.name && !request.grpc.service` -/
def ex1 : CelExpr :=
  .call "_&&_".toList [
    .call "_==_".toList [.call "_[_]".toList [sel (id "request") "headers", str "a"], sel (id "request") "host"],
    .call "_&&_".toList [
      .call "_!=_".toList [sel (sel (id "request") "headers") "b", sel (sel (id "auth") "identity") "name"],
      .call "!_".toList [sel (sel (id "request") "grpc") "service"]]]

/-- The host answers with the path. -/
def echo (p : Path) : Ans Val := .available (.str (dotted p))

def store1 : ValueStore := ({} : ValueStore).store "auth.identity".toList (.map [(.str "name".toList, .str "bob".toList)])

theorem hist1 : StoreHistory store1 [] [("auth.identity".toList, .map [(.str "name".toList, .str "bob".toList)])] :=
  .stores _ _ .start

/-- The variables of an expression, empty if they are not available. -/
def varsOf (a : Ans (List (Text × Val))) : List (Text × Val) :=
  match a with
  | .available v => v
  | _ => []

def isAvailable {α : Type} : Ans α → Bool
  | .available _ => true
  | _ => false

theorem available_of {a : Ans (List (Text × Val))} (h : isAvailable a = true) : a = .available (varsOf a) := by
  cases a <;> first | rfl | cases h

def vars1 : Ans (List (Text × Val)) :=
  celVars store1 echo (some (.str "rpc".toList)) [] [] [("x".toList, .int 1)] (compileExpr ex1)

/-- It refers to five paths; `request.headers.b` is below `request.headers`. -/
example : (compileExpr ex1).attributes =
    [path ["request", "headers"], path ["request", "host"], path ["request", "headers", "b"],
      path ["auth", "identity", "name"]] ∧ (compileExpr ex1).needsGrpc = true := by
  decide +kernel

example : PlainExpr ex1 := plain_of ex1 (by decide +kernel)

/-- Checks that no path of the expression is above `p`. -/
theorem none_above (e : CelExpr) (h : plainB e = true) (p : Path)
    (hc : ((properties e {}).all.all fun r => !r.isPrefixOf p || r = p) = true) : ∀ r, Above r p → ¬Refers e r := by
  intro r hr href
  have := List.all_eq_true.mp hc r ((refers_list e h r).mp href)
  simp only [Bool.or_eq_true, Bool.not_eq_true', decide_eq_true_eq] at this
  rcases this with h | h
  · rw [List.isPrefixOf_iff_prefix.mpr hr.2.1] at h; cases h
  · exact hr.2.2 h

/-- Checks that nothing is stored at a beginning of `p`. -/
theorem none_stored (stored : List (Text × Val)) (p : Path)
    (hc : ((List.range p.length).all fun n => (stored.lookup (dotted (p.take (n + 1)))).isNone) = true) :
    ∀ r, r ≠ [] → r <+: p → stored.lookup (dotted r) = none := by
  rintro r hr ⟨x, rfl⟩
  have hpos := List.length_pos_iff.mpr hr
  have := List.all_eq_true.mp hc (r.length - 1) (List.mem_range.mpr (by simp; omega))
  rw [Nat.sub_add_cancel hpos, List.take_left] at this
  simpa using this

def mapOf (a : Ans (List (Key × Val))) : List (Key × Val) :=
  match a with
  | .available v => v
  | _ => []

theorem map_of {a : Ans (List (Key × Val))} (h : isAvailable a = true) : a = .available (mapOf a) := by
  cases a <;> first | rfl | cases h

/-- `request.headers.b` leads to the value of `request.headers`. -/
example : ∃ q v, q ≠ [] ∧ q <+: path ["request", "headers", "b"] ∧ q ∈ (compileExpr ex1).attributes ∧
    (∀ r, Above r q → r ∉ (compileExpr ex1).attributes) ∧ echo q = .available v ∧
    follow (.map (mapOf (dataMap store1 echo (compileExpr ex1)))) q = some v :=
  C44_shortest ex1 store1 _ _ hist1 echo _ (map_of (by decide +kernel)) _ (by decide +kernel) "request".toList rfl
    (by decide) (none_stored _ _ (by decide +kernel))

/-- All attributes are available and nobody is writing. -/
example : ∃ m, dataMap store1 echo (compileExpr ex1) = .available m :=
  C44_available ex1 store1 _ _ hist1 echo (by decide +kernel) (fun _ _ => ⟨_, rfl⟩) (fun _ _ _ _ h => nomatch h)

/-- `request.host` is seen. -/
example : ∃ v, echo (path ["request", "host"]) = .available v ∧
    seenAt (varsOf vars1) (path ["request", "host"]) = some v :=
  C55_attribute ex1 (plain_of ex1 (by decide +kernel)) store1 _ _ hist1 echo _ _ _ _ _
    (available_of (by decide +kernel)) _ ((refers_list ex1 (by decide +kernel) _).mpr (by decide +kernel))
    "request".toList rfl (by decide) (by decide +kernel) (none_stored _ _ (by decide +kernel))
    (none_above ex1 (by decide +kernel) _ (by decide +kernel))

/-- The stored identity is seen, and so is its name. -/
example : seenAt (varsOf vars1) (path ["auth", "identity"]) = some (.map [(.str "name".toList, .str "bob".toList)]) :=
  C55_stored ex1 (plain_of ex1 (by decide +kernel)) store1 _ _ hist1 echo _ _ _ _ _
    (available_of (by decide +kernel)) (path ["auth", "identity", "name"]) _
    ((refers_list ex1 (by decide +kernel) _).mpr (by decide +kernel)) (by decide +kernel)
    (List.isPrefixOf_iff_prefix.mp (by decide +kernel)) "auth".toList rfl (by decide) (by decide +kernel)
    (by decide +kernel) (by decide +kernel) _ rfl
    (fun r hr => none_stored _ (path ["auth"]) (by decide +kernel) r hr.1 (by
      rcases List.prefix_concat_iff.mp (show r <+: path ["auth"] ++ ["identity".toList] from hr.2.1) with h | h
      · exact absurd h hr.2.2
      · exact h))
    (none_above ex1 (by decide +kernel) _ (by decide +kernel))

/-- `request.url.parts.first().name` -/
def ex2 : CelExpr := sel (.method (sel (sel (id "request") "url") "parts") "first".toList []) "name"

/-- `connection.mtls && x` -/
def ex3 : CelExpr := .call "_&&_".toList [sel (id "connection") "mtls", id "x"]

def vars3 : Ans (List (Text × Val)) :=
  celVars {} echo none [] [] [("x".toList, .bool true), ("auth".toList, .int 7)] (compileExpr ex3)

/-- `request['host']` -/
def ex4 : CelExpr := .call "_[_]".toList [id "request", str "host"]

def vars4 : Ans (List (Text × Val)) := celVars {} echo none [] [] [] (compileExpr ex4)

/-- `requestBodyJSON('/model') == requestBodyJSON('/mo' + 'del2')` -/
def ex5 : CelExpr :=
  .call "_==_".toList [.call "requestBodyJSON".toList [str "/model"],
    .call "requestBodyJSON".toList [.call "_+_".toList [str "/mo", str "del2"]]]

def body5 : List (Text × Val) := [("/model".toList, .str "m".toList), ("/model2".toList, .str "m".toList)]

def vars5 : Ans (List (Text × Val)) := celVars {} echo none body5 [] [] (compileExpr ex5)

end CelDemo

open CelDemo

/-- A field selected from the result of a method is taken for a field of the attribute the method is applied to: the
path referred to is not read, and what is seen under it is a map made up for the path below it. -/
theorem C45_method_result : ∃ (e : CelExpr) (p : Path) (vars : List (Text × Val)),
    Refers e p ∧ ¬grpcRoot <+: p ∧ p ∉ (compileExpr e).attributes ∧
    (∀ q ∈ (compileExpr e).attributes, ∃ v, echo q = .available v) ∧
    celVars {} echo none [] [] [] (compileExpr e) = .available vars ∧
    ∃ v w, echo p = .available v ∧ seenAt vars p = some w ∧ follow w ["name".toList] ≠ none := by
  refine ⟨ex2, path ["request", "url", "parts"], _, ?_, by decide +kernel, by decide +kernel, fun q _ => ⟨_, rfl⟩,
    available_of (by decide +kernel), _, .map [(.str "name".toList, .str "request.url.parts.name".toList)], rfl, ?_, ?_⟩
  · refine .inside ?_ (List.mem_singleton.mpr rfl) (.inside ?_ (List.mem_cons_self ..)
      (.chain (.select _ (.select _ (.ident _))) (by decide)))
    · rintro ⟨c, h⟩
      cases h with | select _ h => cases h
    · rintro ⟨c, h⟩
      cases h
  · with_unfolding_all rfl
  · with_unfolding_all exact fun h => nomatch h

/-- The attributes of a connection are read for an expression, but it does not see them. -/
theorem C55_connection : ∃ vars, celVars {} echo none [] [] [("x".toList, .bool true), ("auth".toList, .int 7)]
      (compileExpr ex3) = .available vars ∧
    Refers ex3 (path ["connection", "mtls"]) ∧ (∃ v, echo (path ["connection", "mtls"]) = .available v) ∧
    path ["connection", "mtls"] ∈ (compileExpr ex3).attributes ∧ mapGet vars "connection".toList = none ∧
    (∃ v, mapGet vars "x".toList = some v) ∧ mapGet vars "auth".toList = some .null := by
  have h : vars3 = .available (varsOf vars3) := available_of (by decide +kernel)
  refine ⟨varsOf vars3, h, (refers_list ex3 (by decide +kernel) _).mpr (by decide +kernel), ⟨_, rfl⟩,
    by decide +kernel, ?_, ⟨.bool true, ?_⟩, ?_⟩
  · exact C55_scope ex3 {} [] [] .start echo none [] [] _ _ h "connection".toList (by decide) (by decide) rfl
      (fun _ _ h => nomatch h) (fun _ h => nomatch h)
  · exact C55_scope ex3 {} [] [] .start echo none [] [] _ _ h "x".toList (by decide) (by decide) rfl
      (fun _ _ h => nomatch h) (fun _ h => nomatch h)
  · refine C55_bare_root ex3 (plain_of ex3 (by decide +kernel)) {} [] [] .start echo none [] [] _ _ h "auth".toList
      (by decide) (fun p hp hh => ?_) rfl
    have := (refers_list ex3 (by decide +kernel) p).mp hp
    rw [show (properties ex3 {}).all = [path ["connection", "mtls"]] from by decide +kernel] at this
    rw [List.mem_singleton.mp this] at hh
    revert hh
    decide

/-- An attribute asked for with an index, as in `request['host']`, is not read: the root is null. -/
theorem C55_index : ∃ vars, celVars {} echo none [] [] [] (compileExpr ex4) = .available vars ∧
    Part ex4 (id "request") ∧ mapGet vars "request".toList = some .null := by
  have h : vars4 = .available (varsOf vars4) := available_of (by decide +kernel)
  refine ⟨varsOf vars4, h, .inside (List.mem_cons_self ..) (.self _), ?_⟩
  refine C55_bare_root ex4 (plain_of ex4 (by decide +kernel)) {} [] [] .start echo none [] [] _ _ h "request".toList
      (by decide) (fun p hp _ => ?_) rfl
  have := (refers_list ex4 (by decide +kernel) p).mp hp
  rw [show (properties ex4 {}).all = [] from by decide +kernel] at this
  cases this

/-- A field of the body whose name is computed is null although the body has a value for it. -/
theorem C55_computed_field : ∃ vars, celVars {} echo none body5 [] [] (compileExpr ex5) = .available vars ∧
    (∃ v, bodyLookup vars "@requestBodyJSON".toList "/model".toList = some v ∧
      mapGet body5 "/model".toList = some v ∧ mapGet body5 "/model2".toList = some v) ∧
    bodyLookup vars "@requestBodyJSON".toList "/model2".toList = some .null := by
  have h : vars5 = .available (varsOf vars5) := available_of (by decide +kernel)
  have hpart : Part ex5 (.call "requestBodyJSON".toList [.string "/model".toList]) :=
    .inside (List.mem_cons_self ..) (.self _)
  obtain ⟨v, h1, h2⟩ := (C55_body ex5 {} echo none body5 [] [] _ h "/model".toList).1 hpart
  refine ⟨varsOf vars5, h, ⟨v, h2, h1, ?_⟩, ?_⟩
  · rw [← h1]; with_unfolding_all rfl
  · refine C55_body_other ex5 {} echo none body5 [] [] _ h "/model2".toList fun hp => ?_
    have := (C45_body_fields ex5 "/model2".toList).1.mpr hp
    revert this
    decide +kernel

/-- The attributes that are maps of labels: reading one fails whatever the host answers, unless it is the request's
header map. -/
theorem attrGet_map_fails {W : Type} (b : Backend W) (lib : JsonLib) (s : Attrs W) (p : Path)
    (hmap : knownType p = some .map) (hp : p ≠ headersPath .request) (hp' : p ≠ headersPath .response)
    (hcache : ∀ hs, s.cached p ≠ some (.headers hs)) (v : Val) : (attrGet b lib s p).1 ≠ .available v := by
  unfold attrGet Attrs.read
  rw [hmap]
  have hbytes : ∀ x, attrVal lib (some .map) (.bytes x) = .error .parse := fun x => rfl
  cases hc : s.cached p with
  | some c =>
    cases c with
    | bytes x => simp [hbytes]
    | headers hs => exact absurd hc (hcache hs)
  | none =>
    have hfetch : ∀ c w, fetchAttribute b s.world p = (.ok c, w) → ∃ x, c = .bytes x := by
      intro c w h
      unfold fetchAttribute at h
      rw [if_neg hp, if_neg hp'] at h
      split at h
      · cases hr : remoteAddress b s.world with
        | mk r w' =>
          rw [hr] at h
          cases r <;> cases h
          exact ⟨_, rfl⟩
      · split at h <;> cases h
        exact ⟨_, rfl⟩
    simp only
    cases hf : fetchAttribute b s.world p with
    | mk r w =>
      cases r with
      | ok c =>
        obtain ⟨x, rfl⟩ := hfetch c w hf
        simp [hbytes]
      | error e => cases e <;> simp

/-- An expression that refers to the labels of a peer, or to the context extensions of a request, is never evaluated,
whatever the host answers. -/
theorem C55_labels {W : Type} (b : Backend W) (lib : JsonLib) (w : W) (p : Path)
    (hp : p ∈ [path ["source", "labels"], path ["destination", "labels"], path ["request", "context_extensions"]])
    (ex : CelExpr) (hplain : PlainExpr ex) (href : Refers ex p) (s : ValueStore) (alive : List Text)
    (stored : List (Text × Val)) (hist : StoreHistory s alive stored)
    (hfree : ∀ r, r ≠ [] → r <+: p → stored.lookup (dotted r) = none) (hno : ∀ r, Above r p → ¬Refers ex r)
    (grpc : Option Val) (req resp scope vars : List (Text × Val)) :
    celVars s (fun p => (attrGet b lib { world := w } p).1) grpc req resp scope (compileExpr ex) ≠ .available vars := by
  intro h
  have hfacts : ∃ root, p.head? = some root ∧ root ∈ visibleRoots ∧ ¬grpcRoot <+: p ∧ knownType p = some .map ∧
      p ≠ headersPath .request ∧ p ≠ headersPath .response := by
    simp only [List.mem_cons, List.not_mem_nil, or_false] at hp
    rcases hp with rfl | rfl | rfl
    · exact ⟨_, rfl, by decide, by decide +kernel, by decide +kernel, by decide +kernel, by decide +kernel⟩
    · exact ⟨_, rfl, by decide, by decide +kernel, by decide +kernel, by decide +kernel, by decide +kernel⟩
    · exact ⟨_, rfl, by decide, by decide +kernel, by decide +kernel, by decide +kernel, by decide +kernel⟩
  obtain ⟨root, h1, h2, h3, h4, h5, h6⟩ := hfacts
  obtain ⟨v, hv, _⟩ := C55_attribute ex hplain s alive stored hist _ grpc req resp scope vars h p href root h1 h2 h3
    hfree hno
  exact attrGet_map_fails b lib { world := w } p h4 h5 h6 (fun hs => by simp [Attrs.cached, mapGet]) v hv

example : Refers (.call "size".toList [sel (id "source") "labels"]) (path ["source", "labels"]) :=
  (refers_list _ (by decide +kernel) _).mpr (by decide +kernel)

end Verif.Props
