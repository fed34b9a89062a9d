import Verif.Spec.CelLib
import Verif.Lemmas.CelRefs
import Verif.Lemmas.CelVars
import Verif.Lemmas.DuePaths
import Verif.Lemmas.Tracing
/-! Expressions that mention one variable only, evaluated on a host. -/
set_option linter.unusedSimpArgs false
namespace Verif
open Spec Cel

/-! ### The value depends on the variables mentioned -/

section
variable {e1 e2 : Text → Option Val}

mutual

theorem eval_congr : (a : Ast) → (∀ n ∈ variables a, e1 n = e2 n) → eval e1 a = eval e2 a
  | .ident n, h => by
    simp only [eval]
    rw [h n (by simp [variables])]
  | .root _, _ => by simp only [eval]
  | .num _, _ => by simp only [eval]
  | .str b _, _ => by cases b <;> simp only [eval]
  | .select e f, h => by
    simp only [eval]
    rw [eval_congr e (fun n hn => h n (by simpa [variables] using hn))]
  | .index _ _, _ => by simp only [eval]
  | .call fn args, h => by
    simp only [eval]
    rw [evalArgs_congr args (fun n hn => h n (by simpa [variables] using hn))]
  | .method e fn args, h => by
    simp only [eval]
    rw [eval_congr e (fun n hn => h n (by simp [variables, hn]))]
  | .list es, h => by
    simp only [eval]
    rw [evalItems_congr es (fun n hn => h n (by simpa [variables] using hn))]
  | .map es, h => by
    simp only [eval]
    rw [evalEntries_congr es (fun n hn => h n (by simpa [variables] using hn))]
  | .message _ fs, h => by
    simp only [eval]
    rw [evalFields_congr fs (fun n hn => h n (by simpa [variables] using hn))]
  | .unary op e, h => by
    cases op with
    | not =>
      simp only [eval]
      rw [eval_congr e (fun n hn => h n (by simpa [variables] using hn))]
    | neg => simp only [eval]
  | .binary op l r, h => by
    simp only [eval]
    rw [eval_congr l (fun n hn => h n (by simp [variables, hn])),
      eval_congr r (fun n hn => h n (by simp [variables, hn]))]
  | .cond c a b, h => by
    simp only [eval]
    rw [eval_congr c (fun n hn => h n (by simp [variables, hn])),
      eval_congr a (fun n hn => h n (by simp [variables, hn])),
      eval_congr b (fun n hn => h n (by simp [variables, hn]))]

theorem present_congr : (a : Ast) → (∀ n ∈ variables a, e1 n = e2 n) → present e1 a = present e2 a
  | .select e f, h => by
    simp only [present]
    rw [eval_congr e (fun n hn => h n (by simpa [variables] using hn))]
  | .ident _, _ => by simp only [present]
  | .root _, _ => by simp only [present]
  | .num _, _ => by simp only [present]
  | .str _ _, _ => by simp only [present]
  | .index _ _, _ => by simp only [present]
  | .call _ _, _ => by simp only [present]
  | .method _ _ _, _ => by simp only [present]
  | .list _, _ => by simp only [present]
  | .map _, _ => by simp only [present]
  | .message _ _, _ => by simp only [present]
  | .unary _ _, _ => by simp only [present]
  | .binary _ _ _, _ => by simp only [present]
  | .cond _ _ _, _ => by simp only [present]

theorem evalArgs_congr : (as : List Ast) → (∀ n ∈ variablesOf as, e1 n = e2 n) → evalArgs e1 as = evalArgs e2 as
  | [], _ => by simp only [evalArgs]
  | a :: as, h => by
    simp only [evalArgs]
    rw [eval_congr a (fun n hn => h n (by simp [variablesOf, hn])),
      present_congr a (fun n hn => h n (by simp [variablesOf, hn])),
      evalArgs_congr as (fun n hn => h n (by simp [variablesOf, hn]))]

theorem evalItems_congr : (as : List Ast) → (∀ n ∈ variablesOf as, e1 n = e2 n) → evalItems e1 as = evalItems e2 as
  | [], _ => by simp only [evalItems]
  | a :: as, h => by
    simp only [evalItems]
    rw [eval_congr a (fun n hn => h n (by simp [variablesOf, hn])),
      evalItems_congr as (fun n hn => h n (by simp [variablesOf, hn]))]

theorem evalEntries_congr : (es : List (Ast × Ast)) → (∀ n ∈ variablesOfEntries es, e1 n = e2 n) →
    evalEntries e1 es = evalEntries e2 es
  | [], _ => by simp only [evalEntries]
  | (k, a) :: es, h => by
    simp only [evalEntries]
    rw [eval_congr k (fun n hn => h n (by simp [variablesOfEntries, hn])),
      eval_congr a (fun n hn => h n (by simp [variablesOfEntries, hn])),
      evalEntries_congr es (fun n hn => h n (by simp [variablesOfEntries, hn]))]

theorem evalFields_congr : (fs : List (Text × Ast)) → (∀ n ∈ variablesOfFields fs, e1 n = e2 n) →
    evalFields e1 fs = evalFields e2 fs
  | [], _ => by simp only [evalFields]
  | (_, a) :: fs, h => by
    simp only [evalFields]
    rw [eval_congr a (fun n hn => h n (by simp [variablesOfFields, hn])),
      evalFields_congr fs (fun n hn => h n (by simp [variablesOfFields, hn]))]

end

end

/-! ### The attributes of an expression begin with its identifiers -/

theorem list_idents (es : List CelExpr) (h : ∀ q ∈ es, ∀ s p, p ∈ (properties q s).all →
      p ∈ s.all ∨ ∃ n, p.head? = some n ∧ Part q (.ident n)) (s : Collected) (p : Path)
    (hp : p ∈ (propertiesList es s).all) : p ∈ s.all ∨ ∃ n, p.head? = some n ∧ ∃ q ∈ es, Part q (.ident n) := by
  induction es generalizing s with
  | nil => exact .inl (by simpa [propertiesList] using hp)
  | cons e es ih =>
    rw [propertiesList] at hp
    rcases ih (fun q hq => h q (List.mem_cons_of_mem _ hq)) _ hp with h1 | ⟨n, h1, q, hq, h2⟩
    · rcases h e (List.mem_cons_self ..) s p h1 with h1 | ⟨n, h1, h2⟩
      · exact .inl h1
      · exact .inr ⟨n, h1, e, List.mem_cons_self .., h2⟩
    · exact .inr ⟨n, h1, q, List.mem_cons_of_mem _ hq, h2⟩

theorem collected_idents (e : CelExpr) : ∀ s p, p ∈ (properties e s).all →
    p ∈ s.all ∨ ∃ n, p.head? = some n ∧ Part e (.ident n) := by
  induction e using CelExpr.ind with
  | h e ih =>
    intro s p hp
    by_cases hi : ∃ n, e = .ident n
    · obtain ⟨n, rfl⟩ := hi
      rw [properties_ident] at hp
      split at hp
      · exact .inl hp
      · rcases List.mem_append.1 hp with h | h
        · exact .inl h
        · rw [List.mem_singleton.1 h]
          exact .inr ⟨n, rfl, .self _⟩
    · rw [properties_parts e s (fun n h => hi ⟨n, h⟩)] at hp
      rcases list_idents (parts e) ih (enter e s) p hp with h | ⟨n, h1, q, hq, h2⟩
      · rw [enter_all] at h
        exact .inl h
      · exact .inr ⟨n, h1, .inside hq h2⟩

theorem addPath_keys (attr : Path) : ∀ (p : Path) (m : List (Text × AttrTree)), ∀ e ∈ addPath attr p m,
    e.1 ∈ m.map Prod.fst ∨ p.head? = some e.1
  | [], m => by
    intro e he
    rw [addPath] at he
    exact .inl (List.mem_map_of_mem he)
  | [t], m => by
    intro e he
    rw [addPath] at he
    rcases mem_of_mapInsert he with h | ⟨h, _⟩
    · exact .inl (List.mem_map_of_mem h)
    · exact .inr (by rw [h]; rfl)
  | t :: u :: ts, m => by
    intro e he
    rw [addPath] at he
    · split at he
      · rcases mem_of_mapInsert he with h | ⟨h, _⟩
        · exact .inl (List.mem_map_of_mem h)
        · exact .inr (by rw [h]; rfl)
      · rcases mem_of_mapInsert he with h | ⟨h, _⟩
        · exact .inl (List.mem_map_of_mem h)
        · exact .inr (by rw [h]; rfl)
      · exact .inl (List.mem_map_of_mem he)
    · simp

theorem attrTree_keys (ps : List Path) (var : Text) (h : ∀ p ∈ ps, p.head? = some var) :
    ∀ e ∈ attrTree ps, e.1 = var := by
  have : ∀ (ps : List Path) (m : List (Text × AttrTree)), (∀ e ∈ m, e.1 = var) → (∀ p ∈ ps, p.head? = some var) →
      ∀ e ∈ ps.foldl (fun m p => addPath p p m) m, e.1 = var := by
    intro ps
    induction ps with
    | nil => intro m hm _; exact hm
    | cons p ps ih =>
      intro m hm hp
      refine ih _ (fun e he => ?_) (fun q hq => hp q (List.mem_cons_of_mem _ hq))
      rcases addPath_keys p p m e he with h1 | h1
      · obtain ⟨e', h2, h3⟩ := List.mem_map.1 h1
        rw [← h3]
        exact hm e' h2
      · have := hp p (List.mem_cons_self ..)
        rw [this] at h1
        exact (Option.some.inj h1).symm
  exact this ps [] (fun e he => by cases he) h

/-! ### Evaluation on the host -/

/-- Nothing is stored or reserved at or below the name. -/
structure Clear (s : ValueStore) (var : Text) : Prop where
  value : s.get var = none
  pending : s.isPending var = false
  below : s.hasPrefix (var ++ ['.']) = false

theorem mapToValue_clear {s : ValueStore} {get : Path → Ans Val} {var : Text} (hc : Clear s var)
    (hroot : isHostRoot var = false) : ∀ m : List (Text × AttrTree), (∀ e ∈ m, e.1 = var) →
      mapToValue s get [] m = .available []
  | [], _ => by rw [mapToValue]
  | (key, tree) :: rest, h => by
    have hk : key = var := h _ (List.mem_cons_self ..)
    subst hk
    have hp : entryPath [] key = key := rfl
    rw [mapToValue, hp, hc.value]
    dsimp only
    rw [hc.pending, hroot, hc.below]
    simp only [Bool.false_eq_true, if_false, decide_true, Bool.not_false, Bool.and_self, if_true]
    exact mapToValue_clear hc hroot rest fun e he => h e (List.mem_cons_of_mem _ he)

theorem readMap_clear {S : Type} {s : ValueStore} {get : S → Path → Ans Val × S} {var : Text} (hc : Clear s var)
    (hroot : isHostRoot var = false) (st : S) : ∀ m : List (Text × AttrTree), (∀ e ∈ m, e.1 = var) →
      readMap s get [] m st = (.available [], st)
  | [], _ => by rw [readMap]
  | (key, tree) :: rest, h => by
    have hk : key = var := h _ (List.mem_cons_self ..)
    subst hk
    have hp : entryPath [] key = key := rfl
    rw [readMap, hp, hc.value]
    dsimp only
    rw [hc.pending, hroot, hc.below]
    simp only [Bool.false_eq_true, if_false, decide_true, Bool.not_false, Bool.and_self, if_true]
    exact readMap_clear hc hroot st rest fun e he => h e (List.mem_cons_of_mem _ he)

/-- The expression mentions only one variable, which is not one of the roots. -/
structure About (x : CompiledExpr) (var : Text) : Prop where
  attributes : ∀ p ∈ x.attributes, p.head? = some var
  request : x.requestFields = []
  response : x.responseFields = []
  grpc : x.needsGrpc = false

theorem about_of_parts {x : CelExpr} {var : Text} (hv : ∀ n, Part x (.ident n) → n = var)
    (hf : ∀ f ∈ bodyFunctions, ∀ args, ¬Part x (.call f args)) (hvar : var ≠ "request".toList) :
    About (compileExpr x) var where
  attributes p hp := by
    rcases collected_idents x {} p ((compile_mem x p).1 hp).1 with h | ⟨n, h, h1⟩
    · cases h
    · rw [h, hv n h1]
  request := by
    rw [List.eq_nil_iff_forall_not_mem]
    intro t ht
    unfold compileExpr at ht
    rcases (request_fields x {} t).1 ht with h | h
    · cases h
    · exact hf _ (by simp [bodyFunctions]) _ h
  response := by
    rw [List.eq_nil_iff_forall_not_mem]
    intro t ht
    unfold compileExpr at ht
    rcases (response_fields x {} t).1 ht with h | h
    · cases h
    · exact hf _ (by simp [bodyFunctions]) _ h
  grpc := by
    unfold compileExpr
    dsimp only
    rw [List.any_eq_false]
    intro p hp hg
    rcases collected_idents x {} p hp with h | ⟨n, h, h1⟩
    · cases h
    · have h2 := hv n h1
      subst h2
      cases p with
      | nil => cases h
      | cons a p =>
        cases h
        unfold isGrpcPath at hg
        simp only [List.take, decide_eq_true_eq] at hg
        exact hvar (List.cons.inj (of_decide_eq_true hg)).1

/-- The names under which expressions find other things than a variable of the context. -/
def takenNames : List Text := "auth".toList :: (rootsOfHost ++ bodyNames)

section
variable {W : Type} (w : World W)

/-- An expression about one variable has the value that the library gives it, the variable being the one of the
context. -/
theorem about_eval {e : Expr} {x : CelExpr} {var : Text} {v : Val} (hx : w.lib.cel e.src = some x) (hlit : e.lit = none)
    (hreq : e.reqFields = []) (hresp : e.respFields = [])
    (ha : About (compileExpr x) var) (hvar : var ∉ takenNames) (c : Ctx (Attrs W)) (hc : Clear (w.store c) var)
    (id : Text) (hv : (scopeVars c.bindings id).lookup var = some v) :
    ∃ vars, mapGet vars var = some v ∧ (evalExpr w.oracle c id e).1 =
      (match w.lib.exec e.src vars with
        | some r => .available r
        | none => .err) := by
  have hroot : isHostRoot var = false := by
    rw [Bool.eq_false_iff]
    intro h
    refine hvar (List.mem_cons_of_mem _ (List.mem_append_left _ ?_))
    have : var ∈ hostRoots := by simpa [isHostRoot] using h
    exact this
  have hkeys := attrTree_keys _ var ha.attributes
  have hcomp : w.compiled e = some (x, compileExpr x) := by simp [World.compiled, hx]
  have hhost : World.hostAttributes (compileExpr x) = [] := by
    rw [World.hostAttributes, List.filter_eq_nil_iff]
    intro p hp
    rw [ha.attributes p hp]
    simp [hroot]
  have hattrs : w.oracle.attrs c e = (.available (), c.host) := by
    simp only [World.oracle, hcomp, hhost, Attrs.ensure, List.foldl_nil, World.readData]
    rw [readMap_clear hc hroot _ _ hkeys]
  have hdata : ∀ get, dataMap (w.store c) get (compileExpr x) = .available [] := fun get =>
    mapToValue_clear hc hroot _ hkeys
  have hvars : ∃ vars, celVars (w.store c) (fun p => (attrGet w.abi.backend w.lib.json c.host p).1) none c.req.values
      c.resp.values (scopeVars c.bindings id) (compileExpr x) = .available vars := by
    unfold celVars
    rw [hdata, ha.request, ha.response]
    exact ⟨_, rfl⟩
  obtain ⟨vars, hvars⟩ := hvars
  refine ⟨vars, ?_, ?_⟩
  · obtain ⟨m, _, _, hm, _, _, _, _, hget⟩ := vars_get hvars
    rw [hdata] at hm
    cases hm
    have hn : ∀ t ∈ takenNames, var ≠ t := fun t ht h => hvar (h ▸ ht)
    rw [hget var (hn _ (by decide)) (hn _ (by decide))]
    unfold varValue
    rw [if_neg (by rw [hc.value]; simp), if_neg (by simp [keyGet, mapGet]), if_neg, if_neg (hn _ (by decide)), ← hv]
    · exact mapGet_lookup _ _
    · intro h
      simp only [fourRoots, List.mem_cons, List.not_mem_nil, or_false] at h
      rcases h with h | h | h | h <;> exact hn _ (by decide) h
  · have hcw : c.withHost c.host = c := rfl
    have hf : fieldsAvailable c e = true := by simp [fieldsAvailable, hreq, hresp]
    have hres : w.oracle.resolve c (scopeVars c.bindings id) e = (w.lib.exec e.src vars, c.host) := by
      simp only [World.oracle, hcomp, ha.grpc, Bool.false_eq_true, if_false]
      rw [hvars]
    unfold evalExpr
    rw [hlit]
    dsimp only
    rw [hattrs]
    dsimp only
    rw [hcw, hf, if_pos rfl, hres]
    cases w.lib.exec e.src vars <;> rfl

end

end Verif
