import Verif.Spec.Request
import Verif.Spec.CelEval
/-!
The values `Cel.eval` gives are those generated messages are assumed to have.
-/
namespace Verif.Legacy
open Cel

theorem evalItems_each {env : Text → Option Val} {es : List Ast} {vs : List Val}
    (h : Each (fun e v => eval env e = some v) es vs) : allItems (evalItems env es) = some vs := by
  induction h with
  | nil => rw [evalItems]; rfl
  | cons h _ ih => rw [evalItems, h]; unfold allItems; rw [ih]

theorem evalFields_each {env : Text → Option Val} {fs : List (Text × Ast)} {vs : List (Text × Val)}
    (h : Each (fun f v => f.1 = v.1 ∧ eval env f.2 = some v.2) fs vs) : allFields (evalFields env fs) = some vs := by
  induction h with
  | nil => rw [evalFields]; rfl
  | cons h _ ih => rw [evalFields, h.2, h.1]; unfold allFields; rw [ih]

theorem evalEntries_each {env : Text → Option Val} {es : List (Ast × Ast)} {kvs : List (Text × Val)}
    (h : Each (fun e kv => eval env e.1 = some (.str kv.1) ∧ eval env e.2 = some kv.2) es kvs)
    (hn : (kvs.map Prod.fst).Nodup) :
    allEntries (evalEntries env es) = some (kvs.map fun kv => (.str kv.1, kv.2)) := by
  induction h with
  | nil => rw [evalEntries]; rfl
  | cons h _ ih =>
    rw [List.map_cons, List.nodup_cons] at hn
    rw [evalEntries, h.1, h.2]
    unfold allEntries
    rw [ih hn.2]
    dsimp only
    rw [if_neg]
    · rfl
    · intro hm
      rw [List.map_map] at hm
      obtain ⟨kv, hkv, e⟩ := List.mem_map.1 hm
      exact hn.1 (List.mem_map.2 ⟨kv, hkv, Key.str.inj e⟩)

theorem typeNameOf_path (first : Text) (names : List Text) :
    typeNameOf (path first names) = some (typeName first names) := by
  unfold path typeName
  have : ∀ (e : Ast) (t : Text), typeNameOf e = some t →
      typeNameOf (names.foldl .select e) = some (names.foldl (fun t n => t ++ ".".toList ++ n) t) := by
    induction names with
    | nil => intro e t h; exact h
    | cons n ns ih => intro e t h; exact ih _ _ (by rw [typeNameOf, h]; rfl)
  exact this _ _ rfl

theorem evaluator (env : Text → Option Val) : Evaluator (eval env) where
  string t := by rw [eval]
  one := by rw [eval]; rfl
  list es vs h := by rw [eval, evalItems_each h]; rfl
  map es kvs h hn := by rw [eval, evalEntries_each h hn]; rfl
  message first names fields vals h := by rw [eval, messageVal, typeNameOf_path, evalFields_each h]; rfl
  add a b as bs ha hb := by rw [eval, ha, hb]; rfl
  yes c a b hc := by rw [eval, hc]; rfl
  no c a b hc := by rw [eval, hc]; rfl
  both a b ha hb := by rw [eval, ha, hb]; rfl
  neither a b h := by
    rw [eval]
    rcases h with h | h
    · rw [h]; rfl
    · rw [h]
      show andVal _ _ = _
      unfold andVal
      split
      all_goals first | rfl | simp_all
  text a v t h ht := by
    rw [eval, evalArgs, evalArgs, h]
    cases ht <;> rfl
  uint a v n h ht := by
    rw [eval, evalArgs, evalArgs, h]
    cases ht with
    | uint => rfl
    | int =>
      show (if (0 : Int) ≤ n then some (Val.uint (Int.toNat n)) else none) = _
      rw [if_pos (Int.natCast_nonneg n), Int.toNat_natCast]

end Verif.Legacy
