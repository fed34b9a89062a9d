import Verif.Lemmas.CelRefs
import Verif.Lemmas.Attributes
import Verif.Lemmas.Basic
/-! The tree of attributes and the data map made from it. -/
set_option linter.unusedSimpArgs false
namespace Verif
open Spec

/-- What is at a path: nothing, the value of an attribute, or a node. -/
def kindAt (m : List (Text × AttrTree)) : Path → Option (Option Path)
  | [] => some none
  | t :: ts => match mapGet m t with
    | none => none
    | some (.value p) => if ts = [] then some (some p) else none
    | some (.node n) => kindAt n ts

def Blocked (m : List (Text × AttrTree)) (p : Path) : Prop := ∃ r, Above r p ∧ ∃ v, kindAt m r = some (some v)

theorem above_cons {t : Text} {r ts : Path} : Above (t :: r) (t :: ts) ↔ r <+: ts ∧ r ≠ ts := by
  simp [Above]

theorem blocked_single (m : List (Text × AttrTree)) (t : Text) : ¬Blocked m [t] := by
  rintro ⟨r, ⟨h1, h2, h3⟩, _⟩
  cases r with
  | nil => exact h1 rfl
  | cons a r =>
    obtain ⟨x, hx⟩ := h2
    simp only [List.cons_append, List.cons.injEq, List.append_eq_nil_iff] at hx
    obtain ⟨rfl, rfl, _⟩ := hx
    exact h3 rfl

theorem blocked_cons (m : List (Text × AttrTree)) (t : Text) (ts : Path) (hts : ts ≠ []) :
    Blocked m (t :: ts) ↔ (∃ v, mapGet m t = some (.value v)) ∨ ∃ n, mapGet m t = some (.node n) ∧ Blocked n ts := by
  constructor
  · rintro ⟨r, ⟨h1, h2, h3⟩, v, hv⟩
    cases r with
    | nil => exact absurd rfl h1
    | cons a r =>
      obtain ⟨rfl, h2'⟩ := List.cons_prefix_cons.mp h2
      unfold kindAt at hv
      split at hv
      · cases hv
      · rename_i p hp
        exact .inl ⟨p, hp⟩
      · rename_i n hn
        refine .inr ⟨n, hn, r, ⟨?_, h2', fun h => h3 (by rw [h])⟩, v, hv⟩
        rintro rfl
        simp [kindAt] at hv
  · rintro (⟨v, hv⟩ | ⟨n, hn, r, ⟨h1, h2, h3⟩, v, hv⟩)
    · refine ⟨[t], ⟨by simp, by simp, fun h => hts ?_⟩, v, ?_⟩
      · exact (List.cons.inj h).2.symm
      · simp [kindAt, hv]
    · refine ⟨t :: r, ⟨by simp, by simpa using h2, fun h => h3 (List.cons.inj h).2⟩, v, ?_⟩
      simp [kindAt, hn, hv]

theorem kindAt_nil (q : Path) : kindAt [] q = if q = [] then some none else none := by
  cases q with
  | nil => rfl
  | cons => simp [kindAt, mapGet]

open Classical in
theorem kindAt_add (a p : Path) (m : List (Text × AttrTree)) (q : Path) (hp : p ≠ []) :
    kindAt (addPath a p m) q =
      if Blocked m p then kindAt m q
      else if q = p then some (some a)
      else if q <+: p then some none
      else if p <+: q then none
      else kindAt m q := by
  induction p generalizing m q with
  | nil => exact absurd rfl hp
  | cons t ts ih =>
    cases q with
    | nil => simp [kindAt]
    | cons u us =>
      by_cases hts : ts = []
      · subst hts
        rw [if_neg (blocked_single m t), addPath]
        rw [kindAt, mapGet_mapInsert]
        by_cases htu : u = t
        · subst htu
          by_cases hus : us = []
          · subst hus; simp
          · simp [hus]
        · simp [htu, Ne.symm htu, kindAt]
      · have hadd : addPath a (t :: ts) m = match mapGet m t with
            | none => mapInsert m t (.node (addPath a ts []))
            | some (.node n) => mapInsert m t (.node (addPath a ts n))
            | some (.value _) => m := by
          cases ts with
          | nil => exact absurd rfl hts
          | cons =>
            rw [addPath]
            · cases mapGet m t with
              | none => rfl
              | some x => cases x <;> rfl
            · simp
        have hcons : ∀ (x y : Path), (t :: x = t :: y) = (x = y) := by simp
        have key : ∀ n, (∀ us, us ≠ [] ∨ Blocked n ts → kindAt m (t :: us) = kindAt n us) → (Blocked m (t :: ts) ↔ Blocked n ts) →
            kindAt (mapInsert m t (.node (addPath a ts n))) (u :: us) =
            if Blocked m (t :: ts) then kindAt m (u :: us)
            else if u :: us = t :: ts then some (some a)
            else if u :: us <+: t :: ts then some none
            else if t :: ts <+: u :: us then none
            else kindAt m (u :: us) := by
          intro n hk hb
          rw [kindAt, mapGet_mapInsert]
          by_cases htu : u = t
          · subst htu
            simp only [if_true, hb, List.cons.injEq, true_and, List.cons_prefix_cons]
            rw [ih n us hts]
            by_cases h : us ≠ [] ∨ Blocked n ts
            · rw [hk us h]
            · rw [not_or] at h
              have := Classical.not_not.mp h.1
              subst this
              simp [h.2, hts]
          · simp [htu, Ne.symm htu, kindAt]
        rw [hadd]
        cases hg : mapGet m t with
        | none =>
          have hn : ¬Blocked [] ts := by
            rintro ⟨r, ⟨h, _⟩, v, hv⟩
            rw [kindAt_nil, if_neg h] at hv
            cases hv
          refine key [] (fun us h => ?_) ?_
          · rw [kindAt_nil, if_neg (h.resolve_right hn)]
            simp [kindAt, hg]
          · rw [blocked_cons m t ts hts]
            simp [hg, hn]
        | some tree =>
          cases tree with
          | value v =>
            simp only
            rw [if_pos ((blocked_cons m t ts hts).mpr (.inl ⟨v, hg⟩))]
          | node n =>
            simp only
            refine key n (fun us _ => by simp [kindAt, hg]) ?_
            rw [blocked_cons m t ts hts]
            simp [hg]

/-- The path `q` is the value of an attribute. -/
def IsValue (ps : List Path) (q : Path) : Prop := q ∈ ps ∧ ∀ r, Above r q → r ∉ ps

/-- The path `q` leads on to attributes. -/
def IsNode (ps : List Path) (q : Path) : Prop :=
  (∃ p ∈ ps, q <+: p ∧ q ≠ p) ∧ ∀ r, r ≠ [] → r <+: q → r ∉ ps

open Classical in
/-- The tree contains the attributes `ps`. -/
def TreeOf (ps : List Path) (m : List (Text × AttrTree)) : Prop :=
  ∀ q, q ≠ [] → kindAt m q = if IsValue ps q then some (some q) else if IsNode ps q then some none else none

theorem prefix_above {r p q : Path} (hr : Above r q) (h : q <+: p) : Above r p :=
  ⟨hr.1, hr.2.1.trans h, fun he => hr.2.2 (by
    subst he
    exact hr.2.1.eq_of_length (Nat.le_antisymm hr.2.1.length_le h.length_le))⟩

theorem above_length {r p : Path} (h : Above r p) : r.length < p.length :=
  Nat.lt_of_le_of_ne h.2.1.length_le fun he => h.2.2 (h.2.1.eq_of_length he)

/-- If one is above, the shortest one is the value of an attribute. -/
theorem shortest {ps : List Path} {p r : Path} (hr : r <+: p) (hne : r ≠ []) (h : r ∈ ps) :
    ∃ q, q ≠ [] ∧ q <+: r ∧ IsValue ps q := by
  induction hn : r.length using Nat.strongRecOn generalizing r with
  | ind n ih =>
    by_cases hv : ∃ x, Above x r ∧ x ∈ ps
    · obtain ⟨x, hx, hxp⟩ := hv
      obtain ⟨q, h1, h2, h3⟩ := ih x.length (hn ▸ above_length hx) (hx.2.1.trans hr) hx.1 hxp rfl
      exact ⟨q, h1, h2.trans hx.2.1, h3⟩
    · exact ⟨r, hne, List.prefix_refl r, h, fun x hx hxp => hv ⟨x, hx, hxp⟩⟩

open Classical in
theorem blocked_iff {ps : List Path} {m : List (Text × AttrTree)} (h : TreeOf ps m) (p : Path) :
    Blocked m p ↔ ∃ r, Above r p ∧ r ∈ ps := by
  constructor
  · rintro ⟨r, hr, v, hv⟩
    refine ⟨r, hr, ?_⟩
    rw [h r hr.1] at hv
    by_cases h1 : IsValue ps r
    · exact h1.1
    · rw [if_neg h1] at hv
      split at hv <;> cases hv
  · rintro ⟨r, hr, hm⟩
    obtain ⟨q, h1, h2, h3⟩ := shortest (p := r) (List.prefix_refl r) hr.1 hm
    have hq : Above q p := by
      refine ⟨h1, h2.trans hr.2.1, fun he => ?_⟩
      have := above_length hr
      have := h2.length_le
      rw [he] at this
      omega
    exact ⟨q, hq, q, by rw [h q h1, if_pos h3]⟩

theorem treeOf_nil : TreeOf [] [] := by
  intro q hq
  rw [kindAt_nil, if_neg hq, if_neg (fun h => by cases h.1), if_neg (fun h => by obtain ⟨⟨_, h, _⟩, _⟩ := h; cases h)]

open Classical in
theorem treeOf_add {ps : List Path} {m : List (Text × AttrTree)} (h : TreeOf ps m) (p : Path) (hp : p ≠ [])
    (hlen : ∀ x ∈ ps, x.length ≤ p.length) : TreeOf (ps ++ [p]) (addPath p p m) := by
  intro q hq
  rw [kindAt_add p p m q hp]
  have hmem : ∀ x, x ∈ ps ++ [p] ↔ x ∈ ps ∨ x = p := by simp
  by_cases hb : Blocked m p
  · rw [if_pos hb, h q hq]
    obtain ⟨r, hr, hrp⟩ := (blocked_iff h p).mp hb
    have hv : IsValue (ps ++ [p]) q ↔ IsValue ps q := by
      constructor
      · rintro ⟨h1, h2⟩
        refine ⟨((hmem q).mp h1).resolve_right ?_, fun x hx hxp => h2 x hx ((hmem x).mpr (.inl hxp))⟩
        rintro rfl
        exact h2 r hr ((hmem r).mpr (.inl hrp))
      · rintro ⟨h1, h2⟩
        refine ⟨(hmem q).mpr (.inl h1), fun x hx hxp => ?_⟩
        rcases (hmem x).mp hxp with hxp | rfl
        · exact h2 x hx hxp
        · exact h2 r (prefix_above hr hx.2.1) hrp
    have hnode : IsNode (ps ++ [p]) q ↔ IsNode ps q := by
      constructor
      · rintro ⟨⟨x, hx, hqx, hne⟩, h2⟩
        refine ⟨?_, fun y hy hyq hyp => h2 y hy hyq ((hmem y).mpr (.inl hyp))⟩
        rcases (hmem x).mp hx with hx | rfl
        · exact ⟨x, hx, hqx, hne⟩
        · have hrq : ¬r <+: q := fun hrq => h2 r hr.1 hrq ((hmem r).mpr (.inl hrp))
          have := List.prefix_or_prefix_of_prefix hr.2.1 hqx
          refine ⟨r, hrp, this.resolve_left hrq, ?_⟩
          rintro rfl
          exact hrq (List.prefix_refl _)
      · rintro ⟨⟨x, hx, hqx, hne⟩, h2⟩
        refine ⟨⟨x, (hmem x).mpr (.inl hx), hqx, hne⟩, fun y hy hyq hyp => ?_⟩
        rcases (hmem y).mp hyp with hyp | rfl
        · exact h2 y hy hyq hyp
        · exact h2 r hr.1 (hr.2.1.trans hyq) hrp
    simp only [hv, hnode]
  · rw [if_neg hb]
    have hb' : ∀ r, Above r p → r ∉ ps := fun r hr hrp => hb ((blocked_iff h p).mpr ⟨r, hr, hrp⟩)
    by_cases hqp : q = p
    · subst hqp
      rw [if_pos rfl, if_pos]
      refine ⟨(hmem q).mpr (.inr rfl), fun x hx hxp => ?_⟩
      rcases (hmem x).mp hxp with hxp | rfl
      · exact hb' x hx hxp
      · exact hx.2.2 rfl
    · rw [if_neg hqp]
      by_cases h1 : q <+: p
      · rw [if_pos h1, if_neg, if_pos]
        · refine ⟨⟨p, (hmem p).mpr (.inr rfl), h1, hqp⟩, fun x hx hxq hxp => ?_⟩
          rcases (hmem x).mp hxp with hxp | rfl
          · refine hb' x ⟨hx, hxq.trans h1, ?_⟩ hxp
            rintro rfl
            exact hqp (h1.eq_of_length (Nat.le_antisymm h1.length_le hxq.length_le))
          · exact hqp (h1.eq_of_length (Nat.le_antisymm h1.length_le hxq.length_le))
        · rintro ⟨h2, _⟩
          rcases (hmem q).mp h2 with h2 | h2
          · exact hb' q ⟨hq, h1, hqp⟩ h2
          · exact hqp h2
      · rw [if_neg h1]
        by_cases h2 : p <+: q
        · have hl : p.length < q.length := above_length ⟨hp, h2, fun h => hqp h.symm⟩
          rw [if_pos h2, if_neg, if_neg]
          · rintro ⟨⟨x, hx, hqx, _⟩, _⟩
            have := hqx.length_le
            rcases (hmem x).mp hx with hx | rfl
            · have := hlen x hx; omega
            · omega
          · rintro ⟨hx, _⟩
            rcases (hmem q).mp hx with hx | rfl
            · have := hlen q hx; omega
            · exact hqp rfl
        · rw [if_neg h2, h q hq]
          have hv : IsValue (ps ++ [p]) q ↔ IsValue ps q := by
            constructor
            · rintro ⟨h3, h4⟩
              exact ⟨((hmem q).mp h3).resolve_right hqp, fun x hx hxp => h4 x hx ((hmem x).mpr (.inl hxp))⟩
            · rintro ⟨h3, h4⟩
              refine ⟨(hmem q).mpr (.inl h3), fun x hx hxp => ?_⟩
              rcases (hmem x).mp hxp with hxp | rfl
              · exact h4 x hx hxp
              · exact h2 hx.2.1
          have hnode : IsNode (ps ++ [p]) q ↔ IsNode ps q := by
            constructor
            · rintro ⟨⟨x, hx, hqx, hne⟩, h4⟩
              refine ⟨?_, fun y hy hyq hyp => h4 y hy hyq ((hmem y).mpr (.inl hyp))⟩
              rcases (hmem x).mp hx with hx | rfl
              · exact ⟨x, hx, hqx, hne⟩
              · exact absurd hqx h1
            · rintro ⟨⟨x, hx, hqx, hne⟩, h4⟩
              refine ⟨⟨x, (hmem x).mpr (.inl hx), hqx, hne⟩, fun y hy hyq hyp => ?_⟩
              rcases (hmem y).mp hyp with hyp | rfl
              · exact h4 y hy hyq hyp
              · exact h2 hyq
          simp only [hv, hnode]

theorem treeOf_attrTree (ps : List Path) (hne : ∀ p ∈ ps, p ≠ [])
    (hs : ps.Pairwise fun a b => a.length ≤ b.length) : TreeOf ps (attrTree ps) := by
  induction ps using snoc_ind with
  | nil => exact treeOf_nil
  | snoc ps p ih =>
    obtain ⟨h1, _, h2⟩ := List.pairwise_append.mp hs
    unfold attrTree
    rw [List.foldl_append]
    exact treeOf_add (ih (fun x hx => hne x (List.mem_append_left _ hx)) h1) p (hne p (by simp))
      fun x hx => h2 x hx p (by simp)

theorem mem_insertByLength (p x : Path) (l : List Path) : x ∈ insertByLength p l ↔ x = p ∨ x ∈ l := by
  induction l with
  | nil => simp [insertByLength]
  | cons q qs ih =>
    unfold insertByLength
    split
    · simp
    · simp only [List.mem_cons, ih]
      constructor
      · rintro (h | h | h)
        · exact .inr (.inl h)
        · exact .inl h
        · exact .inr (.inr h)
      · rintro (h | h | h)
        · exact .inr (.inl h)
        · exact .inl h
        · exact .inr (.inr h)

theorem insertByLength_sorted (p : Path) (l : List Path) (h : l.Pairwise fun a b => a.length ≤ b.length) :
    (insertByLength p l).Pairwise fun a b => a.length ≤ b.length := by
  induction l with
  | nil => simp [insertByLength]
  | cons q qs ih =>
    obtain ⟨h1, h2⟩ := List.pairwise_cons.mp h
    unfold insertByLength
    split
    · refine List.pairwise_cons.mpr ⟨fun x hx => ?_, h⟩
      rcases List.mem_cons.mp hx with rfl | hx
      · omega
      · have := h1 x hx; omega
    · refine List.pairwise_cons.mpr ⟨fun x hx => ?_, ih h2⟩
      rcases (mem_insertByLength p x qs).mp hx with rfl | hx
      · omega
      · exact h1 x hx

theorem sortByLength_spec (ps : List Path) : (sortByLength ps).Pairwise (fun a b => a.length ≤ b.length) ∧
    ∀ p, p ∈ sortByLength ps ↔ p ∈ ps := by
  unfold sortByLength
  have : ∀ (out : List Path), out.Pairwise (fun a b => a.length ≤ b.length) →
      (ps.foldl (fun out p => insertByLength p out) out).Pairwise (fun a b => a.length ≤ b.length) ∧
      ∀ p, p ∈ ps.foldl (fun out p => insertByLength p out) out ↔ p ∈ out ∨ p ∈ ps := by
    induction ps with
    | nil => exact fun out h => ⟨h, by simp⟩
    | cons p ps ih =>
      intro out h
      obtain ⟨h1, h2⟩ := ih _ (insertByLength_sorted p out h)
      refine ⟨h1, fun x => ?_⟩
      rw [List.foldl_cons, h2, mem_insertByLength, List.mem_cons]
      constructor
      · rintro ((h | h) | h)
        · exact .inr (.inl h)
        · exact .inl h
        · exact .inr (.inr h)
      · rintro (h | h | h)
        · exact .inl (.inr h)
        · exact .inl (.inl h)
        · exact .inr h
  obtain ⟨h1, h2⟩ := this [] .nil
  exact ⟨h1, fun p => by rw [h2]; simp⟩

theorem compile_sorted (e : CelExpr) :
    (compileExpr e).attributes.Pairwise fun a b => a.length ≤ b.length := (sortByLength_spec _).1

theorem compile_mem (e : CelExpr) (p : Path) :
    p ∈ (compileExpr e).attributes ↔ p ∈ (properties e {}).all ∧ isGrpcPath p = false := by
  unfold compileExpr
  rw [(sortByLength_spec _).2]
  simp

theorem compile_long (e : CelExpr) (p : Path) (h : p ∈ (compileExpr e).attributes) : 2 ≤ p.length :=
  collected_long e {} (fun _ h => by cases h) p ((compile_mem e p).mp h).1

theorem compile_tree (e : CelExpr) : TreeOf (compileExpr e).attributes (attrTree (compileExpr e).attributes) :=
  treeOf_attrTree _ (fun p hp h => by have := compile_long e p hp; rw [h] at this; simp at this) (compile_sorted e)

end Verif
