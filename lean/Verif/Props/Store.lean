import Verif.Lemmas.Scope
/-! C24-C26: stored values and response variables. -/
set_option linter.unusedSimpArgs false
namespace Verif.Props
open Verif Spec

/-- C24: a path is pending exactly if nothing was stored under it and a writer that may store it is alive. -/
theorem C24_pending (s : ValueStore) (alive : List Text) (stored : List (Text × Val))
    (h : StoreHistory s alive stored) (path : Text) :
    s.isPending path = true ↔ (∀ v, (path, v) ∉ stored) ∧ path ∈ alive := by
  obtain ⟨_, h2, h3⟩ := ValueStore.history_inv h
  unfold ValueStore.isPending
  rw [Bool.and_eq_true, Bool.not_eq_true', ValueStore.any_key_iff, ValueStore.mem_reserved_iff, h2, h3]
  constructor
  · rintro ⟨h4, h5⟩
    constructor
    · intro v hv
      rw [Option.isSome_map] at h4
      have : (stored.find? fun e => decide (e.1 = path)).isSome = true := by
        rw [List.find?_isSome]; exact ⟨_, hv, by simp⟩
      rw [this] at h4
      cases h4
    · apply List.count_pos_iff.1
      apply Nat.pos_of_ne_zero
      intro h0
      rw [if_pos h0] at h5
      exact h5 rfl
  · rintro ⟨h4, h5⟩
    constructor
    · rw [Option.isSome_map]
      rw [Bool.eq_false_iff]
      intro hc
      rw [List.find?_isSome] at hc
      obtain ⟨⟨k, v⟩, hv, hk⟩ := hc
      simp only [decide_eq_true_eq] at hk
      subst hk
      exact h4 v hv
    · rw [if_neg (by have := List.count_pos_iff.2 h5; omega)]
      simp

/-- C24: a stored value is the one stored last. -/
theorem C24_latest (s : ValueStore) (alive : List Text) (stored : List (Text × Val))
    (h : StoreHistory s alive stored) (path : Text) :
    s.get path = stored.lookup path := by
  rw [(ValueStore.history_inv h).2.1]
  induction stored with
  | nil => rfl
  | cons e stored ih =>
    clear ih
    generalize e :: stored = l
    induction l with
    | nil => rfl
    | cons e l ih =>
      obtain ⟨k, v⟩ := e
      rw [List.find?_cons, List.lookup_cons]
      by_cases hk : k = path
      · subst hk; simp
      · have h1 : (path == k) = false := beq_false_of_ne fun e => hk e.symm
        simp [hk, h1, ih]

/-- Two writers of one path: it is pending until both have ended, or one has stored a value. -/
example :
    let p := "a.b".toList
    let s := ((({} : ValueStore).reserve p).reserve p).release p
    s.isPending p = true ∧ (s.release p).isPending p = false ∧ (s.store p .null).isPending p = false ∧
    (s.store p .null).get p = some .null := ⟨by decide, by decide, by decide, rfl⟩

example : StoreHistory (((({} : ValueStore).reserve "a.b".toList).reserve "a.b".toList).release "a.b".toList)
    ["a.b".toList] [] :=
  .ends "a.b".toList (.begins _ (.begins _ .start)) (by simp)

/-- C25: asking for a prefix is answered yes exactly if something was stored under a path with that prefix, or a
writer of such a path is alive. -/
theorem C25_prefix (s : ValueStore) (alive : List Text) (stored : List (Text × Val))
    (h : StoreHistory s alive stored) (pre : Text) :
    s.hasPrefix pre = true ↔ (∃ path v, (path, v) ∈ stored ∧ pre <+: path) ∨ ∃ path ∈ alive, pre <+: path := by
  obtain ⟨h1, h2, h3⟩ := ValueStore.history_inv h
  have hkeys : ∀ path, (∃ v, (path, v) ∈ s.values) ↔ ∃ v, (path, v) ∈ stored := by
    intro path
    have e := h2 path
    have e1 : (s.get path).isSome = true ↔ ∃ v, (path, v) ∈ s.values := by
      unfold ValueStore.get
      rw [Option.isSome_map, List.find?_isSome]
      constructor
      · rintro ⟨⟨k, v⟩, hm, hk⟩; simp at hk; subst hk; exact ⟨v, hm⟩
      · rintro ⟨v, hm⟩; exact ⟨_, hm, by simp⟩
    have e2 : ((stored.find? fun e => decide (e.1 = path)).map (·.2)).isSome = true ↔ ∃ v, (path, v) ∈ stored := by
      rw [Option.isSome_map, List.find?_isSome]
      constructor
      · rintro ⟨⟨k, v⟩, hm, hk⟩; simp at hk; subst hk; exact ⟨v, hm⟩
      · rintro ⟨v, hm⟩; exact ⟨_, hm, by simp⟩
    rw [← e1, ← e2, e]
  unfold ValueStore.hasPrefix
  rw [Bool.or_eq_true]
  refine or_congr ?_ ?_
  · constructor
    · intro ha
      rw [Option.any_eq_true] at ha
      obtain ⟨⟨k, v⟩, hf, hp⟩ := ha
      obtain ⟨v', hv'⟩ := (hkeys k).1 ⟨v, List.mem_of_find?_eq_some hf⟩
      exact ⟨k, v', hv', startsWith_iff.1 hp⟩
    · rintro ⟨path, v, hv, c, rfl⟩
      obtain ⟨w, hw⟩ := (hkeys _).2 ⟨v, hv⟩
      rw [Option.any_eq_true]
      cases hf : s.values.find? fun e => textLe pre e.1 with
      | none =>
        have := List.find?_eq_none.1 hf _ hw
        exact absurd (textLe_append pre c) this
      | some e =>
        refine ⟨e, rfl, startsWith_iff.2 ?_⟩
        obtain ⟨hle, a, b, hab, hno⟩ := List.find?_eq_some_iff_append.1 hf
        refine prefix_of_between hle (b := c) ?_
        rw [hab] at hw
        rcases List.mem_append.1 hw with hw | hw
        · exact absurd (textLe_append pre c) (by simpa using hno _ hw)
        · rcases List.mem_cons.1 hw with rfl | hw
          · exact textLe_refl _
          · have := h1
            rw [hab] at this
            exact ((List.pairwise_cons.1 (List.pairwise_append.1 this).2.1).1 _ hw).1
  · rw [List.any_eq_true]
    constructor
    · rintro ⟨⟨k, n⟩, hm, hp⟩
      refine ⟨k, ?_, startsWith_iff.1 hp⟩
      have : mapGet s.reserved k ≠ none :=
        ValueStore.mem_reserved_iff.1 (List.any_eq_true.2 ⟨_, hm, by simp⟩)
      rw [h3] at this
      apply List.count_pos_iff.1
      apply Nat.pos_of_ne_zero
      intro h0
      rw [if_pos h0] at this
      exact this rfl
    · rintro ⟨path, hm, hp⟩
      have : mapGet s.reserved path ≠ none := by
        rw [h3, if_neg (by have := List.count_pos_iff.2 hm; omega)]
        simp
      obtain ⟨e, he, hk⟩ := List.any_eq_true.1 (ValueStore.mem_reserved_iff.2 this)
      simp only [decide_eq_true_eq] at hk
      exact ⟨e, he, startsWith_iff.2 (by rw [hk]; exact hp)⟩

example :
    let s := ((({} : ValueStore).store "b.x".toList .null).store "a.y".toList .null).reserve "c.z".toList
    s.hasPrefix "a.".toList = true ∧ s.hasPrefix "b".toList = true ∧ s.hasPrefix "c".toList = true ∧
    s.hasPrefix "a.x".toList = false ∧ s.hasPrefix "bb".toList = false := by decide

/-- What an action sees under a name, given the bindings made so far. -/
def seen (made : Bound) (q : List Nat) (name : Text) : Option Val :=
  (scopeVars (made.map fun b => (actionId b.1, b.2)) (actionId q)).lookup name

theorem seen_sees (made : Bound) (hmade : ∀ b ∈ made, b.1 ≠ []) (q : List Nat) (hq : q ≠ []) (name : Text) :
    (seen made q name = none ∧ ∀ p v, (p, (name, v)) ∈ made → ¬ p <+: q) ∨
    ∃ v, seen made q name = some v ∧ Sees made q name v := by
  have hvis : ∀ {b}, b ∈ made → (isAncestor (actionId b.1) (actionId q) = true ↔ b.1 <+: q) :=
    fun hb => isAncestor_iff (hmade _ hb) hq
  let binds : List (Text × (Text × Val)) := made.map fun b => (actionId b.1, b.2)
  let visible := binds.filter fun b => isAncestor b.1 (actionId q)
  let sorted := visible.mergeSort fun a b => textLe a.1 b.1
  have hseen : seen made q name = (sorted.map Prod.snd).reverse.lookup name := rfl
  have hperm : ∀ b, b ∈ sorted ↔ b ∈ visible := fun b => (List.mergeSort_perm visible _).mem_iff
  by_cases hex : ∃ b ∈ sorted, decide (b.2.1 = name) = true
  · right
    obtain ⟨a, ⟨sc, n, v⟩, b, hs, hn, hb⟩ := last_with (P := fun b : Text × (Text × Val) => decide (b.2.1 = name)) hex
    simp only [decide_eq_true_eq] at hn
    subst hn
    refine ⟨v, ?_, ?_⟩
    · rw [hseen, hs, List.map_append, List.map_cons]
      apply lookup_reverse
      intro y hy
      obtain ⟨z, hz, rfl⟩ := List.mem_map.1 hy
      simpa using hb z hz
    · -- among the bindings of the same scope the found one is the last with its name
      have hf : visible.filter (fun e => decide (e.1 = sc)) =
          (a.filter fun e => decide (e.1 = sc)) ++ (sc, (n, v)) :: b.filter fun e => decide (e.1 = sc) := by
        rw [← filter_sort visible sc]
        show sorted.filter _ = _
        rw [hs, List.filter_append, List.filter_cons]
        simp
      have hv : visible.filter (fun e => decide (e.1 = sc)) = binds.filter fun e => decide (e.1 = sc) := by
        show (binds.filter _).filter _ = _
        rw [List.filter_filter]
        apply List.filter_congr
        intro e he
        by_cases h1 : e.1 = sc
        · have : (sc, (n, v)) ∈ visible := (hperm _).1 (by rw [hs]; simp)
          have := (List.mem_filter.1 this).2
          simp only at this
          simp [h1, this]
        · simp [h1]
      rw [hv] at hf
      obtain ⟨ba, x, bb, h1, h2, h3⟩ := last_with (P := fun e : Text × (Text × Val) => decide (e.1 = sc) && decide (e.2.1 = n))
        (l := binds) ⟨(sc, (n, v)), by
          have : (sc, (n, v)) ∈ binds.filter fun e => decide (e.1 = sc) := by rw [hf]; simp
          exact (List.mem_filter.1 this).1, by simp⟩
      have hx : x = (sc, (n, v)) := by
        simp only [Bool.and_eq_true, decide_eq_true_eq] at h2
        obtain ⟨sc', n', v'⟩ := x
        obtain ⟨rfl, rfl⟩ := h2
        have e1 := congrArg (fun l => (l.map Prod.snd).reverse.lookup n') hf
        dsimp only at e1
        rw [h1, List.filter_append, List.filter_cons] at e1
        simp only [decide_true, if_true] at e1
        rw [List.map_append, List.map_cons, List.map_append, List.map_cons, lookup_reverse, lookup_reverse] at e1
        · simp at e1; rw [e1]
        · intro y hy
          obtain ⟨z, hz, rfl⟩ := List.mem_map.1 hy
          simpa using hb z (List.mem_filter.1 hz).1
        · intro y hy
          obtain ⟨z, hz, rfl⟩ := List.mem_map.1 hy
          obtain ⟨hz1, hz2⟩ := List.mem_filter.1 hz
          have := h3 z hz1
          rw [hz2] at this
          simpa using this
      subst hx
      obtain ⟨ma, mr, hmade', hma, hmr⟩ := List.map_eq_append_iff.1 h1
      obtain ⟨⟨p, nv⟩, mb, rfl, hx, hmb⟩ := List.map_eq_cons_iff.1 hmr
      simp only [Prod.mk.injEq] at hx
      obtain ⟨hp, rfl⟩ := hx
      have hpm : (p, (n, v)) ∈ made := by rw [hmade']; simp
      have hpq : p <+: q := by
        have : (sc, (n, v)) ∈ visible := (hperm _).1 (by rw [hs]; simp)
        have := (List.mem_filter.1 this).2
        rw [← hp] at this
        exact (hvis hpm).1 this
      refine ⟨ma, p, mb, hmade', hpq, ?_, ?_⟩
      · intro p' v' hm hpre
        -- the found binding is not below any other one
        have hin : (actionId p', (n, v')) ∈ sorted :=
          (hperm _).2 (List.mem_filter.2 ⟨List.mem_map.2 ⟨_, hm, rfl⟩, (hvis hm).2 hpre⟩)
        have hle : textLe (actionId p') sc = true := by
          have hpw : sorted.Pairwise fun a b => textLe a.1 b.1 = true :=
            List.pairwise_mergeSort (fun a b c => textLe_trans a.1 b.1 c.1) (fun a b => textLe_total a.1 b.1) _
          rw [hs] at hin hpw
          rcases List.mem_append.1 hin with hin | hin
          · exact (List.pairwise_append.1 hpw).2.2 _ hin (sc, (n, v)) List.mem_cons_self
          · rcases List.mem_cons.1 hin with heq | hin
            · rw [Prod.mk.injEq] at heq; rw [heq.1]; exact textLe_refl _
            · have := hb _ hin
              simp at this
        rcases List.prefix_or_prefix_of_prefix hpre hpq with h | h
        · exact h
        · have hge := ancestor_le ((isAncestor_iff (hmade _ hpm) (hmade _ hm)).2 h)
          rw [hp] at hge
          have := textLe_antisymm _ _ hle hge
          rw [← hp] at this
          have := actionId_inj (p := p') (q := p) (hmade _ hm) (hmade _ hpm) this
          rw [this]
          exact List.prefix_rfl
      · intro v' hm
        have := h3 (actionId p, (n, v')) (by rw [← hmb]; exact List.mem_map.2 ⟨_, hm, rfl⟩)
        simp [hp] at this
  · left
    have hno : ∀ b ∈ sorted, b.2.1 ≠ name := fun b hb hn => hex ⟨b, hb, by simp [hn]⟩
    refine ⟨?_, ?_⟩
    · rw [hseen]
      apply lookup_none
      intro y hy
      obtain ⟨z, hz, rfl⟩ := List.mem_map.1 (List.mem_reverse.1 hy)
      exact hno z hz
    · intro p v hm hpre
      exact hno (actionId p, (name, v))
        ((hperm _).2 (List.mem_filter.2 ⟨List.mem_map.2 ⟨_, hm, rfl⟩, (hvis hm).2 hpre⟩)) rfl

/-- There is at most one value an action sees under a name. -/
theorem sees_unique {made : Bound} {q : List Nat} {name : Text} {v w : Val} (h1 : Sees made q name v)
    (h2 : Sees made q name w) : v = w := by
  obtain ⟨b1, p1, a1, e1, hp1, hd1, hl1⟩ := h1
  obtain ⟨b2, p2, a2, e2, hp2, hd2, hl2⟩ := h2
  have h12 := hd1 p2 w (by rw [e2]; simp) hp2
  have h21 := hd2 p1 v (by rw [e1]; simp) hp1
  have : p1 = p2 := h21.eq_of_length (Nat.le_antisymm h21.length_le h12.length_le)
  subst this
  rw [e1] at e2
  rcases List.append_eq_append_iff.1 e2 with ⟨c, hc1, hc2⟩ | ⟨c, hc1, hc2⟩
  · cases c with
    | nil => simp at hc2; exact hc2.1
    | cons x c =>
      simp only [List.cons_append, List.cons.injEq] at hc2
      exact absurd (by rw [hc2.2]; simp) (hl1 w)
  · cases c with
    | nil => simp at hc2; exact hc2.1.symm
    | cons x c =>
      simp only [List.cons_append, List.cons.injEq] at hc2
      exact absurd (by rw [hc2.2]; simp) (hl2 v)

/-- C26: an action sees a variable exactly if that action, or one it is nested in, has bound it; the innermost one
wins, and of several bindings of one action the latest. -/
theorem C26_innermost (made : Bound) (hmade : ∀ b ∈ made, b.1 ≠ []) (q : List Nat) (hq : q ≠ []) (name : Text)
    (v : Val) : seen made q name = some v ↔ Sees made q name v := by
  rcases seen_sees made hmade q hq name with ⟨h1, h2⟩ | ⟨w, h1, h2⟩
  · rw [h1]
    constructor
    · intro h; cases h
    · rintro ⟨b, p, a, e, hp, _⟩
      exact absurd hp (h2 p v (by rw [e]; simp))
  · rw [h1]
    constructor
    · intro h; cases h; exact h2
    · intro h; rw [sees_unique h h2]

/-- C26: an action sees nothing under a name exactly if neither it nor one it is nested in has bound the name. -/
theorem C26_unbound (made : Bound) (hmade : ∀ b ∈ made, b.1 ≠ []) (q : List Nat) (hq : q ≠ []) (name : Text) :
    seen made q name = none ↔ ∀ p v, (p, (name, v)) ∈ made → ¬ p <+: q := by
  rcases seen_sees made hmade q hq name with ⟨h1, h2⟩ | ⟨w, h1, b, p, a, e, hp, _⟩
  · simp only [h1, true_iff]; exact h2
  · rw [h1]
    constructor
    · intro h; cases h
    · intro h; exact absurd hp (h p w (by rw [e]; simp))

/-- C26: the outcome of evaluating an expression in an action does not depend on what other actions have bound, for
worlds that answer by the variables in scope (and not by looking at the bindings themselves). -/
theorem C26_isolated {H : Type} (o : Oracle H)
    (hattrs : ∀ (c : Ctx H) bs e, o.attrs { c with bindings := bs } e = o.attrs c e)
    (hresolve : ∀ (c : Ctx H) bs vars e, o.resolve { c with bindings := bs } vars e = o.resolve c vars e)
    (c : Ctx H) (made made' : Bound) (hmade : ∀ b ∈ made, b.1 ≠ []) (hmade' : ∀ b ∈ made', b.1 ≠ []) (q : List Nat)
    (hq : q ≠ []) (hsame : (made.filter fun b => b.1.isPrefixOf q) = made'.filter fun b => b.1.isPrefixOf q)
    (e : Expr) :
    (evalExpr o { c with bindings := made.map fun b => (actionId b.1, b.2) } (actionId q) e).1 =
      (evalExpr o { c with bindings := made'.map fun b => (actionId b.1, b.2) } (actionId q) e).1 := by
  have hf : ∀ made : Bound, (∀ b ∈ made, b.1 ≠ []) →
      (made.map fun b => (actionId b.1, b.2)).filter (fun b => isAncestor b.1 (actionId q)) =
      (made.filter fun b => b.1.isPrefixOf q).map fun b => (actionId b.1, b.2) := by
    intro made hmade
    rw [List.filter_map]
    congr 1
    apply List.filter_congr
    intro b hb
    apply Bool.eq_iff_iff.2
    show isAncestor (actionId b.1) (actionId q) = true ↔ _
    rw [isAncestor_iff (hmade b hb) hq, List.isPrefixOf_iff_prefix]
  have hvars : scopeVars (made.map fun b => (actionId b.1, b.2)) (actionId q) =
      scopeVars (made'.map fun b => (actionId b.1, b.2)) (actionId q) := by
    unfold scopeVars
    rw [hf made hmade, hf made' hmade', hsame]
  generalize made.map (fun b => (actionId b.1, b.2)) = bs at hvars
  generalize made'.map (fun b => (actionId b.1, b.2)) = bs' at hvars
  unfold evalExpr
  cases e.lit with
  | some v => rfl
  | none =>
    dsimp only
    rw [hattrs c bs, hattrs c bs']
    rcases o.attrs c e with ⟨a, h⟩
    cases a with
    | pending => rfl
    | err => rfl
    | available _ =>
      dsimp only
      have e1 : fieldsAvailable (({ c with bindings := bs } : Ctx H).withHost h) e =
        fieldsAvailable (({ c with bindings := bs' } : Ctx H).withHost h) e := rfl
      rw [e1]
      split
      · have h1 := hresolve (c.withHost h) bs (scopeVars bs (actionId q)) e
        have h2 := hresolve (c.withHost h) bs' (scopeVars bs' (actionId q)) e
        show (match o.resolve { (c.withHost h) with bindings := bs } (scopeVars bs (actionId q)) e with
          | (some v, h) => (Ans.available v, _)
          | (none, h) => (.err, _)).1 =
          (match o.resolve { (c.withHost h) with bindings := bs' } (scopeVars bs' (actionId q)) e with
          | (some v, h) => (Ans.available v, _)
          | (none, h) => (.err, _)).1
        rw [h1, h2, hvars]
        rcases o.resolve (c.withHost h) (scopeVars bs' (actionId q)) e with ⟨v, h'⟩
        cases v <;> rfl
      · rfl

/-- Bindings of the actions 1, 1.0, 10 and 1 again. -/
def bindingsDemo : Bound :=
  [([1], ("v".toList, .uint 1)), ([1, 0], ("v".toList, .uint 2)), ([10], ("v".toList, .uint 3)),
    ([1], ("v".toList, .uint 4))]

/-- The innermost binding, the latest binding, the own binding, and none. -/
example : seen bindingsDemo [1, 0, 5] "v".toList = some (.uint 2) ∧ seen bindingsDemo [1, 2] "v".toList = some (.uint 4) ∧
    seen bindingsDemo [10] "v".toList = some (.uint 3) ∧ seen bindingsDemo [100] "v".toList = none := by
  have hm : ∀ b ∈ bindingsDemo, b.1 ≠ [] := by simp [bindingsDemo]
  refine ⟨(C26_innermost _ hm _ (by simp) _ _).2 ⟨_, _, _, (List.take_append_drop 1 bindingsDemo).symm, by decide, ?_, ?_⟩,
    (C26_innermost _ hm _ (by simp) _ _).2 ⟨_, _, _, (List.take_append_drop 3 bindingsDemo).symm, by decide, ?_, ?_⟩,
    (C26_innermost _ hm _ (by simp) _ _).2 ⟨_, _, _, (List.take_append_drop 2 bindingsDemo).symm, by decide, ?_, ?_⟩,
    (C26_unbound _ hm _ (by simp) _).2 ?_⟩
  all_goals
    simp only [bindingsDemo, List.mem_cons, Prod.mk.injEq, List.not_mem_nil, or_false]
  · rintro p v (⟨rfl, _⟩ | ⟨rfl, _⟩ | ⟨rfl, _⟩ | ⟨rfl, _⟩) <;> decide
  · rintro v (⟨h, _⟩ | ⟨h, _⟩) <;> simp at h
  · rintro p v (⟨rfl, _⟩ | ⟨rfl, _⟩ | ⟨rfl, _⟩ | ⟨rfl, _⟩) <;> decide
  · simp
  · rintro p v (⟨rfl, _⟩ | ⟨rfl, _⟩ | ⟨rfl, _⟩ | ⟨rfl, _⟩) <;> decide
  · rintro v (⟨h, _⟩ | ⟨h, _⟩) <;> simp at h
  · rintro p v (⟨rfl, _⟩ | ⟨rfl, _⟩ | ⟨rfl, _⟩ | ⟨rfl, _⟩) <;> decide

end Verif.Props
