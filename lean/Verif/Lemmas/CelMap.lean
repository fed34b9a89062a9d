import Verif.Lemmas.CelTree
/-! The data map an expression is evaluated with. -/
set_option linter.unusedSimpArgs false
namespace Verif
open Spec

/-- The path of an entry below `pre`. -/
def under (pre : Text) : Path → Text
  | [] => pre
  | t :: ts => under (entryPath pre t) ts

theorem under_append (pre : Text) (a b : Path) : under pre (a ++ b) = under (under pre a) b := by
  induction a generalizing pre with
  | nil => rfl
  | cons t ts ih => exact ih _

theorem under_join {pre : Text} (hpre : pre ≠ []) {q : Path} (hq : q ≠ []) :
    under pre q = pre ++ '.' :: joinWith ['.'] q := by
  induction q generalizing pre with
  | nil => exact absurd rfl hq
  | cons t ts ih =>
    rw [under, entryPath, if_neg hpre]
    by_cases hts : ts = []
    · subst hts; rfl
    · rw [ih (by simp) hts, joinWith]
      · simp
      · exact hts

/-- The text of a path under which values are stored. -/
theorem under_nil {q : Path} (h : ∃ t ts, q = t :: ts ∧ t ≠ []) : under [] q = joinWith ['.'] q := by
  obtain ⟨t, ts, rfl, ht⟩ := h
  rw [under, entryPath, if_pos rfl]
  by_cases hts : ts = []
  · subst hts; rfl
  · rw [under_join ht hts, joinWith]
    · simp
    · exact hts

theorem entryPath_ne {pre t : Text} (h : pre ≠ [] ∨ t ≠ []) : entryPath pre t ≠ [] := by
  unfold entryPath
  split
  · rename_i hp
    exact h.resolve_left (fun h => h hp)
  · simp

section
variable {store : ValueStore} {get : Path → Ans Val}

/-- Is the entry left out? -/
def Skips (store : ValueStore) (pre key : Text) : Prop :=
  pre = [] ∧ isHostRoot key = false ∧ store.hasPrefix (key ++ ['.']) = false

theorem keyGet_cons (t k : Text) (v : Val) (m : List (Key × Val)) :
    keyGet ((Key.str k, v) :: m) t = if k = t then some v else keyGet m t := by
  unfold keyGet mapGet
  simp only [List.find?_cons, Key.str.injEq]
  by_cases h : k = t <;> simp [h]

theorem mapGet_cons {β : Type} (t k : Text) (v : β) (m : List (Text × β)) :
    mapGet ((k, v) :: m) t = if k = t then some v else mapGet m t := by
  unfold mapGet
  simp only [List.find?_cons]
  by_cases h : k = t <;> simp [h]

theorem map_get {pre : Text} {m : List (Text × AttrTree)} {out : List (Key × Val)}
    (h : mapToValue store get pre m = .available out) (t : Text) :
    (mapGet m t = none → keyGet out t = none) ∧
    ∀ tree, mapGet m t = some tree →
      (∃ v, store.get (entryPath pre t) = some v ∧ keyGet out t = some v) ∨
      (store.get (entryPath pre t) = none ∧ store.isPending (entryPath pre t) = false ∧
        ((Skips store pre t ∧ keyGet out t = none) ∨
        (¬Skips store pre t ∧ ∃ v, treeValue store get (entryPath pre t) tree = .available v ∧
          keyGet out t = some v))) := by
  induction m generalizing out with
  | nil =>
    rw [mapToValue] at h
    cases h
    exact ⟨fun _ => rfl, fun tree h => by cases h⟩
  | cons e rest ih =>
    obtain ⟨key, tree⟩ := e
    rw [mapToValue] at h
    have same : ∀ {v m'}, mapToValue store get pre rest = .available m' → out = (.str key, v) :: m' → key ≠ t →
        (mapGet ((key, tree) :: rest) t = mapGet rest t ∧ keyGet out t = keyGet m' t) := by
      intro v m' _ ho hne
      rw [ho, keyGet_cons, if_neg hne, mapGet_cons, if_neg hne]
      exact ⟨rfl, rfl⟩
    cases hs : store.get (entryPath pre key) with
    | some v =>
      simp only [hs] at h
      cases hr : mapToValue store get pre rest with
      | available m' =>
        simp only [hr] at h
        cases h
        by_cases hk : key = t
        · subst hk
          rw [mapGet_cons, if_pos rfl, keyGet_cons, if_pos rfl]
          exact ⟨fun h => (nomatch h), fun _ _ => .inl ⟨v, hs, rfl⟩⟩
        · obtain ⟨h1, h2⟩ := same (v := v) hr rfl hk
          rw [h1, h2]
          exact ih hr
      | pending => simp [hr] at h
      | err => simp [hr] at h
    | none =>
      simp only [hs] at h
      cases hp : store.isPending (entryPath pre key) with
      | true => simp [hp] at h
      | false =>
        simp only [hp, Bool.false_eq_true, if_false] at h
        by_cases hskip : Skips store pre key
        · have hc : (decide (pre = []) && !isHostRoot key && !store.hasPrefix (key ++ ['.'])) = true := by
            simp [hskip.1, hskip.2.1, hskip.2.2]
          rw [if_pos hc] at h
          by_cases hk : key = t
          · subst hk
            rw [mapGet_cons, if_pos rfl]
            refine ⟨fun h => (nomatch h), fun _ _ => .inr ⟨hs, hp, .inl ⟨hskip, ?_⟩⟩⟩
            cases hg : mapGet rest key with
            | none => exact (ih h).1 hg
            | some tree' =>
              rcases (ih h).2 tree' hg with ⟨v, hv, _⟩ | ⟨_, _, ⟨_, h⟩ | ⟨h, _⟩⟩
              · rw [hs] at hv; cases hv
              · exact h
              · exact absurd hskip h
          · rw [mapGet_cons, if_neg hk]
            exact ih h
        · have hc : ¬(decide (pre = []) && !isHostRoot key && !store.hasPrefix (key ++ ['.'])) = true := by
            intro hc
            simp only [Bool.and_eq_true, decide_eq_true_eq, Bool.not_eq_true'] at hc
            exact hskip ⟨hc.1.1, hc.1.2, hc.2⟩
          rw [if_neg hc] at h
          cases ht : treeValue store get (entryPath pre key) tree with
          | pending => simp [ht] at h
          | err => simp [ht] at h
          | available v =>
            simp only [ht] at h
            cases hr : mapToValue store get pre rest with
            | pending => simp [hr] at h
            | err => simp [hr] at h
            | available m' =>
              simp only [hr] at h
              cases h
              by_cases hk : key = t
              · subst hk
                rw [mapGet_cons, if_pos rfl, keyGet_cons, if_pos rfl]
                refine ⟨fun h => (nomatch h), fun tr htr => .inr ⟨hs, hp, .inr ⟨hskip, v, ?_, rfl⟩⟩⟩
                cases htr
                exact ht
              · obtain ⟨h1, h2⟩ := same (v := v) hr rfl hk
                rw [h1, h2]
                exact ih hr

theorem follow_cons (m : List (Key × Val)) (t : Text) (ts : Path) :
    follow (.map m) (t :: ts) = (keyGet m t).bind fun v => follow v ts := by rw [follow]; rfl

theorem follow_nil (v : Val) : follow v [] = some v := by cases v <;> rfl

/-- What is found along a path. -/
theorem map_follow {pre : Text} {m : List (Text × AttrTree)} {out : List (Key × Val)}
    (h : mapToValue store get pre m = .available out) (t : Text) (ts : Path) (hroot : pre ≠ [] ∨ t ≠ [])
    {k : Option Path} (hk : kindAt m (t :: ts) = some k)
    (hfree : ∀ r, Above r (t :: ts) → store.get (under pre r) = none) :
    (∀ v, store.get (under pre (t :: ts)) = some v → (ts = [] ∨ ¬Skips store pre t) →
      follow (.map out) (t :: ts) = some v) ∧
    (store.get (under pre (t :: ts)) = none → ¬Skips store pre t →
      store.isPending (under pre (t :: ts)) = false ∧
      (∀ a, k = some a → ∃ v, get a = .available v ∧ follow (.map out) (t :: ts) = some v)) := by
  induction ts generalizing pre m out t with
  | nil =>
    rw [follow_cons]
    simp only [follow_nil, under]
    rw [kindAt] at hk
    cases hg : mapGet m t with
    | none => rw [hg] at hk; cases hk
    | some tree =>
      rw [hg] at hk
      rcases (map_get h t).2 tree hg with ⟨v, h1, h2⟩ | ⟨h1, h2, ⟨h3, h4⟩ | ⟨h3, v, h4, h5⟩⟩
      · rw [h1, h2]
        refine ⟨fun v' h _ => by simpa using h, fun h => nomatch h⟩
      · rw [h1]
        exact ⟨fun v' h => (nomatch h), fun _ hn => absurd h3 hn⟩
      · rw [h1]
        refine ⟨fun v' h => (nomatch h), fun _ _ => ⟨h2, fun a ha => ⟨v, ?_, by rw [h5]; rfl⟩⟩⟩
        subst ha
        cases tree with
        | value p =>
          simp at hk
          subst hk
          rw [treeValue] at h4
          exact h4
        | node n => simp [kindAt] at hk
  | cons u us ih =>
    have hne := entryPath_ne hroot
    have hs0 : store.get (entryPath pre t) = none :=
      hfree [t] ⟨by simp, by simp, by simp⟩
    rw [kindAt] at hk
    cases hg : mapGet m t with
    | none => rw [hg] at hk; cases hk
    | some tree =>
      rw [hg] at hk
      cases tree with
      | value p => simp at hk
      | node n =>
        simp only at hk
        rw [follow_cons]
        rcases (map_get h t).2 _ hg with ⟨v, h1, h2⟩ | ⟨h1, h2, ⟨h3, h4⟩ | ⟨h3, v, h4, h5⟩⟩
        · rw [hs0] at h1; cases h1
        · exact ⟨fun v _ hn => absurd h3 (hn.resolve_left (by simp)), fun _ hn => absurd h3 hn⟩
        · rw [treeValue] at h4
          cases hm : mapToValue store get (entryPath pre t) n with
          | pending => simp [hm] at h4
          | err => simp [hm] at h4
          | available inner =>
            simp only [hm] at h4
            cases h4
            rw [h5]
            have hns : ¬Skips store (entryPath pre t) u := fun h => hne h.1
            have := ih hm u (.inl hne) hk (fun r hr => hfree (t :: r)
              ⟨by simp, by simpa using hr.2.1, fun he => hr.2.2 (List.cons.inj he).2⟩)
            exact ⟨fun v hv _ => this.1 v hv (.inr hns), fun hn _ => this.2 hn hns⟩

/-! ### When the map is available -/

mutual
/-- The attributes are at their paths. -/
def located (ps : List Path) (loc : Path) : List (Text × AttrTree) → Prop
  | [] => True
  | (t, tree) :: rest => locatedTree ps (loc ++ [t]) tree ∧ located ps loc rest

def locatedTree (ps : List Path) (loc : Path) : AttrTree → Prop
  | .value a => a = loc ∧ a ∈ ps
  | .node n => (∃ p ∈ ps, loc <+: p) ∧ located ps loc n
end

theorem located_iff (ps : List Path) (loc : Path) (m : List (Text × AttrTree)) :
    located ps loc m ↔ ∀ e ∈ m, locatedTree ps (loc ++ [e.1]) e.2 := by
  induction m with
  | nil => simp [located]
  | cons e rest ih => rw [located, ih]; simp

theorem located_insert {ps : List Path} {loc : Path} {m : List (Text × AttrTree)} (h : located ps loc m)
    {t : Text} {tree : AttrTree} (ht : locatedTree ps (loc ++ [t]) tree) : located ps loc (mapInsert m t tree) := by
  rw [located_iff] at *
  intro e he
  unfold mapInsert at he
  rcases List.mem_cons.mp he with rfl | he
  · exact ht
  · exact h e (List.mem_filter.mp he).1

theorem mapGet_mem_text {β : Type} {m : List (Text × β)} {k : Text} {v : β} (h : mapGet m k = some v) : (k, v) ∈ m := by
  unfold mapGet at h
  cases hf : m.find? (fun e => e.1 = k) with
  | none => rw [hf] at h; cases h
  | some e =>
    rw [hf] at h
    cases h
    have h1 := List.find?_some hf
    have h2 := List.mem_of_find?_eq_some hf
    simp only [decide_eq_true_eq] at h1
    rw [← h1]
    exact h2

theorem located_add {ps : List Path} {a : Path} (ha : a ∈ ps) (p loc : Path) (m : List (Text × AttrTree))
    (h : located ps loc m) (hp : p ≠ []) (hloc : loc ++ p = a) : located ps loc (addPath a p m) := by
  induction p generalizing loc m with
  | nil => exact absurd rfl hp
  | cons t ts ih =>
    have hpre : loc ++ [t] <+: a := ⟨ts, by rw [← hloc]; simp⟩
    unfold addPath
    split
    · exact h
    · rename_i t' heq
      cases heq
      exact located_insert h ⟨hloc.symm, ha⟩
    · rename_i t' ts' hne heq
      cases heq
      split
      · refine located_insert h ⟨⟨a, ha, hpre⟩, ih (loc ++ [t]) [] trivial hne (by simpa using hloc)⟩
      · rename_i n hg
        have := (located_iff ps loc _).mp h _ (mapGet_mem_text hg)
        exact located_insert h ⟨⟨a, ha, hpre⟩, ih (loc ++ [t]) n this.2 hne (by simpa using hloc)⟩
      · exact h

theorem located_mono {ps : List Path} (l : List Path) (hl : ∀ p ∈ l, p ∈ ps ∧ p ≠ []) (m : List (Text × AttrTree))
    (h : located ps [] m) : located ps [] (l.foldl (fun m p => addPath p p m) m) := by
  induction l generalizing m with
  | nil => exact h
  | cons p l ih =>
    have := hl p (List.mem_cons_self ..)
    exact ih (fun q hq => hl q (List.mem_cons_of_mem _ hq)) _ (located_add this.1 p [] m h this.2 rfl)

mutual
theorem map_available {ps : List Path} (hpend : ∀ q, q ≠ [] → (∃ p ∈ ps, q <+: p) → store.isPending (under [] q) = false)
    (hget : ∀ p ∈ ps, ∃ v, get p = .available v) (loc : Path) (m : List (Text × AttrTree)) (h : located ps loc m) :
    ∃ out, mapToValue store get (under [] loc) m = .available out := by
  match m, h with
  | [], _ => exact ⟨[], by rw [mapToValue]⟩
  | (t, tree) :: rest, h =>
    rw [located] at h
    obtain ⟨out, hout⟩ := map_available hpend hget loc rest h.2
    have hu : under [] (loc ++ [t]) = entryPath (under [] loc) t := under_append [] loc [t]
    have htree := tree_available hpend hget (loc ++ [t]) tree h.1
    rw [hu] at htree
    rw [mapToValue]
    cases store.get (entryPath (under [] loc) t) with
    | some v => exact ⟨_, by simp only [hout]; rfl⟩
    | none =>
      have hp : store.isPending (entryPath (under [] loc) t) = false := by
        rw [← hu]
        refine hpend _ (by simp) ?_
        cases tree with
        | value a => exact ⟨a, h.1.2, h.1.1 ▸ List.prefix_refl _⟩
        | node n => exact h.1.1
      simp only [hp, Bool.false_eq_true, if_false]
      split
      · exact ⟨out, hout⟩
      · obtain ⟨v, hv⟩ := htree
        exact ⟨_, by simp only [hv, hout]; rfl⟩

theorem tree_available {ps : List Path} (hpend : ∀ q, q ≠ [] → (∃ p ∈ ps, q <+: p) → store.isPending (under [] q) = false)
    (hget : ∀ p ∈ ps, ∃ v, get p = .available v) (loc : Path) (tree : AttrTree) (h : locatedTree ps loc tree) :
    ∃ v, treeValue store get (under [] loc) tree = .available v := by
  match tree, h with
  | .value a, h =>
    rw [treeValue]
    exact hget a h.2
  | .node n, h =>
    obtain ⟨out, hout⟩ := map_available hpend hget loc n h.2
    exact ⟨.map out, by rw [treeValue, hout]⟩
end

end

end Verif
