import Verif.Lemmas.Document
import Verif.Lemmas.Store
import Verif.Lemmas.Descriptors
import Verif.Props.Routing
set_option linter.unusedSimpArgs false
/-! The configuration in force does not depend on the order of the tables. -/
namespace Verif
open Spec

/-! ## Sorting -/

theorem pairLe_total (a b : Text × Text) : pairLe a b = true ∨ pairLe b a = true := by
  unfold pairLe
  by_cases h : a.1 = b.1
  · rw [if_pos h, if_pos h.symm]
    have := textLe_total a.2 b.2
    simpa using this
  · rw [if_neg h, if_neg (Ne.symm h)]
    have := textLe_total a.1 b.1
    simpa using this

theorem pairLe_antisymm (a b : Text × Text) (h : pairLe a b = true) (h' : pairLe b a = true) : a = b := by
  unfold pairLe at h h'
  by_cases e : a.1 = b.1
  · rw [if_pos e] at h
    rw [if_pos e.symm] at h'
    exact Prod.ext e (textLe_antisymm _ _ h h')
  · rw [if_neg e] at h
    rw [if_neg (Ne.symm e)] at h'
    exact absurd (textLe_antisymm _ _ h h') e

theorem pairLe_trans (a b c : Text × Text) (h : pairLe a b = true) (h' : pairLe b c = true) : pairLe a c = true := by
  unfold pairLe at h h' ⊢
  by_cases e : a.1 = b.1
  · rw [if_pos e] at h
    by_cases e' : b.1 = c.1
    · rw [if_pos e'] at h'
      rw [if_pos (e.trans e')]
      exact textLe_trans _ _ _ h h'
    · rw [if_neg e'] at h'
      rw [if_neg (e ▸ e'), e]
      exact h'
  · rw [if_neg e] at h
    by_cases e' : b.1 = c.1
    · rw [if_neg (e' ▸ e), ← e']
      exact h
    · rw [if_neg e'] at h'
      by_cases e'' : a.1 = c.1
      · rw [← e''] at h'
        exact absurd (textLe_antisymm _ _ h h') e
      · rw [if_neg e'']
        exact textLe_trans _ _ _ h h'

section
variable {α : Type} (key : α → Text × Text)

theorem insertBy_comm {a b : α} (hne : key a ≠ key b) (l : List α) :
    insertBy (fun a b => pairLe (key a) (key b)) a (insertBy (fun a b => pairLe (key a) (key b)) b l) =
      insertBy (fun a b => pairLe (key a) (key b)) b (insertBy (fun a b => pairLe (key a) (key b)) a l) := by
  have hab : ¬ (pairLe (key a) (key b) = true ∧ pairLe (key b) (key a) = true) := fun h =>
    hne (pairLe_antisymm _ _ h.1 h.2)
  have htot := pairLe_total (key a) (key b)
  induction l with
  | nil =>
    simp only [insertBy]
    by_cases h : pairLe (key a) (key b) = true
    · have h' : ¬ pairLe (key b) (key a) = true := fun h' => hab ⟨h, h'⟩
      simp [h, h', insertBy]
    · have h' : pairLe (key b) (key a) = true := htot.resolve_left h
      simp [h, h', insertBy]
  | cons c l ih =>
    by_cases hb : pairLe (key b) (key c) = true
    · by_cases ha : pairLe (key a) (key c) = true
      · simp only [insertBy, hb, ha, if_true]
        by_cases h : pairLe (key a) (key b) = true
        · have h' : ¬ pairLe (key b) (key a) = true := fun h' => hab ⟨h, h'⟩
          simp [h, h', insertBy, ha, hb]
        · have h' : pairLe (key b) (key a) = true := htot.resolve_left h
          simp [h, h', insertBy, ha, hb]
      · have h : ¬ pairLe (key a) (key b) = true := fun h => ha (pairLe_trans _ _ _ h hb)
        simp [insertBy, hb, ha, h]
    · by_cases ha : pairLe (key a) (key c) = true
      · have h : ¬ pairLe (key b) (key a) = true := fun h => hb (pairLe_trans _ _ _ h ha)
        simp [insertBy, hb, ha, h]
      · simp only [insertBy, hb, ha]
        simp only [if_false, Bool.false_eq_true]
        simp only [insertBy, hb, ha, if_false, Bool.false_eq_true]
        rw [ih]

theorem sortBy_perm {l l' : List α} (hp : l.Perm l') (hn : (l.map key).Nodup) :
    sortBy (fun a b => pairLe (key a) (key b)) l = sortBy (fun a b => pairLe (key a) (key b)) l' := by
  induction hp with
  | nil => rfl
  | cons x hp ih =>
    rw [List.map_cons] at hn
    rw [sortBy, sortBy, ih (List.nodup_cons.1 hn).2]
  | swap x y l =>
    rw [List.map_cons, List.map_cons] at hn
    have hne : key y ≠ key x := fun e => (List.nodup_cons.1 hn).1 (by rw [e]; exact List.mem_cons_self ..)
    rw [sortBy, sortBy, sortBy, sortBy]
    exact insertBy_comm key hne _
  | trans h1 _ ih1 ih2 =>
    rw [ih1 hn, ih2 ((h1.map key).nodup_iff.1 hn)]

end

/-! ## Request data -/

theorem domainAndField_injective (alphabetic : Char → Bool) (a b : Text)
    (h : domainAndField alphabetic a = domainAndField alphabetic b) : a = b := by
  rcases Props.C20_lossless alphabetic a with ha | ⟨d, f, ha, hd, _, ea⟩
  · rcases Props.C20_lossless alphabetic b with hb | ⟨d', f', hb, hd', _, eb⟩
    · rw [ha, hb] at h
      exact (Prod.mk.inj h).2
    · rw [ha, hb] at h
      exact absurd (Prod.mk.inj h).1.symm hd'
  · rcases Props.C20_lossless alphabetic b with hb | ⟨d', f', hb, hd', _, eb⟩
    · rw [ha, hb] at h
      exact absurd (Prod.mk.inj h).1 hd
    · rw [ha, hb] at h
      obtain ⟨h1, h2⟩ := Prod.mk.inj h
      rw [ea, eb, h1, h2]

theorem data_perm (alphabetic : Char → Bool) (parse : Text → Option Expr) {c c' : Document}
    (hp : c.requestData.Perm c'.requestData) (hn : (c.requestData.map Prod.fst).Nodup) :
    c.data alphabetic parse = c'.data alphabetic parse := by
  unfold Document.data
  refine sortBy_perm Prod.fst ((hp.filter _).map _) ?_
  rw [List.map_map]
  have hn' : ((c.requestData.filter fun e => (parse e.2).isSome).map Prod.fst).Nodup :=
    List.Nodup.sublist (List.filter_sublist.map _) hn
  generalize c.requestData.filter (fun e => (parse e.2).isSome) = l at hn'
  induction l with
  | nil => exact List.nodup_nil
  | cons e l ih =>
    rw [List.map_cons] at hn' ⊢
    obtain ⟨h1, h2⟩ := List.nodup_cons.1 hn'
    refine List.nodup_cons.2 ⟨fun hm => h1 ?_, ih h2⟩
    obtain ⟨x, hx, he⟩ := List.mem_map.1 hm
    exact List.mem_map.2 ⟨x, hx, domainAndField_injective alphabetic _ _ he⟩

/-! ## Services -/

theorem mapGet_perm {β : Type} {l l' : List (Text × β)} (hp : l.Perm l') (hn : (l.map Prod.fst).Nodup) (k : Text) :
    mapGet l k = mapGet l' k := by
  induction hp with
  | nil => rfl
  | cons x hp ih =>
    rw [List.map_cons] at hn
    have := ih (List.nodup_cons.1 hn).2
    unfold mapGet at this ⊢
    rw [List.find?_cons, List.find?_cons]
    by_cases h : x.1 = k
    · simp [h]
    · simpa [h] using this
  | swap x y l =>
    rw [List.map_cons, List.map_cons] at hn
    have hne : y.1 ≠ x.1 := fun e => (List.nodup_cons.1 hn).1 (by rw [e]; exact List.mem_cons_self ..)
    unfold mapGet
    simp only [List.find?_cons]
    by_cases hx : x.1 = k
    · have hy : y.1 ≠ k := fun h => hne (h.trans hx.symm)
      simp [hx, hy]
    · by_cases hy : y.1 = k
      · simp [hx, hy]
      · simp [hx, hy]
  | trans h1 _ ih1 ih2 => rw [ih1 hn, ih2 ((h1.map Prod.fst).nodup_iff.1 hn)]

/-- The keys of the descriptors the services need. -/
def neededKeys (l : List (Text × ServiceConfig)) : List DescKey :=
  l.filterMap fun e => e.2.instance.bind SvcInst.descriptor

section
variable {P : Type}

theorem createServices_some (m : Manager P) (l : List (Text × ServiceConfig))
    (h : ∀ e ∈ l, e.2.instance.isSome) :
    createServices m l = ((neededKeys l).foldl Manager.addExpected m,
      some (l.filterMap fun e => e.2.instance.map fun i => (e.1, i))) := by
  induction l generalizing m with
  | nil => rfl
  | cons e l ih =>
    obtain ⟨name, s⟩ := e
    have hs := h (name, s) (List.mem_cons_self ..)
    cases hi : s.instance with
    | none => simp only [hi] at hs; cases hs
    | some i =>
      rw [createServices, hi]
      simp only
      cases hd : i.descriptor with
      | none =>
        simp only
        rw [ih _ fun e he => h e (List.mem_cons_of_mem _ he)]
        simp [neededKeys, hi, hd]
      | some k =>
        simp only
        rw [ih _ fun e he => h e (List.mem_cons_of_mem _ he)]
        simp [neededKeys, hi, hd]

theorem createServices_none (m : Manager P) (l : List (Text × ServiceConfig)) (e : Text × ServiceConfig)
    (he : e ∈ l) (h : e.2.instance = none) : (createServices m l).2 = none := by
  induction l generalizing m with
  | nil => cases he
  | cons x l ih =>
    obtain ⟨name, s⟩ := x
    rw [createServices]
    rcases List.mem_cons.1 he with rfl | he
    · rw [h]
    · cases hi : s.instance with
      | none => rfl
      | some i =>
        simp only
        have := ih (match i.descriptor with | some key => m.addExpected key | none => m) he
        generalize createServices _ l = q at this ⊢
        obtain ⟨m', o⟩ := q
        simp only at this
        rw [this]

/-- The initial state of a descriptor. -/
def initialState (m : Manager P) (key : DescKey) : DescState :=
  match mapGet m.embedded key.service with
  | some hash => .embedded hash
  | none => .missing

theorem mapGet_isSome_key {α β : Type} [DecidableEq α] {m : List (α × β)} {k : α} :
    (mapGet m k).isSome ↔ ∃ v, (k, v) ∈ m := by
  unfold mapGet
  rw [Option.isSome_map, List.find?_isSome]
  constructor
  · rintro ⟨⟨k', v⟩, hm, he⟩
    have : k' = k := by simpa using he
    exact ⟨v, this ▸ hm⟩
  · rintro ⟨v, hm⟩
    exact ⟨(k, v), hm, by simp⟩

theorem mem_addExpected (m : Manager P) (key : DescKey) (e : DescKey × DescState) :
    e ∈ (m.addExpected key).descriptors ↔
      e ∈ m.descriptors ∨ (∀ v, (key, v) ∉ m.descriptors) ∧ e = (key, initialState m key) := by
  show e ∈ orInsert m.descriptors key (initialState m key) ↔ _
  unfold orInsert
  by_cases h : (mapGet m.descriptors key).isSome
  · rw [if_pos h]
    obtain ⟨v, hv⟩ := mapGet_isSome_key.1 h
    exact ⟨.inl, fun h => h.elim id fun h => absurd hv (h.1 v)⟩
  · rw [if_neg h]
    have hn : ∀ v, (key, v) ∉ m.descriptors := fun v hv => h (mapGet_isSome_key.2 ⟨v, hv⟩)
    unfold mapInsert
    rw [List.mem_cons, List.mem_filter]
    constructor
    · rintro (h | ⟨h, _⟩)
      · exact .inr ⟨hn, h⟩
      · exact .inl h
    · rintro (h | ⟨_, h⟩)
      · refine .inr ⟨h, ?_⟩
        have : e.1 ≠ key := fun he => hn e.2 (by rw [← he]; exact h)
        simpa using this
      · exact .inl h

theorem mem_foldl_addExpected (keys : List DescKey) (m : Manager P) (e : DescKey × DescState) :
    e ∈ (keys.foldl Manager.addExpected m).descriptors ↔
      e ∈ m.descriptors ∨ e.1 ∈ keys ∧ (∀ v, (e.1, v) ∉ m.descriptors) ∧ e.2 = initialState m e.1 := by
  induction keys generalizing m with
  | nil => simp
  | cons k keys ih =>
    rw [List.foldl_cons, ih]
    have hi : ∀ x, initialState (m.addExpected k) x = initialState m x := fun _ => rfl
    rw [hi]
    simp only [mem_addExpected, List.mem_cons]
    constructor
    · rintro ((h | ⟨hn, he⟩) | ⟨hk, hn, he⟩)
      · exact .inl h
      · exact .inr ⟨.inl (by rw [he]), by rw [he]; exact hn, by rw [he]⟩
      · exact .inr ⟨.inr hk, fun v hv => hn v (.inl hv), he⟩
    · rintro (h | ⟨hk, hn, he⟩)
      · exact .inl (.inl h)
      · by_cases hek : e.1 = k
        · exact .inl (.inr ⟨hek ▸ hn, Prod.ext hek (by rw [← hek]; exact he)⟩)
        · refine .inr ⟨hk.resolve_left hek, ?_, he⟩
          rintro v (h | ⟨_, h⟩)
          · exact hn v h
          · exact hek (Prod.mk.inj h).1

theorem any_congr_mem {α : Type} {l l' : List α} (p : α → Bool) (h : ∀ e, e ∈ l ↔ e ∈ l') : l.any p = l'.any p := by
  rw [Bool.eq_iff_iff, List.any_eq_true, List.any_eq_true]
  exact ⟨fun ⟨e, he, hp⟩ => ⟨e, (h e).1 he, hp⟩, fun ⟨e, he, hp⟩ => ⟨e, (h e).2 he, hp⟩⟩

theorem foldl_addExpected_rest (keys : List DescKey) (m : Manager P) :
    (keys.foldl Manager.addExpected m).pools = m.pools ∧
    (keys.foldl Manager.addExpected m).embedded = m.embedded ∧
    (keys.foldl Manager.addExpected m).service = m.service := by
  induction keys generalizing m with
  | nil => exact ⟨rfl, rfl, rfl⟩
  | cons k keys ih => exact ih (m.addExpected k)

/-- Two managers that know the same. -/
structure SameManager (m m' : Manager P) : Prop where
  pools : m.pools = m'.pools
  embedded : m.embedded = m'.embedded
  service : m.service = m'.service
  descriptors : ∀ e, e ∈ m.descriptors ↔ e ∈ m'.descriptors

theorem createServices_perm (m : Manager P) {l l' : List (Text × ServiceConfig)} (hp : l.Perm l')
    (hn : (l.map Prod.fst).Nodup) :
    ((createServices m l).2 = none ∧ (createServices m l').2 = none) ∨
    ∃ s s', (createServices m l).2 = some s ∧ (createServices m l').2 = some s' ∧ mapGet s = mapGet s' ∧
      SameManager (createServices m l).1 (createServices m l').1 := by
  by_cases h : ∀ e ∈ l, e.2.instance.isSome
  · have h' : ∀ e ∈ l', e.2.instance.isSome := fun e he => h e (hp.mem_iff.2 he)
    rw [createServices_some m l h, createServices_some m l' h']
    refine .inr ⟨_, _, rfl, rfl, ?_, ?_⟩
    · funext k
      refine mapGet_perm (hp.filterMap _) ?_ k
      refine List.Nodup.sublist ?_ hn
      clear h h' hp hn
      induction l with
      | nil => exact .slnil
      | cons e l ih =>
        cases hi : e.2.instance with
        | none => simp only [List.filterMap_cons, hi]; exact ih.cons _
        | some i => simp only [List.filterMap_cons, hi]; exact ih.cons_cons _
    · obtain ⟨a1, a2, a3⟩ := foldl_addExpected_rest (neededKeys l) m
      obtain ⟨b1, b2, b3⟩ := foldl_addExpected_rest (neededKeys l') m
      refine ⟨a1.trans b1.symm, a2.trans b2.symm, a3.trans b3.symm, fun e => ?_⟩
      rw [mem_foldl_addExpected, mem_foldl_addExpected]
      have : e.1 ∈ neededKeys l ↔ e.1 ∈ neededKeys l' := (hp.filterMap _).mem_iff
      rw [this]
  · have : ∃ e ∈ l, e.2.instance = none := by
      refine Classical.byContradiction fun hc => h fun e he => ?_
      cases hi : e.2.instance with
      | none => exact absurd ⟨e, he, hi⟩ hc
      | some i => rfl
    obtain ⟨e, he, hi⟩ := this
    exact .inl ⟨createServices_none m l e he hi, createServices_none m l' e (hp.mem_iff.1 he) hi⟩

theorem root_same (alphabetic : Char → Bool) (parse : Text → Option Expr) {c c' : Document}
    (h : SameConfiguration c c') (hn : (c.requestData.map Prod.fst).Nodup) :
    c.root alphabetic parse = { c'.root alphabetic parse with services := c.services } := by
  have hd := data_perm alphabetic parse h.requestData hn
  have hr := h.rest
  simp only [Document.mk.injEq, true_and] at hr
  obtain ⟨e1, e2, e3, e4, e5⟩ := hr
  unfold Document.root
  simp only [hd, e1, e2, e3, e4, e5]

theorem tryFrom_same (parse : Text → Option Expr) (m : Manager P) (cfg : RootConfig)
    {l l' : List (Text × ServiceConfig)} (hp : l.Perm l') (hn : (l.map Prod.fst).Nodup) :
    (({ cfg with services := l } : RootConfig).tryFrom parse m).2 =
      (({ cfg with services := l' } : RootConfig).tryFrom parse m).2 ∧
    ((({ cfg with services := l } : RootConfig).tryFrom parse m).2.isSome →
      SameManager (({ cfg with services := l } : RootConfig).tryFrom parse m).1
        (({ cfg with services := l' } : RootConfig).tryFrom parse m).1) := by
  unfold RootConfig.tryFrom
  simp only
  have h := createServices_perm m hp hn
  generalize createServices m l = q at h
  generalize createServices m l' = q' at h
  obtain ⟨m1, o1⟩ := q
  obtain ⟨m2, o2⟩ := q'
  rcases h with ⟨rfl, rfl⟩ | ⟨s, s', rfl, rfl, hs, hm⟩
  · exact ⟨rfl, fun h => (by cases h)⟩
  · simp only [hs]
    exact ⟨trivial, fun _ => hm⟩

end
end Verif
