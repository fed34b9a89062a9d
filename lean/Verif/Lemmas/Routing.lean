import Verif.Lemmas.Truth
import Verif.Spec.Routing
/-! The index of hostnames and the choice of an action set. -/
set_option linter.unusedSimpArgs false
namespace Verif
open Spec

section Index

theorem startsWith_iff {t p : Text} : startsWith t p = true ↔ p <+: t := by
  unfold startsWith
  first | exact List.isPrefixOf_iff_prefix | simp [List.isPrefixOf_iff_prefix]

theorem lookup_append {α : Type} (l m : List (Text × α)) (k : Text) :
    (l ++ m).lookup k = (l.lookup k).or (m.lookup k) := by
  induction l with
  | nil => simp
  | cons e l ih =>
    obtain ⟨a, b⟩ := e
    simp only [List.cons_append, List.lookup_cons, ih]
    split <;> simp

theorem lookup_none_iff {α : Type} (l : List (Text × α)) (k : Text) :
    l.lookup k = none ↔ k ∉ l.map (·.1) := by
  induction l with
  | nil => simp
  | cons e l ih =>
    obtain ⟨a, b⟩ := e
    simp only [List.lookup_cons, List.map_cons, List.mem_cons]
    by_cases h : k = a
    · subst h; simp
    · have hb : (k == a) = false := by simpa using h
      rw [hb]
      simpa [h] using ih

theorem lookup_of_mem {α : Type} {l : List (Text × α)} (hn : (l.map (·.1)).Nodup) {k : Text} {v : α}
    (h : (k, v) ∈ l) : l.lookup k = some v := by
  induction l with
  | nil => simp at h
  | cons e l ih =>
    obtain ⟨a, b⟩ := e
    simp only [List.map_cons, List.nodup_cons] at hn
    simp only [List.lookup_cons]
    rcases List.mem_cons.1 h with h | h
    · cases h; simp
    · have : k ≠ a := by
        intro hk
        exact hn.1 (List.mem_map.2 ⟨_, h, hk⟩)
      have : (k == a) = false := by simpa using this
      rw [this]
      exact ih hn.2 h

theorem keys_insert (index : List (Text × List Blueprint)) (k : Text) (b : Blueprint)
    (hn : (index.map (·.1)).Nodup) : ((indexInsert index k b).map (·.1)).Nodup := by
  unfold indexInsert
  split
  · rw [List.map_map]
    have : (fun x => x.1) ∘ (fun e : Text × List Blueprint => if e.1 = k then (e.1, e.2 ++ [b]) else e) =
        (fun x => x.1) := by
      funext e; dsimp; split <;> rfl
    rw [this]; exact hn
  · rename_i h
    rw [List.map_append, List.nodup_append]
    refine ⟨hn, by simp, ?_⟩
    intro a ha c hc
    simp only [List.map_cons, List.map_nil, List.mem_singleton] at hc
    subst hc
    rintro rfl
    obtain ⟨e, he, rfl⟩ := List.mem_map.1 ha
    exact h (List.any_eq_true.2 ⟨e, he, by simp⟩)

theorem lookup_insert (index : List (Text × List Blueprint)) (k : Text) (b : Blueprint) (k' : Text) :
    (indexInsert index k b).lookup k' =
      if k' = k then some ((index.lookup k).getD [] ++ [b]) else index.lookup k' := by
  unfold indexInsert
  split
  · rename_i h
    have hk : index.lookup k ≠ none := by
      rw [Ne, lookup_none_iff]
      intro hn
      obtain ⟨e, he, hek⟩ := List.any_eq_true.1 h
      exact hn (List.mem_map.2 ⟨e, he, by simpa using hek⟩)
    clear h
    induction index with
    | nil => simp at hk
    | cons e l ih =>
      obtain ⟨a, v⟩ := e
      simp only [List.map_cons, List.lookup_cons] at hk ⊢
      by_cases hka : k = a
      · subst hka
        by_cases hk' : k' = k
        · subst hk'; simp [List.lookup_cons]
        · have : (k' == k) = false := by simpa using hk'
          simp only [if_true, List.lookup_cons, this, if_neg hk']
          clear ih hk
          induction l with
          | nil => rfl
          | cons e l ih =>
            obtain ⟨a, w⟩ := e
            simp only [List.map_cons]
            by_cases h : a = k
            · subst h; simp [List.lookup_cons, this, ih]
            · simp only [if_neg h, List.lookup_cons, ih]
      · have hb : (k == a) = false := by simpa using hka
        rw [hb] at hk ⊢
        have ha : a ≠ k := fun h => hka h.symm
        simp only [if_neg ha, List.lookup_cons]
        by_cases hk' : k' = a
        · subst hk'
          simp [ha]
        · have hb' : (k' == a) = false := by simpa using hk'
          rw [hb']
          exact ih hk
  · rename_i h
    have hk : index.lookup k = none := by
      rw [lookup_none_iff]
      intro hm
      obtain ⟨e, he, rfl⟩ := List.mem_map.1 hm
      exact h (List.any_eq_true.2 ⟨e, he, by simp⟩)
    rw [lookup_append]
    by_cases hk' : k' = k
    · subst hk'; simp [hk, List.lookup_cons]
    · have : (k' == k) = false := by simpa using hk'
      simp [List.lookup_cons, this, hk']

/-- The key of a configured hostname. -/
def hostKey (h : Text) : Text := reverseSubdomain (asciiLower h)

/-- Index `x` extended by the sets `ss` for key `k`. -/
def Extends (parse : Text → Option Expr) (cfg : PluginConfig) (x y : List (Text × List Blueprint))
    (ss : List ActionSet) : Prop :=
  ∀ k, ∃ bs, ((y.lookup k).getD []) = (x.lookup k).getD [] ++ bs ∧
    bs.map some = (ss.flatMap fun s => (s.hostnames.filter fun h => hostKey h = k).map fun _ => s).map
      (blueprintOf parse cfg) ∧
    (y.lookup k = none ↔ x.lookup k = none ∧ ∀ s ∈ ss, ∀ h ∈ s.hostnames, hostKey h ≠ k)

theorem foldInsert (index : List (Text × List Blueprint)) (b : Blueprint) (hs : List Text) (k : Text) :
    let y := hs.foldl (fun index h => indexInsert index (hostKey h) b) index
    ((y.lookup k).getD []) = (index.lookup k).getD [] ++ (hs.filter fun h => hostKey h = k).map (fun _ => b) ∧
    (y.lookup k = none ↔ index.lookup k = none ∧ ∀ h ∈ hs, hostKey h ≠ k) ∧
    ((index.map (·.1)).Nodup → (y.map (·.1)).Nodup) := by
  induction hs generalizing index with
  | nil => simp
  | cons h hs ih =>
    obtain ⟨h1, h2, h3⟩ := ih (indexInsert index (hostKey h) b)
    refine ⟨?_, ?_, fun hn => h3 (keys_insert _ _ _ hn)⟩
    · rw [List.foldl_cons, h1, lookup_insert]
      by_cases hk : k = hostKey h
      · subst hk; simp
      · have : ¬ hostKey h = k := fun h => hk h.symm
        simp [hk, this]
    · rw [List.foldl_cons, h2, lookup_insert]
      by_cases hk : k = hostKey h
      · subst hk; simp
      · have : ¬ hostKey h = k := fun h => hk h.symm
        simp [hk, this]

theorem indexLoop_spec {parse : Text → Option Expr} {cfg : PluginConfig} {ss : List ActionSet}
    {x y : List (Text × List Blueprint)} (h : indexLoop parse cfg x ss = some y)
    (hn : (x.map (·.1)).Nodup) : Extends parse cfg x y ss ∧ (y.map (·.1)).Nodup := by
  induction ss generalizing x with
  | nil =>
    simp only [indexLoop, Option.some.injEq] at h
    subst h
    exact ⟨fun k => ⟨[], by simp⟩, hn⟩
  | cons s ss ih =>
    unfold indexLoop at h
    split at h
    · cases h
    · rename_i b hb
      dsimp only at h
      have hbp : blueprintOf parse cfg s = some { b with actions := b.actions ++ (devModeAction cfg).toList } := by
        simp [blueprintOf, hb]
      generalize hb' : ({ b with actions := b.actions ++ (devModeAction cfg).toList } : Blueprint) = b' at h hbp
      have hf := foldInsert x b' s.hostnames
      have hn' := (hf []).2.2 hn
      obtain ⟨he, hy⟩ := ih h hn'
      refine ⟨fun k => ?_, hy⟩
      obtain ⟨bs, h1, h2, h3⟩ := he k
      obtain ⟨g1, g2, _⟩ := hf k
      refine ⟨(s.hostnames.filter fun h => hostKey h = k).map (fun _ => b') ++ bs, ?_, ?_, ?_⟩
      · rw [h1]
        have := g1
        unfold hostKey at this ⊢
        rw [this, List.append_assoc]
      · rw [List.map_append, h2, List.flatMap_cons, List.map_append, List.map_map, List.map_map]
        congr 1
        apply List.map_congr_left
        intro a _
        simp [hbp]
      · rw [h3]
        have := g2
        unfold hostKey at this ⊢
        rw [this]
        simp [and_assoc]

/-- The fold of `ancestor`. -/
theorem ancestor_fold {α : Type} (index : List (Text × α)) (key : Text) (b0 : Option (Text × α))
    (P : Text × α → Prop) (hP : ∀ e ∈ index, e.1 <+: key → P e) (h0 : ∀ b, b0 = some b → P b) :
    (∀ r, index.foldl (init := b0) (fun best e =>
      if startsWith key e.1 then
        match best with
        | none => some e
        | some b => if b.1.length < e.1.length then some e else some b
      else best) = some r → P r ∧ (∀ e ∈ index, e.1 <+: key → e.1.length ≤ r.1.length) ∧
        (∀ b, b0 = some b → b.1.length ≤ r.1.length)) ∧
    (index.foldl (init := b0) (fun best e =>
      if startsWith key e.1 then
        match best with
        | none => some e
        | some b => if b.1.length < e.1.length then some e else some b
      else best) = none → b0 = none ∧ ∀ e ∈ index, ¬ e.1 <+: key) := by
  induction index generalizing b0 with
  | nil =>
    simp only [List.foldl_nil]
    exact ⟨fun r hr => ⟨h0 r hr, by simp, fun b hb => by rw [hr] at hb; cases hb; exact Nat.le_refl _⟩,
      fun h => ⟨h, by simp⟩⟩
  | cons e l ih =>
    rw [List.foldl_cons]
    have hPl : ∀ e ∈ l, e.1 <+: key → P e := fun e he => hP e (by simp [he])
    by_cases hs : startsWith key e.1 = true
    · have hpre := startsWith_iff.1 hs
      rw [if_pos hs]
      cases b0 with
      | none =>
        obtain ⟨h1, h2⟩ := ih (some e) hPl (by rintro _ ⟨⟩; exact hP e (by simp) hpre)
        refine ⟨fun r hr => ?_, fun h => ?_⟩
        · obtain ⟨a, b, c⟩ := h1 r hr
          refine ⟨a, ?_, by simp⟩
          intro e' he' hp
          rcases List.mem_cons.1 he' with rfl | he'
          · exact c _ rfl
          · exact b _ he' hp
        · exact absurd (h2 h).1 (by simp)
      | some b =>
        dsimp only
        obtain ⟨h1, h2⟩ := ih (if b.1.length < e.1.length then some e else some b) hPl (by
          intro x hx
          split at hx
          · cases hx; exact hP e (by simp) hpre
          · cases hx; exact h0 b rfl)
        refine ⟨fun r hr => ?_, fun h => ?_⟩
        · obtain ⟨a, hb, c⟩ := h1 r hr
          have hc : e.1.length ≤ r.1.length ∧ b.1.length ≤ r.1.length := by
            split at c
            · have := c _ rfl; omega
            · have := c _ rfl; omega
          refine ⟨a, ?_, by rintro _ ⟨⟩; exact hc.2⟩
          intro e' he' hp
          rcases List.mem_cons.1 he' with rfl | he'
          · exact hc.1
          · exact hb _ he' hp
        · have := (h2 h).1
          split at this <;> cases this
    · have hpre : ¬ e.1 <+: key := fun h => hs (startsWith_iff.2 h)
      rw [if_neg hs]
      obtain ⟨h1, h2⟩ := ih b0 hPl h0
      refine ⟨fun r hr => ?_, fun h => ?_⟩
      · obtain ⟨a, b, c⟩ := h1 r hr
        refine ⟨a, ?_, c⟩
        intro e' he' hp
        rcases List.mem_cons.1 he' with rfl | he'
        · exact absurd hp hpre
        · exact b _ he' hp
      · obtain ⟨a, b⟩ := h2 h
        refine ⟨a, ?_⟩
        intro e' he'
        rcases List.mem_cons.1 he' with rfl | he'
        · exact hpre
        · exact b _ he'

theorem ancestor_some {α : Type} {index : List (Text × α)} {key : Text} {r : Text × α}
    (h : ancestor index key = some r) :
    r ∈ index ∧ r.1 <+: key ∧ ∀ e ∈ index, e.1 <+: key → e.1.length ≤ r.1.length := by
  obtain ⟨h1, h2, _⟩ := (ancestor_fold index key none (fun e => e ∈ index ∧ e.1 <+: key)
    (fun e he hp => ⟨he, hp⟩) (by simp)).1 r h
  exact ⟨h1.1, h1.2, h2⟩

theorem ancestor_none {α : Type} {index : List (Text × α)} {key : Text}
    (h : ancestor index key = none) : ∀ e ∈ index, ¬ e.1 <+: key :=
  ((ancestor_fold index key none (fun _ => True) (fun _ _ _ => trivial) (by simp)).2 h).2

end Index

section Keys

theorem reverse_exact {p : Text} (h : p.head? ≠ some '*') :
    reverseSubdomain p = '.' :: (p.reverse ++ ['$']) := by
  unfold reverseSubdomain
  cases p with
  | nil => rfl
  | cons a p =>
    have ha : a ≠ '*' := by simpa using h
    simp only [List.cons_append]
    split
    · rename_i heq; simp only [List.cons.injEq] at heq; exact absurd heq.1 ha
    · simp

theorem reverse_wild (s : Text) : reverseSubdomain ('*' :: s) = '.' :: s.reverse := by
  simp [reverseSubdomain]

theorem pre_dollar {a b : Text} (hb : '$' ∉ b) (h : a ++ ['$'] <+: b ++ ['$']) : a = b := by
  induction a generalizing b with
  | nil =>
    cases b with
    | nil => rfl
    | cons x b =>
      obtain ⟨t, ht⟩ := h
      simp only [List.nil_append, List.cons_append, List.cons.injEq] at ht
      exact absurd (by simp [← ht.1]) hb
  | cons x a ih =>
    cases b with
    | nil =>
      obtain ⟨t, ht⟩ := h
      simp at ht
    | cons y b =>
      rw [List.cons_append, List.cons_append, List.cons_prefix_cons] at h
      rw [h.1, ih (b := b) (by simp at hb; exact hb.2) h.2]

theorem pre_clean {a b : Text} (ha : '$' ∉ a) : a <+: b ++ ['$'] ↔ a <+: b := by
  constructor
  · intro h
    induction a generalizing b with
    | nil => simp
    | cons x a ih =>
      cases b with
      | nil =>
        obtain ⟨t, ht⟩ := h
        simp only [List.nil_append, List.cons_append, List.cons.injEq] at ht
        exact absurd (by simp [ht.1]) ha
      | cons y b =>
        rw [List.cons_append, List.cons_prefix_cons] at h
        rw [List.cons_prefix_cons]
        exact ⟨h.1, ih (by simp at ha; exact ha.2) h.2⟩
  · intro h
    exact h.trans (List.prefix_append _ _)

/-- A key is found for a host exactly if the hostname covers it. -/
theorem key_prefix {p host : Text} (hp : '$' ∉ p) (hh : '$' ∉ host) (hs : host.head? ≠ some '*') :
    reverseSubdomain p <+: reverseSubdomain host ↔ Covers p host := by
  rw [reverse_exact hs]
  by_cases hstar : p.head? = some '*'
  · obtain ⟨s, rfl⟩ : ∃ s, p = '*' :: s := by
      cases p with
      | nil => simp at hstar
      | cons a p => simp at hstar; exact ⟨p, by rw [hstar]⟩
    rw [reverse_wild, List.cons_prefix_cons]
    have hss : '$' ∉ s.reverse := by simp at hp ⊢; exact hp
    rw [pre_clean hss, List.reverse_prefix]
    constructor
    · rintro ⟨_, start, rfl⟩; exact .wildcard _ _
    · intro h
      cases h with
      | exact => simp at hs
      | wildcard start => exact ⟨rfl, ⟨start, rfl⟩⟩
  · rw [reverse_exact hstar, List.cons_prefix_cons]
    constructor
    · rintro ⟨_, h⟩
      have := pre_dollar (by simpa using hh) h
      have : p = host := by simpa using congrArg List.reverse this
      subst this; exact .exact _
    · intro h
      cases h with
      | exact => exact ⟨rfl, List.prefix_refl _⟩
      | wildcard start suffix => simp at hstar

/-- Length of a key. -/
theorem key_length (p : Text) : (reverseSubdomain p).length =
    if p.head? = some '*' then p.length else p.length + 2 := by
  split
  · rename_i hstar
    obtain ⟨s, rfl⟩ : ∃ s, p = '*' :: s := by
      cases p with
      | nil => simp at hstar
      | cons a p => simp at hstar; exact ⟨p, by rw [hstar]⟩
    rw [reverse_wild]; simp
  · rename_i h
    rw [reverse_exact h]; simp

theorem key_inj {p q : Text} (hp : '$' ∉ p) (hq : '$' ∉ q) (h : reverseSubdomain p = reverseSubdomain q) :
    p = q := by
  by_cases h1 : p.head? = some '*'
  · obtain ⟨s, rfl⟩ : ∃ s, p = '*' :: s := by
      cases p with
      | nil => simp at h1
      | cons a p => simp at h1; exact ⟨p, by rw [h1]⟩
    by_cases h2 : q.head? = some '*'
    · obtain ⟨s', rfl⟩ : ∃ s, q = '*' :: s := by
        cases q with
        | nil => simp at h2
        | cons a q => simp at h2; exact ⟨q, by rw [h2]⟩
      rw [reverse_wild, reverse_wild] at h
      simpa using h
    · rw [reverse_wild, reverse_exact h2] at h
      have : '$' ∈ s.reverse := by rw [List.cons.inj h |>.2]; simp
      exact absurd (by simpa using this) hp
  · by_cases h2 : q.head? = some '*'
    · obtain ⟨s', rfl⟩ : ∃ s, q = '*' :: s := by
        cases q with
        | nil => simp at h2
        | cons a q => simp at h2; exact ⟨q, by rw [h2]⟩
      rw [reverse_wild, reverse_exact h1] at h
      have : '$' ∈ s'.reverse := by rw [← (List.cons.inj h).2]; simp
      exact absurd (by simpa using this) hq
    · rw [reverse_exact h1, reverse_exact h2] at h
      simpa using h

theorem head_of_covers {p host : Text} (h : Covers p host) (hs : host.head? ≠ some '*') :
    p = host ∨ p.head? = some '*' := by
  cases h with
  | exact => exact .inl rfl
  | wildcard => exact .inr rfl

theorem covers_length {p host : Text} (h : Covers p host) (hne : p ≠ host) : p.length ≤ host.length + 1 := by
  cases h with
  | exact => exact absurd rfl hne
  | wildcard => simp

end Keys

section Choice
variable {H : Type} (o : Oracle H)

theorem testAllLoop_conj (c : Ctx H) (ps : List Expr) :
    Conj o c ps (testAllLoop o c ps).1 (testAllLoop o c ps).2 := by
  induction ps generalizing c with
  | nil => exact .nil c
  | cons p ps ih =>
    unfold testAllLoop
    rw [testPred_tests]
    split
    · rename_i heq; exact .holds heq (ih _)
    · rename_i heq; exact .stops heq (by simp)
    · rename_i heq; exact .stops heq (by simp)
    · rename_i heq; exact .stops heq (by simp)

theorem Spec.Conj.unique {o : Oracle H} {c c1 c2 : Ctx H} {ps : List Expr} {a b : Ans Bool}
    (h : Conj o c ps a c1) (g : Conj o c ps b c2) : a = b ∧ c1 = c2 := by
  induction h with
  | nil c => cases g; exact ⟨rfl, rfl⟩
  | holds h hr ih =>
    cases g with
    | holds h' hr' => rw [h] at h'; cases h'; exact ih hr'
    | stops h' ha => rw [h] at h'; cases h'; exact absurd rfl ha
  | stops h ha =>
    cases g with
    | holds h' hr' => rw [h] at h'; cases h'; exact absurd rfl ha
    | stops h' ha => rw [h] at h'; cases h'; exact ⟨rfl, rfl⟩

theorem parseAll_iff {parse : Text → Option Expr} {ts : List Text} {es : List Expr} :
    parseAll parse ts = some es ↔ ts.map parse = es.map some := by
  induction ts generalizing es with
  | nil => cases es <;> simp [parseAll]
  | cons t ts ih =>
    cases es with
    | nil =>
      simp only [parseAll, List.map_cons, List.map_nil]
      constructor
      · intro h; split at h <;> cases h
      · intro h; cases h
    | cons e es =>
      simp only [parseAll, List.map_cons, List.cons.injEq]
      constructor
      · intro h
        split at h
        · rename_i h1 h2
          cases h
          exact ⟨h1, ih.1 h2⟩
        · cases h
      · rintro ⟨h1, h2⟩
        rw [h1, ih.2 h2]

theorem testAll_routes {parse : Text → Option Expr} {s : ActionSet} {es : List Expr}
    (h : parseAll parse s.predicates = some es) (c : Ctx H) :
    Routes o parse c s (testAll o c es).1 (testAll o c es).2 := by
  have h' := parseAll_iff.1 h
  unfold testAll
  split
  · rename_i he
    have : es = [] := by simpa using he
    subst this
    exact .always (by simpa using h') rfl rfl
  · rename_i he
    exact .test es (by simpa using he) h' (testAllLoop_conj o _ _)

theorem blueprint_predicates {parse : Text → Option Expr} {cfg : PluginConfig} {s : ActionSet} {b : Blueprint}
    (h : blueprintOf parse cfg s = some b) : parseAll parse s.predicates = some b.routePredicates := by
  unfold blueprintOf at h
  obtain ⟨b', h1, rfl⟩ := Option.map_eq_some_iff.1 h
  unfold Blueprint.compile at h1
  split at h1
  · rename_i h2 h3
    cases h1
    exact h2
  · cases h1

/-- The result of `firstMatch` as a pick. -/
theorem firstMatch_pick {parse : Text → Option Expr} {cfg : PluginConfig} (ss : List ActionSet)
    (bs : List Blueprint) (h : bs.map some = ss.map (blueprintOf parse cfg)) (c : Ctx H) :
    ∃ pick, FirstOf o parse c ss pick (firstMatch o c bs).2 ∧
      ((firstMatch o c bs).1 = .none ∧ pick = .none ∨
        (firstMatch o c bs).1 ≠ .none ∧ Chosen parse cfg pick (firstMatch o c bs).1) := by
  induction ss generalizing bs c with
  | nil =>
    have : bs = [] := by simpa using h
    subst this
    exact ⟨.none, .nil c, .inl ⟨rfl, rfl⟩⟩
  | cons s ss ih =>
    cases bs with
    | nil => simp at h
    | cons b bs =>
      simp only [List.map_cons, List.cons.injEq] at h
      have hr := testAll_routes o (blueprint_predicates h.1.symm) c
      unfold firstMatch
      split <;> rename_i heq <;> rw [heq] at hr
      · exact ⟨.set s, .hit hr, .inr ⟨by simp, .set s b h.1.symm⟩⟩
      · obtain ⟨pick, h1, h2⟩ := ih bs h.2 _
        exact ⟨pick, .skip hr h1, h2⟩
      · exact ⟨.error, .pending hr, .inr ⟨by simp, .error⟩⟩
      · exact ⟨.error, .failed hr, .inr ⟨by simp, .error⟩⟩

end Choice

theorem tryFrom_index {parse : Text → Option Expr} {cfg : PluginConfig} {f : Factory}
    (h : Factory.tryFrom parse cfg = some f) : Extends parse cfg [] f.index cfg.actionSets ∧
      (f.index.map (·.1)).Nodup ∧ f.fallback = (devModeAction cfg).map fun a =>
        { name := "kuadrant.devMode".toList, routePredicates := [], actions := [a] } := by
  unfold Factory.tryFrom at h
  split at h
  · cases h
  · rename_i index hi
    cases h
    obtain ⟨h1, h2⟩ := indexLoop_spec hi (by simp)
    exact ⟨h1, h2, rfl⟩

theorem devMode_none {cfg : PluginConfig} : devModeAction cfg = none ↔ cfg.headerIdentifier = none := by
  unfold devModeAction
  simp

theorem mem_index {α : Type} {l : List (Text × α)} {k : Text} (h : l.lookup k ≠ none) : ∃ v, (k, v) ∈ l := by
  rw [Ne, lookup_none_iff] at h
  have h' : k ∈ l.map (·.1) := Classical.byContradiction h
  obtain ⟨e, he, rfl⟩ := List.mem_map.1 h'
  exact ⟨e.2, he⟩

/-- The entry of the index used for a host, in terms of the configuration. -/
theorem entry_spec {parse : Text → Option Expr} {cfg : PluginConfig} {f : Factory}
    (hf : Factory.tryFrom parse cfg = some f) {host : Text} (hh : '$' ∉ host) (hs : host.head? ≠ some '*')
    (hc : ∀ p ∈ patterns cfg, '$' ∉ p) :
    (ancestor f.index (reverseSubdomain host) = none ∧ ∀ p ∈ patterns cfg, ¬ Covers p host) ∨
    ∃ k bs p, ancestor f.index (reverseSubdomain host) = some (k, bs) ∧ Best cfg host p ∧
      bs.map some = (candidates cfg p).map (blueprintOf parse cfg) := by
  obtain ⟨he, hn, _⟩ := tryFrom_index hf
  have hkey : ∀ k, f.index.lookup k ≠ none ↔ ∃ p ∈ patterns cfg, reverseSubdomain p = k := by
    intro k
    obtain ⟨_, _, _, h3⟩ := he k
    rw [Ne, h3]
    constructor
    · intro h
      refine Classical.byContradiction fun hno => h ⟨rfl, ?_⟩
      intro s hs h hh hk
      exact hno ⟨asciiLower h, List.mem_flatMap.2 ⟨s, hs, List.mem_map.2 ⟨h, hh, rfl⟩⟩, hk⟩
    · rintro ⟨p, hp, hk⟩ ⟨_, hno⟩
      obtain ⟨s, hs, hm⟩ := List.mem_flatMap.1 hp
      obtain ⟨h, hh, rfl⟩ := List.mem_map.1 hm
      exact hno s hs h hh hk
  cases ha : ancestor f.index (reverseSubdomain host) with
  | none =>
    refine .inl ⟨rfl, fun p hp hcov => ?_⟩
    obtain ⟨v, hv⟩ := mem_index ((hkey _).2 ⟨p, hp, rfl⟩)
    exact ancestor_none ha _ hv ((key_prefix (hc p hp) hh hs).2 hcov)
  | some r =>
    obtain ⟨k, bs⟩ := r
    obtain ⟨h1, h2, h3⟩ := ancestor_some ha
    have hl := lookup_of_mem hn h1
    obtain ⟨p, hp, rfl⟩ := (hkey k).1 (by rw [hl]; simp)
    have hcov := (key_prefix (hc p hp) hh hs).1 h2
    refine .inr ⟨_, bs, p, rfl, ⟨hp, hcov, ?_⟩, ?_⟩
    · intro q hq hcq
      obtain ⟨v, hv⟩ := mem_index ((hkey _).2 ⟨q, hq, rfl⟩)
      have hle := h3 _ hv ((key_prefix (hc q hq) hh hs).2 hcq)
      by_cases hph : p = host
      · exact .inl hph
      · refine .inr ?_
        have hpw : p.head? = some '*' := (head_of_covers hcov hs).resolve_left hph
        dsimp only at hle
        rw [key_length, key_length, if_pos hpw] at hle
        have hpl := covers_length hcov hph
        have hqh : q ≠ host := by
          rintro rfl
          rw [if_neg hs] at hle
          omega
        have hqw : q.head? = some '*' := (head_of_covers hcq hs).resolve_left hqh
        rw [if_pos hqw] at hle
        exact ⟨hqh, hle⟩
    · obtain ⟨bs', g1, g2, _⟩ := he (reverseSubdomain p)
      rw [hl] at g1
      simp only [Option.getD_some, List.lookup_nil, Option.getD_none, List.nil_append] at g1
      subst g1
      rw [g2]
      unfold candidates
      congr 1
      have : ∀ s ∈ cfg.actionSets, ((s.hostnames.filter fun h => hostKey h = reverseSubdomain p).map fun _ => s) =
          ((s.hostnames.filter fun h => asciiLower h = p).map fun _ => s) := by
        intro s hs'
        congr 1
        apply List.filter_congr
        intro h hh'
        have hmem : asciiLower h ∈ patterns cfg :=
          List.mem_flatMap.2 ⟨s, hs', List.mem_map.2 ⟨h, hh', rfl⟩⟩
        by_cases hpq : asciiLower h = p
        · simp [hpq, hostKey]
        · have : ¬ hostKey h = reverseSubdomain p := fun hk => hpq (key_inj (hc _ hmem) (hc p hp) hk)
          simp [hpq, this]
      rw [List.flatMap_def, List.flatMap_def, List.map_congr_left this]

theorem Spec.Best.unique {cfg : PluginConfig} {host p q : Text} (hs : host.head? ≠ some '*') (hp : Best cfg host p)
    (hq : Best cfg host q) : p = q := by
  rcases hp.best q hq.configured hq.covers with h | ⟨h1, h2⟩
  · rcases hq.best p hp.configured hp.covers with g | ⟨g1, _⟩
    · rw [h, g]
    · exact absurd h g1
  · rcases hq.best p hp.configured hp.covers with g | ⟨g1, g2⟩
    · exact absurd g h1
    · have hlen : p.length = q.length := by omega
      have cp := hp.covers
      have cq := hq.covers
      have h1' := (head_of_covers cp hs).resolve_left g1
      cases cp with
      | exact => exact absurd rfl g1
      | wildcard st su =>
        generalize hho : st ++ su = host' at cq h1
        cases cq with
        | exact => exact absurd rfl h1
        | wildcard st' su' =>
          simp only [List.length_cons, Nat.add_right_cancel_iff] at hlen
          rw [(List.append_inj' hho hlen).2]

end Verif
