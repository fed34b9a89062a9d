import Verif.Spec.CelEnv
/-! The attributes an expression refers to are collected. -/
set_option linter.unusedSimpArgs false
namespace Verif
open Spec

theorem parts_size {e q : CelExpr} (h : q ∈ parts e) : sizeOf q < sizeOf e := by
  cases e <;> simp only [parts, List.mem_cons, List.not_mem_nil, or_false] at h
  case call f args => have := List.sizeOf_lt_of_mem h; simp; omega
  case method t f args =>
    rcases h with h | h
    · subst h; simp; omega
    · have := List.sizeOf_lt_of_mem h; simp; omega
  case select => subst h; simp; omega
  case list l => have := List.sizeOf_lt_of_mem h; simp; omega
  case map l => have := List.sizeOf_lt_of_mem h; simp; omega
  case struct n l => have := List.sizeOf_lt_of_mem h; simp; omega
  case comprehension => rcases h with h | h | h | h | h <;> subst h <;> simp <;> omega

theorem CelExpr.ind {P : CelExpr → Prop} (h : ∀ e, (∀ q ∈ parts e, P q) → P e) (e : CelExpr) : P e :=
  h e fun q _ => CelExpr.ind h q
termination_by sizeOf e
decreasing_by exact parts_size ‹_›

/-- The state with which the parts are visited. -/
def enter : CelExpr → Collected → Collected
  | .call func args, s => { bodyFields func args s with path := [] }
  | .select _ field, s => { s with path := field :: s.path }
  | _, s => s

theorem properties_parts (e : CelExpr) (s : Collected) (h : ∀ n, e ≠ .ident n) :
    properties e s = propertiesList (parts e) (enter e s) := by
  cases e <;> simp only [properties, parts, enter, propertiesList]
  case ident n => exact absurd rfl (h n)

theorem properties_ident (n : Text) (s : Collected) : properties (.ident n) s =
    if s.path = [] then s else { s with all := s.all ++ [n :: s.path], path := [] } := by rw [properties]

theorem bodyFields_all (f : Text) (args : List CelExpr) (s : Collected) : (bodyFields f args s).all = s.all := by
  unfold bodyFields
  split
  · rfl
  · split
    · rfl
    · split <;> rfl

theorem enter_all (e : CelExpr) (s : Collected) : (enter e s).all = s.all := by
  cases e <;> try rfl
  exact bodyFields_all _ _ _

/-- A relation between states that every step respects. -/
theorem propertiesList_rel {R : Collected → Collected → Prop} (hr : ∀ s, R s s)
    (ht : ∀ a b c, R a b → R b c → R a c) (l : List CelExpr) (h : ∀ q ∈ l, ∀ s, R s (properties q s))
    (s : Collected) : R s (propertiesList l s) := by
  induction l generalizing s with
  | nil => exact hr s
  | cons e es ih =>
    rw [propertiesList]
    exact ht _ _ _ (h e (List.mem_cons_self ..) s)
      (ih (fun q hq => h q (List.mem_cons_of_mem _ hq)) _)

theorem properties_all (e : CelExpr) : ∀ s, s.all ⊆ (properties e s).all := by
  induction e using CelExpr.ind with
  | h e ih =>
    intro s
    by_cases hi : ∃ n, e = .ident n
    · obtain ⟨n, rfl⟩ := hi
      rw [properties_ident]
      split
      · exact fun _ h => h
      · exact fun _ h => List.mem_append_left _ h
    · rw [properties_parts e s (fun n h => hi ⟨n, h⟩)]
      have := propertiesList_rel (R := fun a b => a.all ⊆ b.all) (fun _ _ h => h)
        (fun _ _ _ h1 h2 _ h => h2 (h1 h)) (parts e) ih (enter e s)
      rwa [enter_all] at this

theorem propertiesList_all (l : List CelExpr) (s : Collected) : s.all ⊆ (propertiesList l s).all :=
  propertiesList_rel (R := fun a b => a.all ⊆ b.all) (fun _ _ h => h)
    (fun _ _ _ h1 h2 _ h => h2 (h1 h)) l (fun q _ => properties_all q) s

theorem propertiesList_append (a b : List CelExpr) (s : Collected) :
    propertiesList (a ++ b) s = propertiesList b (propertiesList a s) := by
  induction a generalizing s with
  | nil => rfl
  | cons e es ih => rw [List.cons_append, propertiesList, propertiesList, ih]

theorem chain_ne {e : CelExpr} {p : Path} (h : Chain e p) : p ≠ [] := by
  cases h with
  | ident => simp
  | select => simp

theorem chain_unique {e : CelExpr} {p q : Path} (hp : Chain e p) (hq : Chain e q) : p = q := by
  induction hp generalizing q with
  | ident n => cases hq; rfl
  | select f h ih => cases hq with | select _ h' => rw [ih h']

theorem chain_collect {e : CelExpr} {p : Path} (h : Chain e p) (s : Collected)
    (hl : 2 ≤ p.length ∨ s.path ≠ []) :
    properties e s = { s with all := s.all ++ [p ++ s.path], path := [] } := by
  induction h generalizing s with
  | ident n =>
    rw [properties_ident]
    rcases hl with hl | hl
    · simp at hl
    · rw [if_neg hl]; rfl
  | @select e p f h ih =>
    rw [properties]
    refine (ih _ (.inr (by simp))).trans ?_
    simp

theorem refers_covered {e : CelExpr} {p : Path} (h : Refers e p) (s : Collected) :
    ∃ more, p ++ more ∈ (properties e s).all := by
  induction h generalizing s with
  | chain h hl => exact ⟨s.path, by rw [chain_collect h s (.inl hl)]; simp⟩
  | @inside e q p hn hq h ih =>
    rw [properties_parts e s (fun n he => hn (by subst he; exact ⟨_, .ident n⟩))]
    obtain ⟨a, b, hab⟩ := List.append_of_mem hq
    rw [hab, propertiesList_append, propertiesList]
    obtain ⟨more, hm⟩ := ih (propertiesList a (enter e s))
    exact ⟨more, propertiesList_all _ _ hm⟩

theorem plain_part {e q : CelExpr} (h : PlainExpr e) (hq : q ∈ parts e) : PlainExpr q :=
  fun o f hp => h o f (.inside hq hp)

/-- What visiting an expression adds. -/
def Adds (P : Path → Prop) (s t : Collected) : Prop :=
  t.path = [] ∧ ∀ p, p ∈ t.all ↔ p ∈ s.all ∨ P p

theorem list_adds (l : List CelExpr) (h : ∀ q ∈ l, ∀ s : Collected, s.path = [] → Adds (Refers q) s (properties q s))
    (s : Collected) (hs : s.path = []) : Adds (fun p => ∃ q ∈ l, Refers q p) s (propertiesList l s) := by
  induction l generalizing s with
  | nil => exact ⟨hs, fun p => by simp [propertiesList]⟩
  | cons e es ih =>
    rw [propertiesList]
    obtain ⟨h1, h2⟩ := h e (List.mem_cons_self ..) s hs
    obtain ⟨h3, h4⟩ := ih (fun q hq => h q (List.mem_cons_of_mem _ hq)) _ h1
    refine ⟨h3, fun p => ?_⟩
    rw [h4, h2]
    simp [or_assoc]

theorem refers_iff {e : CelExpr} (hn : ¬∃ c, Chain e c) (p : Path) : Refers e p ↔ ∃ q ∈ parts e, Refers q p := by
  constructor
  · intro h
    cases h with
    | chain h => exact absurd ⟨_, h⟩ hn
    | inside _ hq h => exact ⟨_, hq, h⟩
  · exact fun ⟨q, hq, h⟩ => .inside hn hq h

theorem refers_chain {e : CelExpr} {c : Path} (hc : Chain e c) (p : Path) : Refers e p ↔ p = c ∧ 2 ≤ p.length := by
  constructor
  · intro h
    cases h with
    | chain h hl => exact ⟨chain_unique h hc, hl⟩
    | inside hn => exact absurd ⟨_, hc⟩ hn
  · rintro ⟨rfl, hl⟩
    exact .chain hc hl

theorem plain_adds (e : CelExpr) : PlainExpr e → ∀ s : Collected, (s.path = [] ∨ (Rooted e ∧ ¬∃ c, Chain e c)) →
    Adds (Refers e) s (properties e s) := by
  induction e using CelExpr.ind with
  | h e ih =>
    intro hp s hs
    by_cases hc : ∃ c, Chain e c
    · obtain ⟨c, hc⟩ := hc
      replace hs : s.path = [] := hs.resolve_right fun h => h.2 ⟨c, hc⟩
      have href := refers_chain hc
      by_cases hl : 2 ≤ c.length
      · rw [chain_collect hc s (.inl hl)]
        refine ⟨rfl, fun p => ?_⟩
        rw [href, hs]
        simp only [List.append_nil, List.mem_append, List.mem_singleton]
        constructor
        · rintro (h | h)
          · exact .inl h
          · exact .inr ⟨h, by rw [h]; exact hl⟩
        · rintro (h | h)
          · exact .inl h
          · exact .inr h.1
      · cases hc with
        | ident n =>
          rw [properties_ident, if_pos hs]
          refine ⟨hs, fun p => ?_⟩
          rw [href]
          constructor
          · exact .inl
          · rintro (h | ⟨rfl, h⟩)
            · exact h
            · exact absurd h hl
        | @select e p f h =>
          exact absurd (by rw [List.length_append]; have := List.length_pos_iff.mpr (chain_ne h); simp; omega) hl
    · have hni : ∀ n, e ≠ .ident n := fun n h => hc ⟨[n], by subst h; exact .ident n⟩
      rw [properties_parts e s hni]
      have hkids : ∀ q ∈ parts e, ∀ s : Collected, s.path = [] → Adds (Refers q) s (properties q s) :=
        fun q hq s hs => ih q hq (plain_part hp hq) s (.inl hs)
      have done : (enter e s).path = [] → Adds (Refers e) s (propertiesList (parts e) (enter e s)) := by
        intro h
        obtain ⟨h1, h2⟩ := list_adds (parts e) hkids (enter e s) h
        refine ⟨h1, fun p => ?_⟩
        rw [h2, enter_all, refers_iff hc]
      cases e with
      | call f args => exact done rfl
      | select o f =>
        have hr : Rooted o := hp o f (.self _)
        have hco : ¬∃ c, Chain o c := fun ⟨c, h⟩ => hc ⟨_, .select f h⟩
        obtain ⟨h1, h2⟩ := ih o (by simp [parts]) (plain_part hp (by simp [parts]))
          (enter (.select o f) s) (.inr ⟨hr, hco⟩)
        refine ⟨h1, fun p => ?_⟩
        rw [refers_iff hc]
        simp only [parts, propertiesList, List.mem_singleton, exists_eq_left]
        rw [h2]; rfl
      | ident n => exact absurd rfl (hni n)
      | _ => exact done (hs.resolve_right fun h => by cases h.1)

theorem collected_long (e : CelExpr) : ∀ s : Collected, (∀ p ∈ s.all, 2 ≤ p.length) →
    ∀ p ∈ (properties e s).all, 2 ≤ p.length := by
  induction e using CelExpr.ind with
  | h e ih =>
    intro s hs
    by_cases hi : ∃ n, e = .ident n
    · obtain ⟨n, rfl⟩ := hi
      rw [properties_ident]
      split
      · exact hs
      · rename_i hne
        intro p hp
        rcases List.mem_append.mp hp with h | h
        · exact hs p h
        · rw [List.mem_singleton.mp h]
          have := List.length_pos_iff.mpr hne
          simp; omega
    · rw [properties_parts e s (fun n h => hi ⟨n, h⟩)]
      exact propertiesList_rel (R := fun a b => (∀ p ∈ a.all, 2 ≤ p.length) → ∀ p ∈ b.all, 2 ≤ p.length)
        (fun _ h => h) (fun _ _ _ h1 h2 h => h2 (h1 h)) (parts e) ih (enter e s) (by rwa [enter_all])

/-- The calls of `func` with a string literal. -/
theorem part_iff {e p : CelExpr} : Part e p ↔ p = e ∨ ∃ q ∈ parts e, Part q p := by
  constructor
  · intro h
    cases h with
    | self => exact .inl rfl
    | inside hq h => exact .inr ⟨_, hq, h⟩
  · rintro (rfl | ⟨q, hq, h⟩)
    · exact .self _
    · exact .inside hq h

theorem onlyLiteral_some {args : List CelExpr} {t : Text} : onlyLiteral args = some t ↔ args = [.string t] := by
  constructor
  · intro h
    unfold onlyLiteral at h
    split at h
    · cases h; rfl
    · cases h
  · rintro rfl; rfl

theorem list_fields {proj : Collected → List Text} {func : Text} (l : List CelExpr)
    (h : ∀ q ∈ l, ∀ s t, t ∈ proj (properties q s) ↔ t ∈ proj s ∨ Part q (.call func [.string t])) (s : Collected)
    (t : Text) : t ∈ proj (propertiesList l s) ↔ t ∈ proj s ∨ ∃ q ∈ l, Part q (.call func [.string t]) := by
  induction l generalizing s with
  | nil => simp [propertiesList]
  | cons e es ih =>
    rw [propertiesList, ih (fun q hq => h q (List.mem_cons_of_mem _ hq)), h e (List.mem_cons_self ..)]
    simp [or_assoc]

theorem bodyFields_iff (f : Text) (args : List CelExpr) (s : Collected) (t : Text) :
    (t ∈ (bodyFields f args s).request ↔ t ∈ s.request ∨ f = "requestBodyJSON".toList ∧ args = [.string t]) ∧
    (t ∈ (bodyFields f args s).response ↔ t ∈ s.response ∨ f = "responseBodyJSON".toList ∧ args = [.string t]) := by
  have hd : "responseBodyJSON".toList ≠ "requestBodyJSON".toList := by decide
  unfold bodyFields
  generalize "responseBodyJSON".toList = a at hd
  generalize "requestBodyJSON".toList = b at hd
  cases ho : onlyLiteral args with
  | none =>
    have : args ≠ [CelExpr.string t] := fun h => by rw [h] at ho; cases ho
    simp [this]
  | some u =>
    have := onlyLiteral_some.mp ho
    subst this
    by_cases h1 : f = a
    · subst h1; simp [hd, eq_comm]
    · by_cases h2 : f = b
      · subst h2; simp [h1, eq_comm]
      · simp [h1, h2]

theorem request_fields (e : CelExpr) : ∀ s t, t ∈ (properties e s).request ↔
    t ∈ s.request ∨ Part e (.call "requestBodyJSON".toList [.string t]) := by
  induction e using CelExpr.ind with
  | h e ih =>
    intro s t
    by_cases hi : ∃ n, e = .ident n
    · obtain ⟨n, rfl⟩ := hi
      rw [properties_ident, part_iff]
      split <;> simp [parts]
    · rw [properties_parts e s (fun n h => hi ⟨n, h⟩), list_fields (proj := Collected.request) (parts e) ih, part_iff]
      have : t ∈ (enter e s).request ↔ t ∈ s.request ∨ .call "requestBodyJSON".toList [.string t] = e := by
        cases e with
        | call f args =>
          refine (bodyFields_iff f args s t).1.trans (or_congr_right ?_)
          rw [CelExpr.call.injEq]
          exact and_congr eq_comm eq_comm
        | _ => simp [enter]
      rw [this, or_assoc]

theorem response_fields (e : CelExpr) : ∀ s t, t ∈ (properties e s).response ↔
    t ∈ s.response ∨ Part e (.call "responseBodyJSON".toList [.string t]) := by
  induction e using CelExpr.ind with
  | h e ih =>
    intro s t
    by_cases hi : ∃ n, e = .ident n
    · obtain ⟨n, rfl⟩ := hi
      rw [properties_ident, part_iff]
      split <;> simp [parts]
    · rw [properties_parts e s (fun n h => hi ⟨n, h⟩), list_fields (proj := Collected.response) (parts e) ih, part_iff]
      have : t ∈ (enter e s).response ↔ t ∈ s.response ∨ .call "responseBodyJSON".toList [.string t] = e := by
        cases e with
        | call f args =>
          refine (bodyFields_iff f args s t).2.trans (or_congr_right ?_)
          rw [CelExpr.call.injEq]
          exact and_congr eq_comm eq_comm
        | _ => simp [enter]
      rw [this, or_assoc]

end Verif
