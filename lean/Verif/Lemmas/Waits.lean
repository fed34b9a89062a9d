import Verif.Spec.Config
/-! The computation of dependencies. -/
namespace Verif
open Spec

/-- What the direct dependencies of the action at `i` are. -/
def DepSpec (modes : List Mode) (i : Nat) : Mode → List Nat → Prop
  | .legacy, d => d = if 0 < i then [i - 1] else []
  | .parallel, d => ∀ j, j ∈ d ↔ LatestSequential modes i j
  | .sequential, d => ∀ j, j ∈ d ↔
      (LatestSequential modes i j ∨ (j < i ∧ ∀ s, LatestSequential modes i s → s < j))

/-- The state of the loop before index `i`. -/
structure DepInv (modes : List Mode) (i : Nat) (fence par : List Nat) : Prop where
  fence : ∀ j, j ∈ fence ↔ LatestSequential modes i j
  par : ∀ j, j ∈ par ↔ (j < i ∧ ∀ s, LatestSequential modes i s → s < j)

theorem latest_next {modes : List Mode} {i : Nat} (h : modes[i]? ≠ some .sequential) (j : Nat) :
    LatestSequential modes (i + 1) j ↔ LatestSequential modes i j := by
  constructor
  · rintro ⟨h1, h2, h3⟩
    refine ⟨?_, h2, fun k hk hk' => h3 k hk (by omega)⟩
    rcases Nat.lt_or_ge j i with hj | hj
    · exact hj
    · have : j = i := by omega
      subst this; exact absurd h2 h
  · rintro ⟨h1, h2, h3⟩
    refine ⟨by omega, h2, fun k hk hk' => ?_⟩
    rcases Nat.lt_or_ge k i with hj | hj
    · exact h3 k hk hj
    · have : k = i := by omega
      subst this; exact h

theorem latest_now {modes : List Mode} {i : Nat} (h : modes[i]? = some .sequential) (j : Nat) :
    LatestSequential modes (i + 1) j ↔ j = i := by
  constructor
  · rintro ⟨h1, h2, h3⟩
    rcases Nat.lt_or_ge j i with hj | hj
    · exact absurd h (h3 i hj (by omega))
    · omega
  · rintro rfl
    exact ⟨by omega, h, fun k hk hk' => by omega⟩

theorem depInv_par {modes : List Mode} {i : Nat} {fence par : List Nat} (h : DepInv modes i fence par)
    (hm : modes[i]? ≠ some .sequential) : DepInv modes (i + 1) fence (par ++ [i]) where
  fence j := by rw [h.fence, latest_next hm]
  par j := by
    simp only [List.mem_append, List.mem_singleton, h.par, latest_next hm]
    constructor
    · rintro (⟨h1, h2⟩ | rfl)
      · exact ⟨by omega, h2⟩
      · exact ⟨by omega, fun s hs => hs.1⟩
    · rintro ⟨h1, h2⟩
      rcases Nat.lt_or_ge j i with hj | hj
      · exact .inl ⟨hj, h2⟩
      · exact .inr (by omega)

theorem depLoop_spec (full : List ActionConfig) (i : Nat) (fence par : List Nat) (as : List ActionConfig)
    (hfull : ∀ k : Nat, as[k]? = full[i + k]?) (hinv : DepInv (full.map mode) i fence par)
    (k : Nat) (a : ActionConfig) (ha : as[k]? = some a) :
    ∃ d, (depLoop i fence par as)[k]? = some d ∧ DepSpec (full.map mode) (i + k) (mode a) d := by
  induction as generalizing i fence par k with
  | nil => simp at ha
  | cons b as ih =>
    have hb : (full.map mode)[i]? = some (mode b) := by
      have := hfull 0
      simp at this
      simp [← this]
    have hnext : ∀ k : Nat, as[k]? = full[i + 1 + k]? := by
      intro k
      have := hfull (k + 1)
      rw [show i + 1 + k = i + (k + 1) by omega, ← this]
      simp
    have hstep : ∃ d fence' par', depStep i fence par b = (d, fence', par') ∧
        DepSpec (full.map mode) i (mode b) d ∧ DepInv (full.map mode) (i + 1) fence' par' := by
      cases b with
      | legacy s tr =>
        exact ⟨_, _, _, rfl, rfl, depInv_par hinv (by rw [hb]; simp [mode])⟩
      | typed t =>
        cases hs : t.head.sequential with
        | true =>
          have hb' : (full.map mode)[i]? = some .sequential := by rw [hb]; simp [mode, hs]
          refine ⟨fence ++ par, [i], [], by simp [depStep, hs], ?_, ?_⟩
          · simp only [mode, hs, if_true]
            intro j
            rw [List.mem_append, hinv.fence, hinv.par]
          · refine ⟨fun j => by rw [latest_now hb']; simp, fun j => ?_⟩
            simp only [List.not_mem_nil, false_iff, not_and]
            intro hj hx
            have := hx i ((latest_now hb' i).2 rfl)
            omega
        | false =>
          refine ⟨fence, fence, par ++ [i], by simp [depStep, hs], ?_, ?_⟩
          · simp only [mode, hs, Bool.false_eq_true, if_false]
            exact hinv.fence
          · exact depInv_par hinv (by rw [hb]; simp [mode, hs])
    obtain ⟨d, fence', par', hd, hspec, hinv'⟩ := hstep
    simp only [depLoop, hd]
    cases k with
    | zero =>
      simp only [List.getElem?_cons_zero, Option.some.injEq] at ha
      subst ha
      exact ⟨d, by simp, hspec⟩
    | succ k =>
      simp only [List.getElem?_cons_succ] at ha ⊢
      have := ih (i + 1) fence' par' hnext hinv' k ha
      rwa [show i + 1 + k = i + (k + 1) by omega] at this

theorem latest_zero (modes : List Mode) (s : Nat) : ¬ LatestSequential modes 0 s := by
  rintro ⟨h, _⟩; omega

/-- Direct dependencies of each action. -/
theorem deps_spec (actions : List ActionConfig) (i : Nat) (a : ActionConfig) (ha : actions[i]? = some a) :
    ∃ d, (depLoop 0 [] [] actions)[i]? = some d ∧ DepSpec (actions.map mode) i (mode a) d := by
  have := depLoop_spec actions 0 [] [] actions (by simp) ⟨?_, ?_⟩ i a ha
  · rwa [Nat.zero_add] at this
  · intro j; simp only [List.not_mem_nil, false_iff]; exact latest_zero _ _
  · intro j; simp

theorem depLoop_len (i : Nat) (fence par : List Nat) (as : List ActionConfig) :
    (depLoop i fence par as).length = as.length := by
  induction as generalizing i fence par with
  | nil => rfl
  | cons a as ih => simp [depLoop, ih]

theorem deps_some {actions : List ActionConfig} {i : Nat} {d : List Nat}
    (h : (depLoop 0 [] [] actions)[i]? = some d) :
    ∃ a, actions[i]? = some a ∧ DepSpec (actions.map mode) i (mode a) d := by
  have hi : i < actions.length := by
    have := (List.getElem?_eq_some_iff.1 h).1
    rwa [depLoop_len] at this
  obtain ⟨d', hd', hs⟩ := deps_spec actions i actions[i] (by simp [hi])
  rw [h] at hd'
  cases hd'
  exact ⟨_, by simp [hi], hs⟩

theorem dep_lt {actions : List ActionConfig} {i j : Nat} {d : List Nat}
    (h : (depLoop 0 [] [] actions)[i]? = some d) (hj : j ∈ d) : j < i := by
  obtain ⟨a, ha, hs⟩ := deps_some h
  cases hm : mode a with
  | legacy =>
    rw [hm] at hs
    simp only [DepSpec] at hs
    subst hs
    split at hj
    · simp at hj; omega
    · simp at hj
  | parallel => rw [hm] at hs; exact ((hs j).1 hj).1
  | sequential =>
    rw [hm] at hs
    rcases (hs j).1 hj with h | h
    · exact h.1
    · exact h.1

theorem waits_lt {actions : List ActionConfig} {i j : Nat} (h : Waits (depLoop 0 [] [] actions) i j) :
    j < i := by
  induction h with
  | direct h hj => exact dep_lt h hj
  | trans _ _ h1 h2 => omega

theorem waits_first {deps : List (List Nat)} {i j : Nat} (h : Waits deps i j) :
    ∃ d k, deps[i]? = some d ∧ k ∈ d ∧ (k = j ∨ Waits deps k j) := by
  induction h with
  | direct h hj => exact ⟨_, _, h, hj, .inl rfl⟩
  | trans h1 h2 ih1 ih2 =>
    obtain ⟨d, k, hd, hk, hor⟩ := ih1
    refine ⟨d, k, hd, hk, .inr ?_⟩
    rcases hor with rfl | h
    · exact h2
    · exact .trans h h2

theorem sequential_waits {actions : List ActionConfig} (i : Nat) (a : ActionConfig)
    (ha : actions[i]? = some a) (hm : mode a = .sequential) (j : Nat) (hj : j < i) :
    Waits (depLoop 0 [] [] actions) i j := by
  induction i using Nat.strongRecOn generalizing a j with
  | ind i ih =>
    obtain ⟨d, hd, hs⟩ := deps_spec actions i a ha
    rw [hm] at hs
    by_cases hx : ∃ s, LatestSequential (actions.map mode) i s ∧ j ≤ s
    · obtain ⟨s, hs1, hs2⟩ := hx
      have hw : Waits (depLoop 0 [] [] actions) i s := .direct hd ((hs s).2 (.inl hs1))
      rcases Nat.lt_or_ge j s with hjs | hjs
      · have h2 := hs1.2.1
        rw [List.getElem?_map, Option.map_eq_some_iff] at h2
        obtain ⟨b, hb, hmb⟩ := h2
        exact .trans hw (ih s hs1.1 b hb hmb j hjs)
      · have : j = s := by omega
        rw [this]; exact hw
    · refine .direct hd ((hs j).2 (.inr ⟨hj, ?_⟩))
      intro s hs'
      rcases Nat.lt_or_ge s j with h | h
      · exact h
      · exact absurd ⟨s, hs', h⟩ hx

theorem latest_unique {modes : List Mode} {i s t : Nat} (h : LatestSequential modes i s)
    (g : LatestSequential modes i t) : s = t := by
  rcases Nat.lt_trichotomy s t with hlt | rfl | hlt
  · exact absurd g.2.1 (h.2.2 t hlt g.1)
  · rfl
  · exact absurd h.2.1 (g.2.2 s hlt h.1)

end Verif
