import Verif.Spec.Pipeline
import Verif.Lemmas.Basic
import Verif.Lemmas.Apply
/-! Lemmas about histories of effects. -/
namespace Verif
open Spec

theorem inFlight_append (a b : List Effect) : inFlight (a ++ b) = b.foldl track (inFlight a) := by
  simp [inFlight]

theorem inFlight_snoc (a : List Effect) (e : Effect) : inFlight (a ++ [e]) = track (inFlight a) e := by
  simp [inFlight]

@[simp] theorem inFlight_nil : inFlight [] = [] := rfl

theorem everywhere_nil (Q) : Everywhere Q [] := by
  intro pre e post h; simp at h

theorem everywhere_snoc {Q} {a : List Effect} {e : Effect} :
    Everywhere Q (a ++ [e]) ↔ Everywhere Q a ∧ Q a e := by
  constructor
  · intro h
    refine ⟨fun pre x post hx => h pre x (post ++ [e]) (by rw [hx]; simp), h a e [] (by simp)⟩
  · rintro ⟨h, hq⟩ pre x post hx
    rcases List.eq_nil_or_concat post with hp | ⟨l, y, hp⟩
    · subst hp
      have := List.append_inj' hx rfl
      obtain ⟨rfl, h2⟩ := this
      simp at h2
      subst h2
      exact hq
    · subst hp
      have hx' : a ++ [e] = (pre ++ x :: l) ++ [y] := by rw [hx]; simp
      obtain ⟨h1, _⟩ := List.append_inj' hx' rfl
      exact h pre x l h1

theorem Spec.Everywhere.prefix {Q} {a b : List Effect} (h : Everywhere Q (a ++ b)) : Everywhere Q a := by
  intro pre x post hx
  exact h pre x (post ++ b) (by rw [hx]; simp)

/-- Appending effects each of which has the property. -/
theorem Spec.Everywhere.append {Q} {a b : List Effect} (h : Everywhere Q a)
    (hb : ∀ pre e post, b = pre ++ e :: post → Q (a ++ pre) e) : Everywhere Q (a ++ b) := by
  induction b using snoc_ind with
  | nil => simpa using h
  | snoc b e ih =>
    rw [← List.append_assoc, everywhere_snoc]
    refine ⟨ih ?_, hb b e [] (by simp)⟩
    intro pre x post hx
    exact hb pre x (post ++ [e]) (by rw [hx]; simp)

/-- Appending effects for which the property holds whatever came before. -/
theorem Spec.Everywhere.append_all {Q} {a b : List Effect} (h : Everywhere Q a)
    (hb : ∀ e ∈ b, ∀ pre, Q pre e) : Everywhere Q (a ++ b) := by
  refine h.append fun pre e post hx => hb e ?_ _
  rw [hx]; simp

theorem Spec.Everywhere.of_append {Q} {a b : List Effect} (h : Everywhere Q (a ++ b))
    (pre : List Effect) (e : Effect) (post : List Effect) (hb : b = pre ++ e :: post) : Q (a ++ pre) e :=
  h (a ++ pre) e post (by rw [hb]; simp)

theorem Spec.Fresh.prefix {a b : List Effect} (h : Fresh (a ++ b)) : Fresh a := Everywhere.prefix h

theorem fresh_nil : Fresh [] := everywhere_nil _

/-- Neutral effects leave the calls in flight alone. -/
def Effect.neutral : Effect → Bool
  | .dispatch .. => false
  | .exported _ => false
  | .responded .. => false
  | _ => true

theorem track_neutral {e : Effect} (h : e.neutral = true) (f) : track f e = f := by
  cases e <;> simp_all [Effect.neutral, track]

theorem inFlight_neutral (a : List Effect) {b : List Effect} (h : ∀ e ∈ b, e.neutral = true) :
    inFlight (a ++ b) = inFlight a := by
  induction b using snoc_ind with
  | nil => simp
  | snoc b e ih =>
    rw [← List.append_assoc, inFlight_snoc, track_neutral (h e (by simp)), ih]
    intro x hx; exact h x (by simp [hx])

theorem sentToken_neutral {e : Effect} (h : e.neutral = true) : sentToken e = none := by
  cases e <;> simp_all [Effect.neutral, sentToken]

theorem fresh_neutral {a b : List Effect} (h : ∀ e ∈ b, e.neutral = true) :
    Fresh (a ++ b) ↔ Fresh a := by
  refine ⟨Fresh.prefix, fun hf => Everywhere.append_all hf ?_⟩
  intro e he pre token ht
  rw [sentToken_neutral (h e he)] at ht
  simp at ht

theorem isLocal_neutral {e : Effect} (h : e.isLocal = true) : e.neutral = true := by
  cases e <;> simp_all [Effect.neutral, Effect.isLocal]

/-- A check of `Fresh`. -/
def freshFrom (calls : List (Nat × Bool)) : List Effect → Bool
  | [] => true
  | e :: es => (match sentToken e with
    | some t => !(calls.map Prod.fst).contains t
    | none => true) && freshFrom (track calls e) es

theorem freshFrom_spec (a log : List Effect) (ha : Fresh a) (h : freshFrom (inFlight a) log = true) :
    Fresh (a ++ log) := by
  induction log generalizing a with
  | nil => simpa using ha
  | cons e es ih =>
    simp only [freshFrom, Bool.and_eq_true] at h
    have : a ++ e :: es = (a ++ [e]) ++ es := by simp
    rw [this]
    refine ih _ ?_ ?_
    · refine everywhere_snoc.mpr ⟨ha, ?_⟩
      intro token ht
      have h1 := h.1
      rw [ht] at h1
      simpa using h1
    · rw [inFlight_snoc]; exact h.2

theorem fresh_of_check {log : List Effect} (h : freshFrom [] log = true) : Fresh log := by
  have := freshFrom_spec [] log (everywhere_nil _) h
  simpa using this

/-- A check of `Ended`. -/
def endedCheck (log : List Effect) : Bool := log.any fun
  | .ended => true
  | _ => false

theorem ended_iff_check (log : List Effect) : Ended log ↔ endedCheck log = true := by
  simp only [Ended, endedCheck, List.any_eq_true]
  constructor
  · intro h; exact ⟨_, h, rfl⟩
  · rintro ⟨e, he, h⟩
    cases e <;> simp_all

end Verif
