import Verif.Spec.BodyFeed
import Verif.Lemmas.Routing
/-! The first value of a header, and content types. -/
namespace Verif
open Spec

theorem get_lookup (hs : Headers) (k : Text) : Headers.get hs k = hs.lookup k := by
  unfold Headers.get
  induction hs with
  | nil => rfl
  | cons p hs ih =>
    obtain ⟨a, b⟩ := p
    rw [List.find?_cons, List.lookup_cons]
    by_cases h : a = k
    · subst h; simp
    · have : ¬ k = a := fun h' => h h'.symm
      rw [beq_false_of_ne this]
      simpa [h] using ih

theorem containsText_iff {t p : Text} : containsText t p = true ↔ p <:+: t := by
  induction t with
  | nil => simp [containsText]
  | cons c cs ih =>
    rw [containsText, Bool.or_eq_true, startsWith_iff, ih, List.infix_cons_iff]

theorem isEventStream_iff {hs : Headers} : isEventStream hs = true ↔ EventsIn hs := by
  unfold isEventStream EventsIn
  rw [get_lookup]
  cases h : hs.lookup "content-type".toList with
  | none => simp
  | some ct => simp [containsText_iff]

section
variable {H : Type} {o : Oracle H}

theorem Spec.PlainBody.flag {source : Source} {c : Ctx H} (h : PlainBody o source c) :
    source = .response → ∀ hs h, o.getHeaders c .response = (.available hs, h) → isEventStream hs = false := by
  intro hs hds x hx
  have := h hs hds x hx
  rw [← isEventStream_iff] at this
  simpa using this

theorem Spec.ContentIs.flag {events : Bool} {c : Ctx H} :
    ContentIs o events c ↔ ∃ hs h, o.getHeaders c .response = (.available hs, h) ∧ isEventStream hs = events := by
  unfold ContentIs
  constructor
  · rintro ⟨hs, h, h1, h2⟩
    rw [← isEventStream_iff] at h2
    refine ⟨hs, h, h1, ?_⟩
    cases events <;> cases hx : isEventStream hs <;> simp_all
  · rintro ⟨hs, h, h1, h2⟩
    refine ⟨hs, h, h1, ?_⟩
    rw [← isEventStream_iff, h2]

end

end Verif
