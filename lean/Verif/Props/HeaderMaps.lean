import Verif.Props.Hosted
import Verif.Lemmas.BodyFeed
/-!
C22 for header maps: the maps of request and response are attributes of their own.
-/
namespace Verif.Props
open Verif Verif.Spec

/-- The attribute that holds the headers of a request or response. -/
def mapAttribute : Target → Path
  | .request => ["request".toList, "headers".toList]
  | .response => ["response".toList, "headers".toList]

theorem mapAttribute_print {t t' : Target} (h : t' ≠ t) : (mapAttribute t').print ≠ (headersPath t).print := by
  cases t <;> cases t' <;> first | exact absurd rfl h | decide

/-- C22: after the filter wrote the headers of a request or response, reads of these headers return what it wrote,
and reads of the other header map return what they returned before. -/
theorem C22_header_maps {W : Type} (b : Backend W) (s : Attrs W) (t : Target) (hs : Headers)
    (h : (s.writeHeaders b t hs).1 = .available ()) :
    ((s.writeHeaders b t hs).2.read b asHeaders (mapAttribute t)).1 = .available hs ∧
    ∀ t' old, t' ≠ t → s.cached (mapAttribute t') = some (.headers old) →
      ((s.writeHeaders b t hs).2.read b asHeaders (mapAttribute t')).1 = .available old := by
  have hp : mapAttribute t = headersPath t := by cases t <;> rfl
  unfold Attrs.writeHeaders at h ⊢
  split at h
  · refine ⟨?_, fun t' old ht ho => ?_⟩
    · unfold Attrs.read Attrs.cached Attrs.insert
      rw [hp, mapGet_insert, if_pos rfl]
      rfl
    · unfold Attrs.read Attrs.cached Attrs.insert
      rw [mapGet_insert, if_neg (mapAttribute_print ht).symm]
      unfold Attrs.cached at ho
      rw [ho]
      rfl
  · split at h <;> cases h
  · cases h

/-- C22: headers that the filter has not read or written yet are those of the host. -/
theorem C22_header_map_of_host {W : Type} (b : Backend W) (s : Attrs W) (t : Target) (hs : Headers) (x : W)
    (hnew : s.cached (mapAttribute t) = none) (h : b.getMap s.world t = (.ok hs, x)) :
    (s.read b asHeaders (mapAttribute t)).1 = .available hs := by
  unfold Attrs.read
  rw [hnew]
  cases t <;> simp [fetchAttribute, mapAttribute, headersPath, h, asHeaders]

/-- A response header is set after the headers of the request were read. -/
example : let s : Attrs Hosted.Proxy := { world := { response := [("a".toList, "1".toList)] } }
    let s := (s.read Hosted.world.abi.backend asHeaders (mapAttribute .request)).2
    (s.cached (mapAttribute .request)).isSome = true ∧ (s.cached (mapAttribute .response)).isSome = false ∧
    (match (s.writeHeaders Hosted.world.abi.backend .response [("a".toList, "2".toList)]).1 with
      | .available _ => true
      | _ => false) = true := by decide +kernel

end Verif.Props
