import Verif.Model.Text
namespace Verif

theorem utf8_nil : utf8 [] = [] := rfl

theorem utf8_append (s t : Text) : utf8 (s ++ t) = utf8 s ++ utf8 t := by simp [utf8]

theorem utf8_flatten (ts : List Text) : utf8 ts.flatten = (ts.map utf8).flatten := by
  induction ts with
  | nil => rfl
  | cons t ts ih => simp [utf8_append, ih]

theorem mk_utf8 (t : Text) : ByteArray.mk (utf8 t).toArray = t.utf8Encode := by
  apply ByteArray.ext
  simp [utf8, List.utf8Encode]

theorem fromUtf8_utf8 (t : Text) : fromUtf8 (utf8 t) = some t := by
  simp [fromUtf8, mk_utf8, List.utf8Decode?_utf8Encode]

theorem eq_utf8_of_fromUtf8 {b : Bytes} {t : Text} (h : fromUtf8 b = some t) : b = utf8 t := by
  simp only [fromUtf8, Option.map_eq_some_iff] at h
  obtain ⟨a, ha, rfl⟩ := h
  have h1 := ByteArray.utf8Encode_get_utf8Decode? (b := ByteArray.mk b.toArray) (h := by simp [ha])
  simp only [ha, Option.get_some] at h1
  rw [← mk_utf8] at h1
  have := congrArg (fun x => x.data.toList) h1
  simpa using this.symm

theorem fromUtf8_eq_some {b : Bytes} {t : Text} : fromUtf8 b = some t ↔ b = utf8 t :=
  ⟨eq_utf8_of_fromUtf8, fun h => h ▸ fromUtf8_utf8 t⟩

theorem utf8_injective {s t : Text} (h : utf8 s = utf8 t) : s = t := by
  have := fromUtf8_utf8 s
  rw [h, fromUtf8_utf8] at this
  exact (Option.some.inj this).symm

end Verif
