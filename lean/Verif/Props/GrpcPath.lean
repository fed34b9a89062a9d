import Verif.Model.GrpcPath
/-!
C39: gRPC request paths are recognised exactly.
-/
namespace Verif.Props
open Verif

theorem splitOnce_some {c : Char} {t a b : Text} :
    splitOnce c t = some (a, b) ↔ t = a ++ c :: b ∧ c ∉ a := by
  induction t generalizing a with
  | nil => simp [splitOnce]
  | cons x xs ih =>
    unfold splitOnce
    by_cases hx : x = c
    · subst hx
      rw [if_pos rfl]
      constructor
      · intro h
        obtain ⟨rfl, rfl⟩ := Prod.mk.inj (Option.some.inj h)
        simp
      · rintro ⟨h, hm⟩
        cases a with
        | nil => simpa using h
        | cons y ys =>
          rw [List.cons_append] at h
          obtain ⟨rfl, -⟩ := List.cons.inj h
          simp at hm
    · rw [if_neg hx]
      constructor
      · intro h
        cases hs : splitOnce c xs with
        | none => rw [hs] at h; simp at h
        | some r =>
          obtain ⟨a', b'⟩ := r
          rw [hs] at h
          simp only [Option.map_some, Option.some.injEq, Prod.mk.injEq] at h
          obtain ⟨rfl, rfl⟩ := h
          obtain ⟨rfl, hm⟩ := ih.1 hs
          refine ⟨rfl, ?_⟩
          simp [hm, Ne.symm hx]
      · rintro ⟨h, hm⟩
        cases a with
        | nil =>
          rw [List.nil_append] at h
          exact absurd (List.cons.inj h).1 hx
        | cons y ys =>
          rw [List.cons_append] at h
          obtain ⟨rfl, rfl⟩ := List.cons.inj h
          rw [ih.2 ⟨rfl, fun h => hm (List.mem_cons_of_mem _ h)⟩]
          rfl

/-- C39: a path is read as a service and a method if and only if it is `/service/method` with both parts
non-empty and without a slash in either. -/
theorem C39_path (path service method : Text) :
    parseGrpcPath path = some (service, method) ↔
      path = '/' :: service ++ '/' :: method ∧ service ≠ [] ∧ method ≠ [] ∧ '/' ∉ service ∧ '/' ∉ method := by
  constructor
  · intro h
    unfold parseGrpcPath at h
    split at h
    · rename_i trimmed
      split at h
      · exact nomatch h
      · rename_i s m hs
        split at h
        · exact nomatch h
        · rename_i hc
          obtain ⟨rfl, rfl⟩ := Prod.mk.inj (Option.some.inj h)
          obtain ⟨rfl, hns⟩ := splitOnce_some.1 hs
          simp only [Bool.or_eq_true, not_or, List.isEmpty_iff, List.contains_iff_mem] at hc
          exact ⟨rfl, hc.1.1, hc.1.2, hns, hc.2⟩
    · exact nomatch h
  · rintro ⟨rfl, hs, hm, hns, hnm⟩
    show (match splitOnce '/' (service ++ '/' :: method) with
      | none => none
      | some (service, method) =>
        if service.isEmpty || method.isEmpty || method.contains '/' then none else some (service, method)) = _
    rw [splitOnce_some.2 ⟨rfl, hns⟩]
    simp [hs, hm, hnm]

/-- C39: a path that is not of this form is never read as a service and a method. -/
theorem C39_rejected (path : Text) (h : ∀ service method, path = '/' :: service ++ '/' :: method →
    service = [] ∨ method = [] ∨ '/' ∈ service ∨ '/' ∈ method) : parseGrpcPath path = none := by
  cases hp : parseGrpcPath path with
  | none => rfl
  | some r =>
    obtain ⟨s, m⟩ := r
    obtain ⟨he, hs, hm, hns, hnm⟩ := (C39_path path s m).1 hp
    rcases h s m he with h | h | h | h
    · exact absurd h hs
    · exact absurd h hm
    · exact absurd h hns
    · exact absurd h hnm

/-- C39: the attribute `grpc` is the map of service and method exactly for requests whose content type
begins with `application/grpc` and whose path is `/service/method`. -/
theorem C39_attribute (contentType urlPath : Option Text) (v : Val) :
    resolveGrpc contentType urlPath = some v ↔
      ∃ rest service method, contentType = some ("application/grpc".toList ++ rest) ∧
        urlPath = some ('/' :: service ++ '/' :: method) ∧
        service ≠ [] ∧ method ≠ [] ∧ '/' ∉ service ∧ '/' ∉ method ∧
        v = .map [(.str "service".toList, .str service), (.str "method".toList, .str method)] := by
  constructor
  · intro h
    unfold resolveGrpc at h
    split at h
    · exact nomatch h
    · rename_i ct
      split at h
      · rename_i hct
        split at h
        · rename_i s m hp
          obtain ⟨path, rfl, hp⟩ := Option.bind_eq_some_iff.1 hp
          obtain ⟨rfl, h1, h2, h3, h4⟩ := (C39_path path s m).1 hp
          obtain ⟨rest, hrest⟩ := List.isPrefixOf_iff_prefix.1 hct
          exact ⟨rest, s, m, by rw [hrest], rfl, h1, h2, h3, h4, (Option.some.inj h).symm⟩
        · exact nomatch h
      · exact nomatch h
  · rintro ⟨rest, s, m, rfl, rfl, h1, h2, h3, h4, rfl⟩
    have hct : isGrpcContentType ("application/grpc".toList ++ rest) = true :=
      List.isPrefixOf_iff_prefix.2 ⟨rest, rfl⟩
    have hp : ((some ('/' :: s ++ '/' :: m) : Option Text).bind parseGrpcPath) = some (s, m) :=
      (C39_path _ s m).2 ⟨rfl, h1, h2, h3, h4⟩
    unfold resolveGrpc
    simp only [hct, hp, if_true]

example : parseGrpcPath "/com.example.UserService/GetUser".toList
    = some ("com.example.UserService".toList, "GetUser".toList) := by decide +kernel
example : parseGrpcPath "/Service/Method/Extra".toList = none := by decide +kernel

end Verif.Props
