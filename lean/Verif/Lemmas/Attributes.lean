import Verif.Spec.Attributes
/-! Paths and the attribute cache. -/
set_option linter.unusedSimpArgs false
namespace Verif
open Spec

theorem mapGet_mapInsert {α β : Type} [DecidableEq α] (m : List (α × β)) (k k' : α) (v : β) :
    mapGet (mapInsert m k v) k' = if k' = k then some v else mapGet m k' := by
  unfold mapGet mapInsert
  rw [List.find?_cons]
  by_cases h : k = k'
  · subst h; simp
  · have h' : ¬ k' = k := fun e => h e.symm
    simp only [h, decide_false, if_neg h', List.find?_filter]
    congr 2
    funext x
    by_cases hx : x.1 = k'
    · simp [hx, h']
    · simp [hx]

theorem loop_dot (token rest : Text) : parsePathLoop token ('.' :: rest) = token :: parsePathLoop [] rest := by
  rw [parsePathLoop.eq_def]; simp

theorem loop_escape (token rest : Text) (ch : Char) :
    parsePathLoop token ('\\' :: ch :: rest) = parsePathLoop (token ++ [ch]) rest := by
  rw [parsePathLoop.eq_def]; simp

theorem loop_other (token rest : Text) {ch : Char} (h1 : ch ≠ '.') (h2 : ch ≠ '\\') :
    parsePathLoop token (ch :: rest) = parsePathLoop (token ++ [ch]) rest := by
  rw [parsePathLoop.eq_def]; simp [h1, h2]

/-- Reading a token back. -/
theorem parse_token (t : Text) (ht : '\\' ∉ t) (token rest : Text) :
    parsePathLoop token (escapeDots t ++ rest) = parsePathLoop (token ++ t) rest := by
  induction t generalizing token with
  | nil => simp [escapeDots]
  | cons ch t ih =>
    simp only [List.mem_cons, not_or] at ht
    have ih' := ih ht.2
    by_cases hd : ch = '.'
    · subst hd
      have : escapeDots ('.' :: t) = '\\' :: '.' :: escapeDots t := by simp [escapeDots]
      rw [this, List.cons_append, List.cons_append, loop_escape, ih']
      simp
    · have : escapeDots (ch :: t) = ch :: escapeDots t := by simp [escapeDots, hd]
      rw [this, List.cons_append, loop_other _ _ hd (Ne.symm ht.1), ih']
      simp

/-- Reading plain text. -/
theorem parse_plain (t token rest : Text) (h1 : '\\' ∉ t) (h2 : '.' ∉ t) :
    parsePathLoop token (t ++ rest) = parsePathLoop (token ++ t) rest := by
  have hesc : escapeDots t = t := by
    unfold escapeDots
    clear h1
    induction t with
    | nil => rfl
    | cons a t ih =>
      simp only [List.mem_cons, not_or] at h2
      simp only [List.flatMap_cons, if_neg (Ne.symm h2.1), ih h2.2]
      rfl
  have := parse_token t h1 token rest
  rwa [hesc] at this

theorem parse_print {p : Path} (h : Clean p) : Path.parse p.print = p := by
  obtain ⟨hne, hc⟩ := h
  unfold Path.parse Path.print
  induction p with
  | nil => exact absurd rfl hne
  | cons t ts ih =>
    have ht := parse_token t (hc t (by simp)) []
    cases ts with
    | nil =>
      have := ht []
      simp only [List.append_nil, List.nil_append] at this
      simp only [List.map_cons, List.map_nil, joinWith, this]
      rfl
    | cons u us =>
      have ih' := ih (by simp) (fun x hx => hc x (by simp [hx]))
      have h := ht ('.' :: joinWith ['.'] ((u :: us).map escapeDots))
      rw [loop_dot, ih'] at h
      simpa [joinWith] using h

theorem print_inj {p q : Path} (hp : Clean p) (hq : Clean q) (h : p.print = q.print) : p = q := by
  rw [← parse_print hp, ← parse_print hq, h]

theorem clean_headers (t : Target) : Clean (headersPath t) := by
  cases t <;> exact ⟨by simp [headersPath], by decide⟩

section
variable {W : Type} {b : Backend W}

theorem cached_insert {s : Attrs W} {p q : Path} (hp : Clean p) (hq : Clean q) (v : Cached) :
    (s.insert p v).cached q = if q = p then some v else s.cached q := by
  unfold Attrs.insert Attrs.cached
  rw [mapGet_mapInsert]
  by_cases h : q = p
  · subst h; simp
  · have : ¬ q.print = p.print := fun e => h (print_inj hq hp e)
    simp [h, this]

/-- A read leaves what is known and remembers what it got. -/
theorem read_known {α : Type} (as : Cached → Except AttrErr α) {s : Attrs W} {p q : Path} (hp : Clean p)
    (hq : Clean q) {v : Cached} (h : s.cached q = some v) : (s.read b as p).2.cached q = some v := by
  unfold Attrs.read
  dsimp only
  split
  · exact h
  · rename_i hn
    split
    · rw [cached_insert hp hq]
      split
      · rename_i he; subst he; rw [hn] at h; cases h
      · exact h
    · exact h
    · exact h

theorem populate_known {s : Attrs W} {p q : Path} (hp : Clean p)
    (hq : Clean q) {v : Cached} (h : s.cached q = some v) : (s.populate b p).cached q = some v := by
  unfold Attrs.populate
  split
  · exact h
  · rename_i hn
    split
    · rw [cached_insert hp hq]
      split
      · rename_i he; subst he; rw [hn] at h; cases h
      · exact h
    · exact h

theorem ensure_known {s : Attrs W} {ps : List Path} {q : Path} (hps : ∀ p ∈ ps, Clean p)
    (hq : Clean q) {v : Cached} (h : s.cached q = some v) : (s.ensure b ps).cached q = some v := by
  unfold Attrs.ensure
  induction ps generalizing s with
  | nil => exact h
  | cons p ps ih =>
    rw [List.foldl_cons]
    exact ih (fun p hp => hps p (by simp [hp])) (populate_known (hps p (by simp)) hq h)

theorem step_known {s : Attrs W} {op : AttrOp W} {q : Path} (hc : op.Clean) (hq : Clean q)
    (hw : ¬ op.Writes b q s) {v : Cached} (h : s.cached q = some v) : (op.step b s).cached q = some v := by
  cases op with
  | read α as p => exact read_known as hc hq h
  | ensure ps => exact ensure_known hc hq h
  | host f => exact h
  | writeBytes p w =>
    simp only [AttrOp.Writes, AttrOp.step, Attrs.writeBytes] at hw ⊢
    split at hw
    · rename_i heq
      have hne : ¬ p = q := fun e => hw ⟨e, rfl⟩
      rw [cached_insert hc hq, if_neg (fun e => hne e.symm)]
      exact h
    · exact h
    · exact h
  | writeHeaders t hs =>
    simp only [AttrOp.Writes, AttrOp.step, Attrs.writeHeaders] at hw ⊢
    split at hw
    · have hne : ¬ headersPath t = q := fun e => hw ⟨e, rfl⟩
      rw [cached_insert (clean_headers t) hq, if_neg (fun e => hne e.symm)]
      exact h
    · exact h
    · exact h

theorem leaves_known {s s' : Attrs W} {ops : List (AttrOp W)} {q : Path} (hq : Clean q)
    (hl : Leaves b q s ops s') {v : Cached} (h : s.cached q = some v) : s'.cached q = some v := by
  induction hl with
  | nil s => exact h
  | cons hc hw _ ih => exact ih (step_known hc hq hw h)

theorem read_cached {α : Type} (as : Cached → Except AttrErr α) {s : Attrs W} {p : Path} {v : Cached}
    (h : s.cached p = some v) : s.read b as p = (answer as v, s) := by
  unfold Attrs.read
  rw [h]
  rfl

theorem read_available {α : Type} (as : Cached → Except AttrErr α) {s s' : Attrs W} {p : Path} (hp : Clean p)
    {a : α} (h : s.read b as p = (.available a, s')) : ∃ v, s'.cached p = some v ∧ answer as v = .available a := by
  unfold Attrs.read at h
  dsimp only at h
  split at h
  · rename_i v hv
    obtain ⟨h1, h2⟩ := Prod.mk.inj h
    subst h2
    exact ⟨v, hv, h1⟩
  · split at h
    · rename_i v w hf
      obtain ⟨h1, h2⟩ := Prod.mk.inj h
      subst h2
      exact ⟨v, by rw [cached_insert hp hp, if_pos rfl], h1⟩
    · cases (Prod.mk.inj h).1
    · cases (Prod.mk.inj h).1

end

end Verif
