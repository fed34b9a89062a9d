import Verif.Lemmas.Ids
import Verif.Lemmas.Context
/-! Actions by their identifiers. -/
set_option linter.unusedSimpArgs false
namespace Verif
open Spec

variable {H : Type} {o : Oracle H}

theorem standsFor_iff {services : Text → Option SvcInst} {a : ActionConfig} {t : TypedAction} :
    StandsFor services a t ↔ standsFor services a = some t := by
  constructor
  · rintro (_ | ⟨_, _, kind, svc, deny, hs, hk⟩)
    · rfl
    · simp [standsFor, hs, hk]
  · intro h
    cases a with
    | typed a => simp only [standsFor, Option.some.injEq] at h; subst h; exact .typed _
    | legacy service tr =>
      simp only [standsFor] at h
      split at h
      · rename_i kind svc deny hs
        split at h
        · simp at h
        · rename_i hk
          simp only [Option.some.injEq] at h
          subst h
          exact .legacy _ _ _ _ _ hs hk
      · simp at h

theorem split_last {a b x y : Text} {d : Char} (hx : d ∉ x) (hy : d ∉ y) (h : a ++ d :: x = b ++ d :: y) :
    a = b ∧ x = y := by
  rcases List.append_eq_append_iff.1 h with ⟨r, h1, h2⟩ | ⟨r, h1, h2⟩
  · cases r with
    | nil => simp at h1 h2; exact ⟨h1.symm, h2⟩
    | cons z r =>
      simp only [List.cons_append, List.cons.injEq] at h2
      exact absurd (by rw [h2.2]; simp) hx
  · cases r with
    | nil => simp at h1 h2; exact ⟨h1, h2.symm⟩
    | cons z r =>
      simp only [List.cons_append, List.cons.injEq] at h2
      exact absurd (by rw [h2.2]; simp) hy

theorem dot_natText (n : Nat) : '.' ∉ natText n := fun h => by
  have := natText_digit h
  simp at this

variable {services : Text → Option SvcInst} {s : ActionSet}

theorem At.chars {id : Text} {t : TypedAction} (h : At services s id t) {c : Char} (hc : c ∈ id) :
    c.isDigit = true ∨ c = '.' := by
  induction h with
  | top h hs => exact .inl (natText_digit hc)
  | reply h hj ih =>
    simp only [List.mem_append, List.mem_cons] at hc
    rcases hc with hc | hc | hc
    · exact ih hc
    · exact .inr hc
    · exact .inl (natText_digit hc)

/-- An identifier names one action. -/
theorem At.unique {id : Text} {t t' : TypedAction} (h : At services s id t) (h' : At services s id t') : t = t' := by
  induction h generalizing t' with
  | @top i a t h hs =>
    generalize hx : natText i = x at h'
    cases h' with
    | @top j a' t' g gs =>
      have := natText_inj hx
      subst this
      rw [h] at g; cases g
      rw [hs] at gs; cases gs; rfl
    | reply g gj =>
      exact absurd (by rw [hx]; simp) (dot_natText i)
  | @reply id head service var message replies j t h hj ih =>
    generalize hx : id ++ '.' :: natText j = x at h'
    cases h' with
    | @top i a' t' g gs => exact absurd (by rw [← hx]; simp) (dot_natText i)
    | @reply id' _ _ _ _ _ j' t' g gj =>
      obtain ⟨rfl, h2⟩ := split_last (dot_natText j) (dot_natText j') hx
      have := natText_inj h2
      subst this
      cases ih g
      rw [hj] at gj; cases gj; rfl

/-- The action is the compiled form of the one its identifier names. -/
def Placed (parse : Text → Option Expr) (services : Text → Option SvcInst) (s : ActionSet) (y : Action) : Prop :=
  ∀ t, At services s y.head.id t → ∃ y' deps, Compiled parse services y.head.id t y' ∧ y = y'.withDeps deps

theorem Compiled.withDeps_nil {parse : Text → Option Expr} {id : Text} {t : TypedAction} {x : Action}
    (h : Compiled parse services id t x) : x.withDeps [] = x := by
  cases h <;> rfl

theorem Compiled.placed {parse : Text → Option Expr} {id : Text} {t : TypedAction} {x : Action}
    (h : Compiled parse services id t x) (hat : At services s id t) :
    Action.All (Placed parse services s) x := by
  induction h with
  | grpc id h service var message onReply pred kind svc deny msg replies hp hs hm hl hseq hr ih =>
    refine .mk _ ?_ ?_
    · intro t' ht'
      cases At.unique ht' hat
      exact ⟨_, [], .grpc _ _ _ _ _ _ _ _ _ _ _ _ hp hs hm hl hseq hr, rfl⟩
    · intro head svc' var' msg' acts heq b hbm
      cases heq
      obtain ⟨i, hi, rfl⟩ := List.mem_iff_getElem.1 hbm
      have hi' : i < onReply.length := by omega
      exact ih i onReply[i] _ (by simp [hi']) (by simp [hi]) (.reply hat (by simp [hi']))
  | deny id h e pred x hp he =>
    refine .mk _ ?_ (by simp)
    intro t' ht'
    cases At.unique ht' hat
    exact ⟨_, [], .deny _ _ _ _ _ hp he, rfl⟩
  | headers id h target e pred x hp he =>
    refine .mk _ ?_ (by simp)
    intro t' ht'
    cases At.unique ht' hat
    exact ⟨_, [], .headers _ _ _ _ _ _ hp he, rfl⟩
  | store id h path e x pred y hp he =>
    refine .mk _ ?_ (by simp)
    intro t' ht'
    cases At.unique ht' hat
    exact ⟨_, [], .store _ _ _ _ _ _ _ hp he, rfl⟩
  | fail id h pred hp =>
    refine .mk _ ?_ (by simp)
    intro t' ht'
    cases At.unique ht' hat
    exact ⟨_, [], .fail _ _ _ hp, rfl⟩

theorem fromSet_placed {parse : Text → Option Expr} {cfg : PluginConfig} {b : Blueprint}
    (hfs : FromSet parse cfg s b) : ∀ a ∈ b.actions, Action.All (Placed parse cfg.services s) a := by
  refine set_all hfs ?_ ?_
  · intro i a deps ha hd t x hst hco
    have hat : At cfg.services s (natText i) t := .top ha (standsFor_iff.1 hst)
    refine (hco.placed hat).withDeps ?_
    intro hx t' ht'
    rw [withDeps_id] at ht' ⊢
    rw [hco.head_id] at ht' ⊢
    cases At.unique ht' hat
    exact ⟨x, deps, hco, rfl⟩
  · refine dev_all ?_
    intro head service var hid _ t ht
    have := At.chars ht (c := 'k') (by show 'k' ∈ head.id; rw [hid]; decide)
    simp at this

/-- Tasks of the action with identifier `x`, as the configuration says. -/
theorem fromSet_tasks {parse : Text → Option Expr} {cfg : PluginConfig} {b : Blueprint} {c : Ctx H} {p : Pipe H}
    (hb : Built c b p) (hfs : FromSet parse cfg s b) {x : Text} {t : TypedAction} (hat : At cfg.services s x t)
    {P : Core → Prop} (hoff : ∀ k, k.id ≠ x → P k)
    (hon : ∀ y deps k, Compiled parse cfg.services x t y → Made (y.withDeps deps) k → P k) :
    Tasks P p [] := by
  refine built_all' hb (R := Placed parse cfg.services s) (fromSet_placed hfs) ?_ ?_
  · intro y k hy hm
    by_cases hid : k.id = x
    · rw [hm.id] at hid
      subst hid
      obtain ⟨y', deps, hco, rfl⟩ := hy t hat
      exact hon y' deps k (by rwa [withDeps_id] at hco ⊢) hm
    · exact hoff k hid
  · intro fields
    refine hoff _ ?_
    rintro rfl
    have := At.chars hat (c := 't') (show 't' ∈ "token_usage".toList by decide)
    simp at this

end Verif
