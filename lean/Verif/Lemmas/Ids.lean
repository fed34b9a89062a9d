import Verif.Lemmas.Once
/-! Identifiers of actions. -/
namespace Verif

theorem natText_eq (n : Nat) : natText n = Nat.toDigits 10 n := by
  show (Nat.repr n).toList = _
  exact Nat.toList_repr

theorem natText_inj {m n : Nat} (h : natText m = natText n) : m = n := by
  rw [natText_eq, natText_eq] at h
  have := congrArg (fun l => Nat.ofDigitChars 10 l 0) h
  simpa [Nat.ofDigitChars_ten_toDigits] using this

theorem natText_digit {n : Nat} {c : Char} (h : c ∈ natText n) : c.isDigit = true := by
  rw [natText_eq] at h
  exact Nat.isDigit_of_mem_toDigits (by omega) (by omega) h

theorem natText_ne {n : Nat} {t : Text} {c : Char} (hc : c ∈ t) (hd : c.isDigit = false) :
    t ≠ natText n := by
  rintro rfl
  rw [natText_digit hc] at hd
  simp at hd

theorem natText_ne_nil (n : Nat) : natText n ≠ [] := by
  rw [natText_eq]; exact Nat.toDigits_ne_nil

/-- The ids below an action. -/
def Below (id t : Text) : Prop := ∃ rest, t = id ++ '.' :: rest

theorem Below.ne {id t : Text} (h : Below id t) (n : Nat) : t ≠ natText n := by
  obtain ⟨rest, rfl⟩ := h
  exact natText_ne (c := '.') (by simp) rfl

theorem Compiled.head_id {parse services} {id : Text} {a : TypedAction} {x : Action}
    (h : Compiled parse services id a x) : x.head.id = id := by
  cases h <;> rfl

theorem Compiled.head_deps {parse services} {id : Text} {a : TypedAction} {x : Action}
    (h : Compiled parse services id a x) : x.head.deps = [] := by
  cases h <;> rfl

theorem Action.All.imp {P Q : Action → Prop} (h : ∀ y, P y → Q y) {x : Action} (hx : Action.All P x) :
    Action.All Q x := by
  induction hx with
  | mk a ha _ ih => exact .mk a (h a ha) (fun head svc var msg acts he b hb => ih head svc var msg acts he b hb)

/-- Ids of compiled actions extend the given id. -/
theorem Compiled.ids {parse services} {id : Text} {a : TypedAction} {x : Action}
    (h : Compiled parse services id a x) {top : Text} (hb : Below top id) :
    Action.All (fun y => Below top y.head.id) x := by
  induction h with
  | grpc id h service var message onReply pred kind svc deny msg replies hp hs hm hl hseq hr ih =>
    refine .mk _ hb ?_
    intro head svc' var' msg' acts heq b hbm
    cases heq
    obtain ⟨i, hi, rfl⟩ := List.mem_iff_getElem.1 hbm
    have hi' : i < onReply.length := by omega
    refine ih i onReply[i] _ (by simp [hi']) (by simp [hi]) ?_
    obtain ⟨rest, rfl⟩ := hb
    exact ⟨rest ++ '.' :: natText i, by simp⟩
  | _ => exact .mk _ hb (by simp)

/-- Reply actions have ids below the action's. -/
theorem Compiled.replies_below {parse services} {id : Text} {a : TypedAction} {x : Action}
    (h : Compiled parse services id a x) (head svc var msg acts) (hx : x = .grpc head svc var msg acts) :
    ∀ b ∈ acts, Action.All (fun y => Below id y.head.id) b := by
  subst hx
  intro b hb
  cases h with
  | grpc _ h service _ message onReply pred kind svc deny _ replies hp hs hm hl hseq hr =>
    obtain ⟨i, hi, rfl⟩ := List.mem_iff_getElem.1 hb
    have hi' : i < onReply.length := by omega
    exact (hr i onReply[i] _ (by simp [hi']) (by simp [hi])).ids ⟨natText i, rfl⟩

theorem withDeps_id (x : Action) (deps : List Text) : (x.withDeps deps).head.id = x.head.id := by
  cases x <;> rfl

theorem withDeps_deps (x : Action) (deps : List Text) : (x.withDeps deps).head.deps = deps := by
  cases x <;> rfl

/-- A property that only concerns the action at position `n`. -/
theorem set_only {parse : Text → Option Expr} {cfg : PluginConfig} {s : ActionSet} {b : Blueprint}
    (hfs : FromSet parse cfg s b) (n : Nat) {R : Action → Prop}
    (hoff : ∀ y, y.head.id ≠ natText n → R y)
    (hon : ∀ a deps t y, s.actions[n]? = some a → (computeDeps s.actions)[n]? = some deps →
      StandsFor cfg.services a t → Compiled parse cfg.services (natText n) t y → R (y.withDeps deps)) :
    ∀ a ∈ b.actions, Action.All R a := by
  refine set_all hfs ?_ ?_
  · intro i a deps ha hd t x hst hco
    refine .mk _ ?_ ?_
    · by_cases hin : i = n
      · subst hin; exact hon a deps t x ha hd hst hco
      · refine hoff _ ?_
        rw [withDeps_id, hco.head_id]
        exact fun h => hin (natText_inj h)
    · intro head svc var msg acts heq b hb
      refine Action.All.imp (fun y (hy : Below (natText i) y.head.id) => hoff y (hy.ne n)) ?_
      cases x <;> simp only [Action.withDeps, Action.grpc.injEq, reduceCtorEq] at heq
      exact hco.replies_below _ _ _ _ _ rfl b (by rw [heq.2.2.2.2]; exact hb)
  · refine dev_all ?_
    intro head service var hid _
    refine hoff _ ?_
    show head.id ≠ _
    rw [hid]
    exact natText_ne (c := 'k') (by decide) rfl

end Verif
