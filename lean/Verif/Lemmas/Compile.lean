import Verif.Lemmas.Build
/-! What compiling a configuration does. -/
set_option linter.unusedSimpArgs false
namespace Verif
open Spec

section
variable (parse : Text → Option Expr) (services : Text → Option SvcInst)

/-- `x` is the result of compiling the typed action `a` under the id. -/
inductive Compiled : Text → TypedAction → Action → Prop
  | grpc (id h service var message onReply pred kind svc deny msg replies)
      (hp : parse h.predicate = some pred) (hs : services service = some (.call kind svc deny))
      (hm : parse message = some msg) (hl : onReply.length = replies.length)
      (hseq : ∀ a ∈ onReply, a.head.sequential = false)
      (hr : ∀ i a x, onReply[i]? = some a → replies[i]? = some x →
        Compiled (id ++ '.' :: natText i) a x) :
      Compiled id (.grpc h service var message onReply)
        (.grpc { id, pred, terminal := h.terminal, guard := h.guard } (.call kind svc deny) var msg replies)
  | deny (id h denyWith pred e) (hp : parse h.predicate = some pred) (he : parse denyWith = some e) :
      Compiled id (.deny h denyWith) (.deny { id, pred, terminal := h.terminal, guard := h.guard } e)
  | headers (id h target value pred e) (hp : parse h.predicate = some pred) (he : parse value = some e) :
      Compiled id (.headers h target value)
        (.headers { id, pred, terminal := h.terminal, guard := h.guard } target e)
  | store (id h path value x pred e) (hp : parse h.predicate = some pred) (he : parse value = some e) :
      Compiled id (.store h path value x)
        (.store { id, pred, terminal := h.terminal, guard := h.guard } path e x)
  | fail (id h pred) (hp : parse h.predicate = some pred) :
      Compiled id (.fail h) (.fail { id, pred, terminal := h.terminal, guard := h.guard })

mutual

theorem compileTyped_compiled (id : Text) (a : TypedAction) (x : Action)
    (h : compileTyped parse services id a = some x) : Compiled parse services id a x := by
  match a with
  | .grpc hd service var message onReply =>
    unfold compileTyped at h
    split at h
    · rename_i pred kind svc deny hp hs
      split at h
      · rename_i replies msg hr hm
        simp only [Option.some.injEq] at h
        subst h
        obtain ⟨h1, h2, h3⟩ := compileReplies_compiled id 0 onReply replies hr
        refine .grpc _ _ _ _ _ _ _ _ _ _ _ _ hp hs hm h1 h2 ?_
        intro i a x ha hx
        have := h3 i a x ha hx
        rwa [Nat.zero_add] at this
      · simp at h
    · simp at h
  | .deny hd e =>
    unfold compileTyped at h
    split at h
    · rename_i pred x hp he
      simp only [Option.some.injEq] at h
      subst h
      exact .deny _ _ _ _ _ hp he
    · simp at h
  | .headers hd t e =>
    unfold compileTyped at h
    split at h
    · rename_i pred x hp he
      simp only [Option.some.injEq] at h
      subst h
      exact .headers _ _ _ _ _ _ hp he
    · simp at h
  | .store hd p e y =>
    unfold compileTyped at h
    split at h
    · rename_i pred x hp he
      simp only [Option.some.injEq] at h
      subst h
      exact .store _ _ _ _ _ _ _ hp he
    · simp at h
  | .fail hd =>
    unfold compileTyped at h
    split at h
    · rename_i pred hp
      simp only [Option.some.injEq] at h
      subst h
      exact .fail _ _ _ hp
    · simp at h

theorem compileReplies_compiled (id : Text) (idx : Nat) (as : List TypedAction) (xs : List Action)
    (h : compileReplies parse services id idx as = some xs) :
    as.length = xs.length ∧ (∀ a ∈ as, a.head.sequential = false) ∧
    ∀ i a x, as[i]? = some a → xs[i]? = some x →
      Compiled parse services (id ++ '.' :: natText (idx + i)) a x := by
  match as with
  | [] =>
    simp only [compileReplies, Option.some.injEq] at h
    subst h
    simp
  | a :: as =>
    unfold compileReplies at h
    split at h
    · simp at h
    · rename_i hseq
      split at h
      · rename_i x xs' h1 h2
        simp only [Option.some.injEq] at h
        subst h
        have hc := compileTyped_compiled (id ++ '.' :: natText idx) a x h1
        obtain ⟨hl, hs, hr⟩ := compileReplies_compiled id (idx + 1) as xs' h2
        refine ⟨by simp [hl], ?_, ?_⟩
        · intro b hb
          rcases List.mem_cons.1 hb with rfl | hb
          · simpa using hseq
          · exact hs b hb
        · intro i b y hb hy
          cases i with
          | zero =>
            simp only [List.getElem?_cons_zero, Option.some.injEq] at hb hy
            subst hb hy
            exact hc
          | succ i =>
            simp only [List.getElem?_cons_succ] at hb hy
            have := hr i b y hb hy
            rwa [show idx + 1 + i = idx + (i + 1) by omega] at this
      · simp at h

end

/-- The typed action an entry of the configuration stands for. -/
inductive StandsFor : ActionConfig → TypedAction → Prop
  | typed (a) : StandsFor (.typed a) a
  | legacy (service translation kind svc deny) (hs : services service = some (.call kind svc deny))
      (hk : kind ≠ .dynamic) : StandsFor (.legacy service translation) (translation kind)

theorem compileAction_compiled (i : Nat) (deps : List Text) (a : ActionConfig) (x : Action)
    (h : compileAction parse services i deps a = some x) :
    ∃ t y, StandsFor services a t ∧ Compiled parse services (natText i) t y ∧ x = y.withDeps deps := by
  cases a with
  | typed a =>
    simp only [compileAction, Option.map_eq_some_iff] at h
    obtain ⟨y, hy, rfl⟩ := h
    exact ⟨a, y, .typed a, compileTyped_compiled parse services _ a y hy, rfl⟩
  | legacy service translation =>
    simp only [compileAction] at h
    split at h
    · rename_i kind svc deny hs
      split at h
      · simp at h
      · rename_i hk
        simp only [Option.map_eq_some_iff] at h
        obtain ⟨y, hy, rfl⟩ := h
        exact ⟨_, y, .legacy _ _ _ _ _ hs hk, compileTyped_compiled parse services _ _ y hy, rfl⟩
    · simp at h

theorem compileLoop_compiled (i : Nat) (as : List (ActionConfig × List Text)) (xs : List Action)
    (h : compileLoop parse services i as = some xs) :
    as.length = xs.length ∧ ∀ j a deps x, as[j]? = some (a, deps) → xs[j]? = some x →
      ∃ t y, StandsFor services a t ∧ Compiled parse services (natText (i + j)) t y ∧
        x = y.withDeps deps := by
  induction as generalizing i xs with
  | nil =>
    simp only [compileLoop, Option.some.injEq] at h
    subst h
    simp
  | cons p as ih =>
    obtain ⟨a, deps⟩ := p
    unfold compileLoop at h
    split at h
    · rename_i x xs' h1 h2
      simp only [Option.some.injEq] at h
      subst h
      obtain ⟨hl, hr⟩ := ih (i + 1) xs' h2
      refine ⟨by simp [hl], ?_⟩
      intro j b d y hb hy
      cases j with
      | zero =>
        simp only [List.getElem?_cons_zero, Option.some.injEq, Prod.mk.injEq] at hb hy
        obtain ⟨rfl, rfl⟩ := hb
        subst hy
        exact compileAction_compiled parse services i deps a x h1
      | succ j =>
        simp only [List.getElem?_cons_succ] at hb hy
        have := hr j b d y hb hy
        rwa [show i + 1 + j = i + (j + 1) by omega] at this
    · simp at h

theorem depLoop_length (i : Nat) (fence par : List Nat) (as : List ActionConfig) :
    (depLoop i fence par as).length = as.length := by
  induction as generalizing i fence par with
  | nil => rfl
  | cons a as ih => simp [depLoop, ih]

theorem computeDeps_length (as : List ActionConfig) : (computeDeps as).length = as.length := by
  simp [computeDeps, depLoop_length]

end

/-- `b` is the blueprint of action set `s`. -/
structure FromSet (parse : Text → Option Expr) (cfg : PluginConfig) (s : ActionSet) (b : Blueprint) :
    Prop where
  preds : parseAll parse s.predicates = some b.routePredicates
  actions : ∃ xs, b.actions = xs ++ (devModeAction cfg).toList ∧
    compileLoop parse cfg.services 0 (s.actions.zip (computeDeps s.actions)) = some xs

theorem compile_fromSet (parse : Text → Option Expr) (cfg : PluginConfig) (s : ActionSet) (b : Blueprint)
    (h : Blueprint.compile parse cfg.services s = some b) :
    FromSet parse cfg s { b with actions := b.actions ++ (devModeAction cfg).toList } := by
  unfold Blueprint.compile at h
  split at h
  · rename_i rp xs h1 h2
    simp only [Option.some.injEq] at h
    subst h
    exact ⟨h1, xs, rfl, h2⟩
  · simp at h

theorem indexInsert_mem {index : List (Text × List Blueprint)} {key : Text} {b x : Blueprint}
    {e : Text × List Blueprint} (he : e ∈ indexInsert index key b) (hx : x ∈ e.2) :
    x = b ∨ ∃ e' ∈ index, x ∈ e'.2 := by
  unfold indexInsert at he
  split at he
  · simp only [List.mem_map] at he
    obtain ⟨e', he', rfl⟩ := he
    split at hx
    · rcases List.mem_append.1 hx with hx | hx
      · exact .inr ⟨e', he', hx⟩
      · exact .inl (by simpa using hx)
    · exact .inr ⟨e', he', hx⟩
  · rcases List.mem_append.1 he with he | he
    · exact .inr ⟨e, he, hx⟩
    · simp only [List.mem_singleton] at he
      subst he
      exact .inl (by simpa using hx)

theorem indexLoop_mem (parse : Text → Option Expr) (cfg : PluginConfig)
    (index : List (Text × List Blueprint)) (sets : List ActionSet)
    (P : Blueprint → Prop) (hP : ∀ e ∈ index, ∀ b ∈ e.2, P b)
    (hs : ∀ s ∈ sets, ∀ b, Blueprint.compile parse cfg.services s = some b →
      P { b with actions := b.actions ++ (devModeAction cfg).toList })
    (index' : List (Text × List Blueprint)) (h : indexLoop parse cfg index sets = some index') :
    ∀ e ∈ index', ∀ b ∈ e.2, P b := by
  induction sets generalizing index with
  | nil =>
    simp only [indexLoop, Option.some.injEq] at h
    subst h
    exact hP
  | cons s ss ih =>
    unfold indexLoop at h
    split at h
    · simp at h
    · rename_i b hb
      dsimp only at h
      refine ih _ ?_ (fun s hs' => hs s (by simp [hs'])) h
      have hPb := hs s (by simp) _ hb
      generalize { b with actions := b.actions ++ (devModeAction cfg).toList } = b' at hPb h
      refine foldl_ind (fun ix : List (Text × List Blueprint) => ∀ e ∈ ix, ∀ b ∈ e.2, P b) _ ?_ _ _ hP
      intro ix hn hix e he x hx
      rcases indexInsert_mem he hx with rfl | ⟨e', he', hx⟩
      · exact hPb
      · exact hix e' he' x hx

theorem ancestor_mem {α : Type} (index : List (Text × α)) (key : Text) (e : Text × α)
    (h : ancestor index key = some e) : e ∈ index := by
  unfold ancestor at h
  have : ∀ (l : List (Text × α)) (best : Option (Text × α)),
      (∀ x, best = some x → x ∈ index) → (∀ x ∈ l, x ∈ index) →
      ∀ x, l.foldl (init := best) (fun best e =>
        if startsWith key e.1 then
          match best with
          | none => some e
          | some b => if b.1.length < e.1.length then some e else some b
        else best) = some x → x ∈ index := by
    intro l
    induction l with
    | nil => intro best hb _ x hx; exact hb x hx
    | cons y l ih =>
      intro best hb hl x hx
      refine ih _ ?_ (fun z hz => hl z (by simp [hz])) x hx
      intro z hz
      dsimp only at hz
      split at hz
      · split at hz
        · simp only [Option.some.injEq] at hz; subst hz; exact hl _ (by simp)
        · rename_i b
          split at hz
          · simp only [Option.some.injEq] at hz; subst hz; exact hl _ (by simp)
          · exact hb z hz
      · exact hb z hz
  exact this index none (by simp) (fun _ h => h) e h

section
variable {H : Type} {o : Oracle H}

theorem firstMatch_mem (c : Ctx H) (bs : List Blueprint) (b : Blueprint)
    (h : (firstMatch o c bs).1 = .found b) : b ∈ bs := by
  induction bs generalizing c with
  | nil => simp [firstMatch] at h
  | cons x bs ih =>
    unfold firstMatch at h
    split at h
    · simp only [Choice.found.injEq] at h; subst h; simp
    · exact List.mem_cons_of_mem _ (ih _ h)
    · simp at h
    · simp at h

theorem select_mem (f : Factory) (c : Ctx H) (b : Blueprint) (h : (f.select o c).1 = .found b) :
    (∃ e ∈ f.index, b ∈ e.2) ∨ f.fallback = some b := by
  unfold Factory.select at h
  split at h
  · simp at h
  · split at h
    · simp at h
    · rename_i host c1 _ _ key cands hanc
      have hmem := ancestor_mem _ _ _ hanc
      have hf := firstMatch_mem (o := o) c1 cands b
      generalize firstMatch o c1 cands = r at h hf
      obtain ⟨ch, c2⟩ := r
      cases ch with
      | none =>
        dsimp only at h
        split at h
        · rename_i fb hfb
          simp only [Choice.found.injEq] at h
          subst h
          exact .inr hfb
        · simp at h
      | found x => exact .inl ⟨_, hmem, hf h⟩
      | error => simp at h

/-- The pipeline of a compiled configuration comes from an action set or from developer mode. -/
theorem build_origin (parse : Text → Option Expr) (cfg : PluginConfig) (f : Factory)
    (hf : Factory.tryFrom parse cfg = some f) (c : Ctx H) (p : Pipe H)
    (h : f.build o c = .pipeline p) :
    ∃ b, Built c b p ∧ ((∃ s ∈ cfg.actionSets, FromSet parse cfg s b) ∨
      ∃ a, devModeAction cfg = some a ∧ b.actions = [a]) := by
  obtain ⟨b, hsel, hb⟩ := build_built o f c p h
  refine ⟨b, hb, ?_⟩
  unfold Factory.tryFrom at hf
  split at hf
  · simp at hf
  · rename_i index hix
    simp only [Option.some.injEq] at hf
    subst hf
    rcases select_mem _ c b hsel with ⟨e, he, hbe⟩ | hfb
    · left
      exact indexLoop_mem parse cfg [] cfg.actionSets
        (fun b => ∃ s ∈ cfg.actionSets, FromSet parse cfg s b) (by simp)
        (fun s hs b hb => ⟨s, hs, compile_fromSet parse cfg s b hb⟩) index hix e he b hbe
    · right
      simp only [Option.map_eq_some_iff] at hfb
      obtain ⟨a, ha, rfl⟩ := hfb
      exact ⟨a, ha, rfl⟩

end

end Verif
