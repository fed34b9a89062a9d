import Verif.Lemmas.Live
import Verif.Model.Factory
/-! What building a pipeline does. -/
set_option linter.unusedSimpArgs false
namespace Verif
open Spec

variable {H : Type} (o : Oracle H)

/-- Nothing happened that the pipeline invariants look at. -/
structure Quiet (c c' : Ctx H) : Prop where
  log : c'.log = c.log
  barrier : c'.barrier = c.barrier
  grpc : c'.grpc = c.grpc
  bindings : c'.bindings = c.bindings
  req : c'.req = c.req
  resp : c'.resp = c.resp
  values : c'.values = c.values
  rid : ∀ r, c.requestId = some r → c'.requestId = some r

theorem Quiet.refl (c : Ctx H) : Quiet c c := by constructor <;> simp

theorem Quiet.trans {a b c : Ctx H} (h : Quiet a b) (g : Quiet b c) : Quiet a c where
  log := g.log.trans h.log
  barrier := g.barrier.trans h.barrier
  grpc := g.grpc.trans h.grpc
  bindings := g.bindings.trans h.bindings
  req := g.req.trans h.req
  resp := g.resp.trans h.resp
  values := g.values.trans h.values
  rid := fun r hr => g.rid r (h.rid r hr)

theorem Quiet.withHost {a c : Ctx H} (h : Quiet a c) (x : H) : Quiet a (c.withHost x) :=
  h.trans (by constructor <;> simp [Ctx.withHost])

theorem evalExpr_quiet (c : Ctx H) (id : Text) (e : Expr) : Quiet c (evalExpr o c id e).2 := by
  unfold evalExpr
  split
  · exact .refl c
  · split
    · exact (Quiet.refl c).withHost _
    · exact (Quiet.refl c).withHost _
    · dsimp only
      split
      · split
        · exact ((Quiet.refl c).withHost _).withHost _
        · exact ((Quiet.refl c).withHost _).withHost _
      · exact (Quiet.refl c).withHost _

theorem testPred_quiet (c : Ctx H) (id : Text) (e : Expr) : Quiet c (testPred o c id e).2 := by
  have h := evalExpr_quiet o c id e
  unfold testPred
  split <;> rename_i heq <;> rw [heq] at h <;> exact h

theorem requestId_quiet (c : Ctx H) : Quiet c (requestId o c).2 := by
  unfold requestId
  split
  · exact .refl c
  · rename_i hn
    dsimp only
    split <;> (constructor <;> simp [Ctx.withHost, hn])

theorem testAllLoop_quiet (c : Ctx H) (ps : List Expr) : Quiet c (testAllLoop o c ps).2 := by
  induction ps generalizing c with
  | nil => exact .refl c
  | cons p ps ih =>
    have h := testPred_quiet o c [] p
    unfold testAllLoop
    split <;> rename_i heq <;> rw [heq] at h
    · exact Quiet.trans h (ih _)
    · exact h
    · exact h
    · exact h

theorem testAll_quiet (c : Ctx H) (ps : List Expr) : Quiet c (testAll o c ps).2 := by
  unfold testAll
  split
  · exact .refl c
  · exact ((Quiet.refl c).withHost _).trans (testAllLoop_quiet o _ _)

theorem getHostname_quiet (c : Ctx H) : Quiet c (getHostname o c).2 := by
  unfold getHostname
  split <;> exact (Quiet.refl c).withHost _

theorem firstMatch_quiet (c : Ctx H) (bs : List Blueprint) : Quiet c (firstMatch o c bs).2 := by
  induction bs generalizing c with
  | nil => exact .refl c
  | cons b bs ih =>
    have h := testAll_quiet o c b.routePredicates
    unfold firstMatch
    split <;> rename_i heq <;> rw [heq] at h
    · exact h
    · exact Quiet.trans h (ih _)
    · exact h
    · exact h

theorem select_quiet (f : Factory) (c : Ctx H) : Quiet c (f.select o c).2 := by
  have h := getHostname_quiet o c
  unfold Factory.select
  split
  · rename_i heq; rw [heq] at h; exact h
  · rename_i hostname c1 heq; rw [heq] at h
    split
    · exact h
    · rename_i candidates _
      have h2 := firstMatch_quiet o c1 candidates
      split
      · rename_i heq; rw [heq] at h2
        have h3 := Quiet.trans h h2
        split <;> exact h3
      · exact Quiet.trans h h2

/-- `k` is a task made from action `a`. -/
inductive Made : Action → Core → Prop
  | call (head kind svc deny var msg acts kids)
      (hid : acts.length = kids.length) (hk : ∀ x ∈ acts.zip kids, Made x.1 x.2) :
      Made (.grpc head (.call kind svc deny) var msg acts)
        (.grpc head.id head.deps head.guard head.pred msg var svc kids)
  | tracing (head u var msg acts e) : Made (.grpc head (.tracing u) var msg acts)
      (.headers head.id truePred e .response false)
  | deny (head e) : Made (.deny head e) (.sendReply head.id head.pred e head.terminal)
  | headers (head target e) : Made (.headers head target e)
      (.headers head.id head.pred e target head.terminal)
  | store (head path e x) : Made (.store head path e x)
      (.store head.id head.pred e path x head.terminal (initialParseState head.pred e))
  | fail (head) : Made (.fail head) (.fail head.id head.pred head.terminal)

theorem Made.id {a : Action} {k : Core} (h : Made a k) : k.id = a.head.id := by
  cases h <;> rfl

/-- Members of the second of two lists of equal length have partners. -/
theorem zip_partner {α β : Type} {l : List α} {m : List β} (h : l.length = m.length) {b : β}
    (hb : b ∈ m) : ∃ a ∈ l, (a, b) ∈ l.zip m := by
  induction l generalizing m with
  | nil =>
    cases m with
    | nil => simp at hb
    | cons => simp at h
  | cons x l ih =>
    cases m with
    | nil => simp at h
    | cons y m =>
      rcases List.mem_cons.1 hb with rfl | hb
      · exact ⟨x, by simp, by simp⟩
      · obtain ⟨a, ha, hz⟩ := ih (by simpa using h) hb
        exact ⟨a, by simp [ha], by simp [hz]⟩

theorem Made.waits {a : Action} {k : Core} (h : Made a k) : k.waits = false := by
  cases h <;> rfl

mutual

theorem toCore_made (a : Action) (c : Ctx H) (k : Core) (c' : Ctx H) (h : a.toCore o c = some (k, c')) :
    Made a k ∧ Quiet c c' := by
  match a with
  | .grpc head service var msg onReply =>
    unfold Action.toCore at h
    split at h
    · simp at h
    · rename_i children c1 heq
      obtain ⟨h1, h2, h3⟩ := toCoreList_made onReply c children c1 heq
      split at h
      · simp only [Option.some.injEq, Prod.mk.injEq] at h
        obtain ⟨rfl, rfl⟩ := h
        exact ⟨.call _ _ _ _ _ _ _ _ h2 h1,
          h3.trans ((testPred_quiet o c1 _ _).trans (evalExpr_quiet o _ _ _))⟩
      · dsimp only at h
        split at h
        · simp at h
        · simp only [Option.some.injEq, Prod.mk.injEq] at h
          obtain ⟨rfl, rfl⟩ := h
          refine ⟨.tracing _ _ _ _ _ _, h3.trans ?_⟩
          refine Quiet.trans (b := { c1 with trackerId := some var }) ?_ (requestId_quiet o _)
          constructor <;> simp
  | .deny head e =>
    simp only [Action.toCore, Option.some.injEq, Prod.mk.injEq] at h
    obtain ⟨rfl, rfl⟩ := h
    exact ⟨.deny _ _, .refl _⟩
  | .headers head t e =>
    simp only [Action.toCore, Option.some.injEq, Prod.mk.injEq] at h
    obtain ⟨rfl, rfl⟩ := h
    exact ⟨.headers _ _ _, .refl _⟩
  | .store head p e x =>
    simp only [Action.toCore, Option.some.injEq, Prod.mk.injEq] at h
    obtain ⟨rfl, rfl⟩ := h
    exact ⟨.store _ _ _ _, .refl _⟩
  | .fail head =>
    simp only [Action.toCore, Option.some.injEq, Prod.mk.injEq] at h
    obtain ⟨rfl, rfl⟩ := h
    exact ⟨.fail _, .refl _⟩

theorem toCoreList_made (as : List Action) (c : Ctx H) (ks : List Core) (c' : Ctx H)
    (h : toCoreList o c as = some (ks, c')) :
    (∀ x ∈ as.zip ks, Made x.1 x.2) ∧ as.length = ks.length ∧ Quiet c c' := by
  match as with
  | [] =>
    simp only [toCoreList, Option.some.injEq, Prod.mk.injEq] at h
    obtain ⟨rfl, rfl⟩ := h
    exact ⟨by simp, rfl, .refl _⟩
  | a :: as =>
    unfold toCoreList at h
    split at h
    · simp at h
    · rename_i k c1 heq
      obtain ⟨hm, hq⟩ := toCore_made a c k c1 heq
      split at h
      · simp at h
      · rename_i ks' c2 heq2
        obtain ⟨h1, h2, h3⟩ := toCoreList_made as c1 ks' c2 heq2
        simp only [Option.some.injEq, Prod.mk.injEq] at h
        obtain ⟨rfl, rfl⟩ := h
        refine ⟨?_, ?_, hq.trans h3⟩
        · intro x hx
          rcases List.mem_cons.1 hx with rfl | hx
          · exact hm
          · exact h1 x hx
        · simp [h2]

end

/-- The tasks of one top-level action. -/
inductive Top : Action → List PTask → Prop
  | call (head kind svc deny var msg acts k pre) (w : Bool)
      (hk : Made (.grpc head (.call kind svc deny) var msg acts) k)
      (hp : pre = [] ∨ ∃ fields, pre = [.core (.tokenUsage none fields)]) :
      Top (.grpc head (.call kind svc deny) var msg acts)
        (pre ++ [if w then .tracing (.failureMode (.core k) deny) else .failureMode (.core k) deny])
  | other (a k) (hk : Made a k) (ha : ∀ head kind svc deny var msg acts,
      a ≠ .grpc head (.call kind svc deny) var msg acts) : Top a [.core k]

theorem actionTasks_top (c : Ctx H) (rd : List Expr) (w : Bool) (a : Action) (ts td c')
    (h : actionTasks o c rd w a = some (ts, td, c')) : Top a ts ∧ Quiet c c' := by
  unfold actionTasks at h
  split at h
  · simp at h
  · rename_i t c1 heq
    obtain ⟨hm, hq⟩ := toCore_made o a c t c1 heq
    split at h
    · simp only [Option.some.injEq, Prod.mk.injEq] at h
      obtain ⟨rfl, -, rfl⟩ := h
      exact ⟨.other _ _ hm (by simp), hq⟩
    · simp only [Option.some.injEq, Prod.mk.injEq] at h
      obtain ⟨rfl, -, rfl⟩ := h
      refine ⟨.call _ _ _ _ _ _ _ _ _ _ hm ?_, hq⟩
      split
      · exact .inl rfl
      · exact .inr ⟨_, rfl⟩
    · rename_i h1 h2
      simp only [Option.some.injEq, Prod.mk.injEq] at h
      obtain ⟨rfl, -, rfl⟩ := h
      exact ⟨.other _ _ hm (by intro _ kind svc deny _ _ _ he; exact h2 _ _ _ _ _ _ _ he), hq⟩

/-- The tasks of a list of actions, in order. -/
inductive Tops : List Action → List PTask → Prop
  | nil : Tops [] []
  | cons (a as ts ts') (h : Top a ts) (hs : Tops as ts') : Tops (a :: as) (ts ++ ts')

theorem tasksLoop_tops (rd : List Expr) (w : Bool) (as : List Action) (c : Ctx H) (ts td c')
    (h : tasksLoop o c rd w as = some (ts, td, c')) : Tops as ts ∧ Quiet c c' := by
  induction as generalizing c ts td c' with
  | nil =>
    simp only [tasksLoop, Option.some.injEq, Prod.mk.injEq] at h
    obtain ⟨rfl, -, rfl⟩ := h
    exact ⟨.nil, .refl _⟩
  | cons a as ih =>
    unfold tasksLoop at h
    split at h
    · simp at h
    · rename_i ts1 td1 c1 heq
      obtain ⟨h1, q1⟩ := actionTasks_top o c rd w a ts1 td1 c1 heq
      split at h
      · simp at h
      · rename_i ts2 td2 c2 heq2
        obtain ⟨h2, q2⟩ := ih c1 ts2 td2 c2 heq2
        simp only [Option.some.injEq, Prod.mk.injEq] at h
        obtain ⟨rfl, -, rfl⟩ := h
        exact ⟨.cons _ _ _ _ h1 h2, q1.trans q2⟩

theorem Tops.mem {as : List Action} {ts : List PTask} (h : Tops as ts) :
    ∀ t ∈ ts, (∃ fields, t = .core (.tokenUsage none fields)) ∨ ∃ a ∈ as, Made a t.strip := by
  induction h with
  | nil => simp
  | cons a as ts ts' h hs ih =>
    intro t ht
    rcases List.mem_append.1 ht with ht | ht
    · cases h with
      | call head kind svc deny var msg acts k pre w hk hp =>
        rcases List.mem_append.1 ht with ht | ht
        · rcases hp with rfl | ⟨fields, rfl⟩
          · simp at ht
          · left; exact ⟨fields, by simpa using ht⟩
        · right
          refine ⟨_, List.mem_cons_self, ?_⟩
          simp only [List.mem_singleton] at ht
          subst ht
          cases w <;> exact hk
      | other _ k hk _ =>
        right
        simp only [List.mem_singleton] at ht
        subst ht
        exact ⟨a, by simp, hk⟩
    · rcases ih t ht with h | ⟨b, hb, hm⟩
      · exact .inl h
      · exact .inr ⟨b, by simp [hb], hm⟩

/-- A property of actions that their tasks inherit, at every depth. -/
inductive Action.All (Q : Action → Prop) : Action → Prop
  | mk (a : Action) (h : Q a) (hc : ∀ head svc var msg acts, a = .grpc head svc var msg acts →
      ∀ b ∈ acts, Action.All Q b) : Action.All Q a

theorem Action.All.here {Q a} (h : Action.All Q a) : Q a := by cases h; assumption

theorem Action.All.sub {Q head svc var msg acts} (h : Action.All Q (.grpc head svc var msg acts)) :
    ∀ b ∈ acts, Action.All Q b := by
  cases h with
  | mk _ _ hc => exact hc _ _ _ _ _ rfl

theorem Made.all {Q : Action → Prop} {P : Core → Prop} (hQP : ∀ a k, Q a → Made a k → P k)
    {a : Action} {k : Core} (h : Made a k) (ha : Action.All Q a) : Core.All P k := by
  induction h with
  | call head kind svc deny var msg acts kids hid hk ih =>
    refine .mk _ (hQP _ _ ha.here (.call _ _ _ _ _ _ _ _ hid hk)) ?_
    intro k hm
    obtain ⟨b, hb, hz⟩ := zip_partner hid hm
    exact ih _ hz (ha.sub b hb)
  | _ =>
    refine .mk _ (hQP _ _ ha.here (by constructor)) (by simp [Core.children])

theorem action_all_true (a : Action) : Action.All (fun _ => True) a := by
  have : ∀ n (a : Action), sizeOf a ≤ n → Action.All (fun _ => True) a := by
    intro n
    induction n with
    | zero => intro a h; cases a <;> simp at h
    | succ n ih =>
      intro a h
      refine .mk a trivial ?_
      rintro head svc var msg acts rfl b hb
      refine ih b ?_
      have := List.sizeOf_lt_of_mem hb
      simp only [Action.grpc.sizeOf_spec] at h
      omega
  exact this _ a (Nat.le_refl _)

theorem Made.kidsReady {a : Action} {k : Core} (h : Made a k) : Core.All kidsReady k := by
  refine h.all (Q := fun _ => True) ?_ (action_all_true a)
  intro a k _ hm c hc
  cases hm with
  | call head kind svc deny var msg acts kids hid hk =>
    obtain ⟨b, _, hz⟩ := zip_partner hid hc
    exact (hk _ hz).waits
  | _ => simp [Core.children] at hc

/-- A pipeline as it is built. -/
structure Built (c : Ctx H) (b : Blueprint) (p : Pipe H) : Prop where
  tops : Tops b.actions p.queue
  quiet : Quiet c p.ctx
  deferred : p.deferred = []
  completed : p.completed = []
  term : p.terminated = false

theorem build_built (f : Factory) (c : Ctx H) (p : Pipe H) (h : f.build o c = .pipeline p) :
    ∃ b, (f.select o c).1 = .found b ∧ Built c b p := by
  unfold Factory.build at h
  have hq := select_quiet o f c
  split at h
  · simp at h
  · simp at h
  · rename_i b c1 heq
    rw [heq] at hq ⊢
    dsimp only at h
    split at h
    · simp at h
    · rename_i ts td c2 heq2
      obtain ⟨h1, h2⟩ := tasksLoop_tops o _ _ _ _ _ _ _ heq2
      split at h
      · simp at h
      · simp only [Build.pipeline.injEq] at h
        subst h
        exact ⟨b, rfl, h1, hq.trans (((Quiet.refl c1).withHost _).trans h2), rfl, rfl, rfl⟩

theorem build_log (f : Factory) (c : Ctx H) :
    (∀ c', f.build o c = .noMatch c' → c'.log = c.log) ∧
    (∀ c', f.build o c = .error c' → c'.log = c.log) := by
  unfold Factory.build
  have hq := select_quiet o f c
  split
  · rename_i heq; rw [heq] at hq
    refine ⟨by simp, ?_⟩
    intro c' h; cases h; exact hq.log
  · rename_i heq; rw [heq] at hq
    refine ⟨?_, by simp⟩
    intro c' h; cases h; exact hq.log
  · rename_i b c1 heq
    rw [heq] at hq
    dsimp only
    split
    · simp
    · rename_i ts td c2 heq2
      obtain ⟨_, h2⟩ := tasksLoop_tops o _ _ _ _ _ _ _ heq2
      split
      · refine ⟨?_, by simp⟩
        intro c' h; cases h
        exact (hq.trans (((Quiet.refl c1).withHost _).trans h2)).log
      · simp

/-- `P` holds of all tasks of a new pipeline if the actions have a property that implies it. -/
theorem built_tasks {c : Ctx H} {b : Blueprint} {p : Pipe H} (h : Built c b p) {Q : Action → Prop}
    {P : Core → Prop} (hQP : ∀ a k, Q a → Made a k → P k) (htok : ∀ fields, P (.tokenUsage none fields))
    (hb : ∀ a ∈ b.actions, Action.All Q a) : Tasks P p [] := by
  intro t ht
  simp only [Pipe.tasks, h.deferred, List.append_nil, List.map_nil] at ht
  rcases h.tops.mem t ht with ⟨fields, rfl⟩ | ⟨a, ha, hm⟩
  · exact .mk _ (htok fields) (by simp [PTask.strip, Core.children])
  · exact hm.all hQP (hb a ha)

theorem built_live {host : H} {b : Blueprint} {p : Pipe H} (h : Built ({ host := host } : Ctx H) b p) :
    Live p [] where
  slot := h.quiet.grpc
  ended := by rw [h.quiet.log]; simp
  term := h.term
  queueW := by
    intro t ht
    simp only [List.append_nil] at ht
    rcases h.tops.mem t ht with ⟨fields, rfl⟩ | ⟨a, ha, hm⟩
    · rfl
    · exact hm.waits
  deferW := by rw [h.deferred]; simp
  kids := by
    intro t ht
    simp only [Pipe.tasks, h.deferred, List.append_nil, List.map_nil] at ht
    rcases h.tops.mem t ht with ⟨fields, rfl⟩ | ⟨a, ha, hm⟩
    · exact .mk _ (by simp [kidsReady, PTask.strip, Core.children]) (by simp [PTask.strip, Core.children])
    · exact hm.kidsReady
  calls := by intro _; rw [h.quiet.log, h.deferred]; rfl
  barrier := by intro _; rw [h.quiet.log, h.quiet.barrier]; rfl

end Verif
