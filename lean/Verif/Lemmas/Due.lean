import Verif.Lemmas.Cause
import Verif.Lemmas.Restart
import Verif.Spec.Due
import Verif.Model.Turns
/-! Which tasks exist, by the history. -/
set_option linter.unusedSimpArgs false
namespace Verif
open Spec

variable {H : Type} {o : Oracle H}

attribute [local irreducible] Core.count countList

/-- What applying a task does to the set of tasks. -/
inductive Stepped (t : PTask) : Outcome → List Effect → Prop
  | again (t' : PTask) (hw : t.strip.waits = false) (h : Again t.strip t'.strip) : Stepped t (.requeued [t']) []
  | sent (tok : Nat) (t' : PTask) (g svc bytes rid) (hw : t.strip.waits = false) (hw' : t'.strip.waits = true)
      (hid : t'.strip.id = t.strip.id) (hc : t'.strip.children = t.strip.children) :
      Stepped t (.deferred tok t') [.dispatch t.id g tok svc bytes rid]
  | replies (ts : List PTask) (hw : t.strip.waits = true) (h : ts.map PTask.strip = t.strip.children) :
      Stepped t (.requeued ts) []
  | over (out : Outcome) (es : List Effect) (ho : out = .done ∨ out = .failed) (hl : ∀ e ∈ es, e.isLocal = true)
      (hc : ∀ y, .callFailed y ∈ es → y = t.id)
      (hr : t.strip.waits = true → t.strip.children ≠ [] → .callFailed t.id ∈ es) : Stepped t out es
  | stop (t' : PTask) (es : List Effect) : Stepped t (.terminate t') es

theorem stepped {t : PTask} {out : Outcome} {es : List Effect} (h : TDoes t out es) : Stepped t out es := by
  induction h with
  | @core k out es h =>
    cases h with
    | done _ hw => exact .over _ _ (.inl rfl) (by simp) (by simp) (by intro h; rw [PTask.strip, hw] at h; cases h)
    | again _ k' ha hw => exact .again (.core k') hw ha
    | failed _ _ hw => exact .over _ _ (.inr rfl) (by simp) (by simp) (by intro h; rw [PTask.strip, hw] at h; cases h)
    | sent => exact .sent _ _ _ _ _ _ rfl rfl rfl rfl
    | callFailed k hk =>
      refine .over _ _ (.inr rfl) (by simp [Effect.isLocal]) ?_ fun _ _ => by simp [PTask.id]
      intro y hy
      simpa [PTask.id] using hy
    | replied id pred e terminal =>
      cases terminal
      · exact .over _ _ (.inl rfl) (by simp [Effect.isLocal]) (by simp) (by intro h; cases h)
      · exact .stop _ _
    | refused => exact .over _ _ (.inr rfl) (by simp [Effect.isLocal]) (by simp) (by intro h; cases h)
    | headers id pred e target terminal =>
      cases terminal
      · exact .over _ _ (.inl rfl) (by simp [Effect.isLocal]) (by simp) (by intro h; cases h)
      · exact .stop _ _
    | stored id pred e path x terminal s v pre hp =>
      cases terminal
      · refine .over _ _ (.inl rfl) ?_ ?_ (by intro h; cases h)
        · rcases hp with ⟨rfl, _⟩ | ⟨b, w, rfl, _⟩ <;> simp [Effect.isLocal]
        · rcases hp with ⟨rfl, _⟩ | ⟨b, w, rfl, _⟩ <;> simp
      · exact .stop _ _
    | fails => exact .stop _ _
    | answered => exact .over _ _ (.inl rfl) (by simp) (by simp) fun _ h => absurd rfl h
    | replies id guard svc var onReply h =>
      refine .replies _ rfl ?_
      rw [List.map_map]
      show onReply.map _ = onReply
      exact List.map_id onReply
    | dropped => exact .over _ _ (.inl rfl) (by simp) (by simp) fun _ h => absurd rfl h
  | abort => exact .stop _ _
  | @allow t es h ih =>
    cases ih with
    | over _ _ ho hl hc hr =>
      refine .over _ _ (.inl rfl) ?_ ?_ ?_
      · intro e he
        rcases List.mem_append.1 he with he | he
        · exact hl e he
        · rw [List.mem_singleton.1 he]; rfl
      · intro y hy
        refine hc y ?_
        simpa using hy
      · intro h1 h2
        exact List.mem_append_left _ (hr h1 h2)
  | sent h ih =>
    cases ih with
    | sent tok t' g svc bytes rid hw hw' hid hc => exact .sent _ _ _ _ _ _ hw hw' hid hc
    | over _ _ ho => rcases ho with ho | ho <;> cases ho
  | done h ih =>
    cases ih with
    | over _ _ ho hl hc hr => exact .over _ _ ho hl hc hr
  | again h ih =>
    cases ih with
    | again t' hw ha => exact .again t' hw ha
    | replies _ hw ha => exact .replies _ hw ha
    | over _ _ ho => rcases ho with ho | ho <;> cases ho
  | stop => exact .stop _ _
  | tracing h ih =>
    cases ih with
    | again t' hw ha => exact .again (.tracing t') hw ha
    | sent tok t' g svc bytes rid hw hw' hid hc => exact .sent _ (.tracing t') _ _ _ _ hw hw' hid hc
    | replies ts hw ha =>
      refine .replies _ hw ?_
      rw [List.map_map]
      exact ha
    | over _ _ ho hl hc hr =>
      rcases ho with rfl | rfl
      · exact .over _ _ (.inl rfl) hl hc hr
      · exact .over _ _ (.inr rfl) hl hc hr
    | stop => exact .stop _ _

/-- Predicates that survive the execution of tasks before an early end. -/
structure Lasting (P : Core → Prop) : Prop where
  again : ∀ k k', P k → Again k k' → P k'
  sent : ∀ id deps guard pred msg var svc r, P (.grpc id deps guard pred msg var svc r) →
    P (.pending id guard svc var r)
  noop : ∀ n guard, P (.noop (Pipe.teardownId n) guard)

theorem Res.lasting {P : Core → Prop} (hP : Lasting P) {k : Core} {c c' : Ctx H} {out : Outcome}
    (h : Res k c out c') (hk : Core.All P k) : ∀ t ∈ out.tasks, Core.All P t.strip := by
  cases h with
  | plain es hw hx hl ho =>
    cases ho with
    | requeued t ha =>
      intro t' ht
      simp only [Outcome.tasks, List.mem_singleton] at ht
      subst ht
      refine .mk _ (hP.again _ _ hk.here ha) ?_
      generalize t'.strip = k' at ha
      cases ha with
      | same => exact hk.sub
      | store => simp [Core.children]
      | tokenUsage => simp [Core.children]
    | _ => simp [Outcome.tasks]
  | sent id deps guard pred msg var svc onReply token bytes rid p hk' hp hx hr =>
    intro t' ht
    simp only [Outcome.tasks, List.mem_singleton] at ht
    subst ht hk'
    rw [hp]
    exact .mk _ (hP.sent _ _ _ _ _ _ _ _ hk.here) hk.sub
  | answered id guard svc var onReply es hk' hx hl ho =>
    cases ho with
    | requeued ts ha =>
      intro t' ht
      subst hk'
      refine hk.sub t'.strip ?_
      simp only [Core.children, ← ha]
      exact List.mem_map_of_mem ht
    | _ => simp [Outcome.tasks]
  | dropped => simp [Outcome.tasks]

theorem torn_deferred (p : Pipe H) (hd : p.deferred = []) :
    ∀ e ∈ (p.executeTeardown o).deferred, ∃ n g, e.2 = .core (.noop (Pipe.teardownId n) g) := by
  refine executeTeardown_ind o (fun q => ∀ e ∈ q.deferred, ∃ n g, e.2 = .core (.noop (Pipe.teardownId n) g)) p ?_ ?_
  · intro e he
    simp [Pipe.replaceNoop, hd] at he
  · intro q u hq
    unfold Pipe.runTeardownAction
    dsimp only
    split
    · exact hq
    · intro e he
      rcases mem_mapInsert he with rfl | he
      · exact ⟨_, _, rfl⟩
      · exact hq e he

theorem lasting_extra {P : Core → Prop} (hP : Lasting P) :
    Extra o (fun p : Pipe H => Tasks P p) (fun _ => True) (fun _ => True) where
  opens p _ h := by
    intro x hx
    refine h x ?_
    simpa [Pipe.tasks] using hx
  skip p t ts _ h _ := tasks_skip p t ts h
  go p t ts out c es _ h _ ha _ _ _ := by
    have h1 := apply_res o (p.ctx.push (.applied t.id)) t
    rw [ha] at h1
    exact tasks_after p t ts out c h (h1.lasting hP (h t (by simp [Pipe.tasks]))) t.id
  stop _ _ _ _ _ _ _ _ _ _ _ _ := trivial
  tear p _ h hq hd := by
    intro t ht
    simp only [Pipe.tasks, (tornDown (o := o) p).queue, hq, List.append_nil, List.nil_append, List.mem_map] at ht
    obtain ⟨e, he, rfl⟩ := ht
    obtain ⟨n, g, hn⟩ := torn_deferred (o := o) p hd e he
    rw [hn]
    exact .mk _ (hP.noop n g) (by simp [PTask.strip, Core.children])
  bury _ _ _ := trivial
  late _ _ _ _ _ h _ := h
  answer p token s z t out c es _ h hg ha _ _ _ := by
    have hr := apply_res o (p.answering token s z).ctx t
    rw [ha] at hr
    have hq : ∀ x ∈ p.queue, Core.All P x.strip := fun x hx => h x (by simp [Pipe.tasks, hx])
    have hd : ∀ e ∈ p.deferred, Core.All P e.2.strip := fun e he =>
      h e.2 (by simp only [Pipe.tasks, List.mem_append, List.mem_map]; exact .inr ⟨e, he, rfl⟩)
    have hall := hr.lasting hP (hd _ (mapGet_mem hg))
    have hd' : ∀ e ∈ (p.answering token s z).deferred, Core.All P e.2.strip := fun e he =>
      hd e (List.mem_filter.1 he).1
    intro x hx
    simp only [Pipe.tasks, List.append_nil, List.mem_append, List.mem_map] at hx
    cases out with
    | requeued ts =>
      rcases hx with hx | ⟨e, he, rfl⟩
      · rcases List.mem_append.1 hx with hx | hx
        · exact hall x hx
        · exact hq x hx
      · exact hd' e he
    | deferred tok t' =>
      rcases hx with hx | ⟨e, he, rfl⟩
      · exact hq x hx
      · rcases mem_mapInsert he with rfl | he
        · exact hall t' (by simp [Outcome.tasks])
        · exact hd' e he
    | _ =>
      rcases hx with hx | ⟨e, he, rfl⟩
      · exact hq x hx
      · exact hd' e he
  answerStop _ _ _ _ _ _ _ _ _ _ _ _ _ _ := trivial
  frame _ _ _ h _ := h
  frameD _ _ _ _ _ := trivial
  lateD _ _ _ _ _ _ _ := trivial
  answerD _ _ _ _ _ _ _ _ _ := trivial

/-- The tasks of action `b` are calls with a reply action `x`, and `x` is a reply action of nothing else. -/
def Link (b x : Text) (k : Core) : Prop :=
  (k.id = b → k.isCall = true ∧ ∃ c ∈ k.children, c.id = x) ∧ ∀ c ∈ k.children, c.id = x → k.id = b

theorem link_lasting {b x : Text} (hb : ∀ n, Pipe.teardownId n ≠ b) : Lasting (Link b x) where
  again k k' h ha := by
    cases ha with
    | same => exact h
    | store => exact ⟨fun hid => by have := (h.1 hid).1; simp [Core.isCall] at this, by simp [Core.children]⟩
    | tokenUsage => exact ⟨fun hid => by have := (h.1 hid).1; simp [Core.isCall] at this, by simp [Core.children]⟩
  sent id deps guard pred msg var svc r h := ⟨fun hid => ⟨rfl, (h.1 hid).2⟩, h.2⟩
  noop n g := ⟨fun hid => absurd hid (hb n), by simp [Core.children]⟩

/-- A reply action of nothing. -/
def Rootless (x : Text) (k : Core) : Prop := ∀ c ∈ k.children, c.id ≠ x

theorem rootless_lasting {x : Text} : Lasting (Rootless x) where
  again k k' h ha := by
    cases ha with
    | same => exact h
    | store => simp [Rootless, Core.children]
    | tokenUsage => simp [Rootless, Core.children]
  sent id deps guard pred msg var svc r h := h
  noop n g := by simp [Rootless, Core.children]

theorem countList_zero {x : Text} {l : List Core} (h : ∀ k ∈ l, k.count x = 0) : countList x l = 0 := by
  induction l with
  | nil => exact countList_nil x
  | cons k l ih =>
    rw [countList_cons, h k (by simp), ih fun y hy => h y (by simp [hy])]

theorem count_of_all {x : Text} {k : Core} (h : Core.All (fun y => y.id ≠ x) k) : k.count x = 0 := by
  induction h with
  | mk k hp hs ih => rw [Core.count_eq, if_neg hp, countList_zero ih]

theorem link_down {b x : Text} {k : Core} (h : Core.All (Link b x) k) (hc : k.count b ≠ 0) : k.count x ≠ 0 := by
  have key : Core.All (fun y => y.id ≠ x) k → Core.All (fun y => y.id ≠ b) k := by
    intro hx
    clear hc
    induction h with
    | mk k hp hs ih =>
      refine .mk k ?_ fun c hc' => ih c hc' (hx.sub c hc')
      intro hid
      obtain ⟨_, c, hc1, hc2⟩ := hp.1 hid
      exact (hx.sub c hc1).here hc2
  exact fun hx => hc (count_of_all (key (count_zero_all hx)))

theorem link_up {b x : Text} {k : Core} (h : Core.All (Link b x) k) (hc : k.count x ≠ 0) :
    k.id = x ∨ k.count b ≠ 0 := by
  have key : Core.All (fun y => y.id ≠ b) k → k.id ≠ x → Core.All (fun y => y.id ≠ x) k := by
    clear hc
    induction h with
    | mk k hp hs ih =>
      intro hb hx
      exact .mk k hx fun c hc' => ih c hc' (hb.sub c hc') fun hid => hb.here (hp.2 c hc' hid)
  by_cases hx : k.id = x
  · exact .inl hx
  · exact .inr fun hb => hc (count_of_all (key (count_zero_all hb) hx))

theorem rootless_count {x : Text} {k : Core} (h : Core.All (Rootless x) k) (hc : k.count x ≠ 0) : k.id = x := by
  have key : k.id ≠ x → Core.All (fun y => y.id ≠ x) k := by
    clear hc
    induction h with
    | mk k hp hs ih => exact fun hx => .mk k hx fun c hc' => ih c hc' (hp c hc')
  exact Decidable.byContradiction fun hx => hc (count_of_all (key hx))

/-- A call of the action was sent. -/
def SentIn (log : List Effect) (id : Text) : Prop :=
  ∃ guard token svc bytes rid, Effect.dispatch id guard token svc bytes rid ∈ log

theorem settles_pos {x : Text} {log : List Effect} : 1 ≤ log.countP (settles x) ↔ Concluded log x := by
  rw [Nat.one_le_iff_ne_zero, ← Nat.pos_iff_ne_zero, List.countP_pos_iff]
  constructor
  · rintro ⟨e, he, hs⟩
    cases e <;> simp [settles] at hs <;> subst hs
    · exact .inl he
    · exact .inr he
  · rintro (h | h)
    · exact ⟨_, h, by simp [settles]⟩
    · exact ⟨_, h, by simp [settles]⟩

/-- The state of action `b` with the reply action `x`: what the history says, and how many tasks there are. -/
structure Joined (b x : Text) (log : List Effect) (pb px : Nat) : Prop where
  lb : log.countP (settles b) + pb ≤ 1
  lx : log.countP (settles x) + px ≤ 1
  cf : .callFailed b ∈ log → 1 ≤ log.countP (settles b)
  gone : pb = 0 → ¬WellAnswered log b → px = 0
  kept : WellAnswered log b → 1 ≤ log.countP (settles x) + px

/-- What is recorded when a task is through. -/
def closing (t : PTask) : Outcome → List Effect
  | .done => [.completed t.id]
  | .failed => [.failed t.id]
  | .requeued _ => if t.strip.waits then [.completed t.id] else []
  | _ => []

theorem completed_local {es : List Effect} (h : ∀ e ∈ es, e.isLocal = true) (x : Text) : Effect.completed x ∉ es :=
  fun hm => Bool.noConfusion (h _ hm)

theorem sent_local {es : List Effect} (h : ∀ e ∈ es, e.isLocal = true) (x : Text) : ¬SentIn es x := by
  rintro ⟨g, tok, svc, by', rid, hm⟩
  exact Bool.noConfusion (h _ hm)

theorem sent_append {a b : List Effect} {x : Text} : SentIn (a ++ b) x ↔ SentIn a x ∨ SentIn b x := by
  constructor
  · rintro ⟨g, tok, svc, by', rid, hm⟩
    rcases List.mem_append.1 hm with hm | hm
    · exact .inl ⟨g, tok, svc, by', rid, hm⟩
    · exact .inr ⟨g, tok, svc, by', rid, hm⟩
  · rintro (⟨g, tok, svc, by', rid, hm⟩ | ⟨g, tok, svc, by', rid, hm⟩)
    · exact ⟨g, tok, svc, by', rid, List.mem_append_left _ hm⟩
    · exact ⟨g, tok, svc, by', rid, List.mem_append_right _ hm⟩

theorem well_append {a b : List Effect} {x : Text} : WellAnswered (a ++ b) x ↔
    (SentIn a x ∨ SentIn b x) ∧ (.completed x ∈ a ∨ .completed x ∈ b) ∧ .callFailed x ∉ a ∧ .callFailed x ∉ b := by
  have : WellAnswered (a ++ b) x ↔ SentIn (a ++ b) x ∧ .completed x ∈ a ++ b ∧ .callFailed x ∉ a ++ b := Iff.rfl
  rw [this, sent_append, List.mem_append, List.mem_append]
  constructor
  · rintro ⟨h1, h2, h3⟩; exact ⟨h1, h2, fun h => h3 (.inl h), fun h => h3 (.inr h)⟩
  · rintro ⟨h1, h2, h3, h4⟩; exact ⟨h1, h2, fun h => h.elim h3 h4⟩

/-- Effects that say nothing about calls and results. -/
def Effect.still : Effect → Bool
  | .applied _ => true
  | .responded .. => true
  | .teardown => true
  | .exported _ => true
  | .returned .. => true
  | .resumeRequest => true
  | .resumeResponse => true
  | .allowed => true
  | .hits => true
  | _ => false

theorem well_aside {a b : List Effect} {x : Text} (h : ∀ e ∈ b, e.still = true) :
    WellAnswered (a ++ b) x ↔ WellAnswered a x := by
  have h1 : ¬SentIn b x := by rintro ⟨g, tok, svc, by', rid, hm⟩; exact Bool.noConfusion (h _ hm)
  have h2 : Effect.completed x ∉ b := fun hm => Bool.noConfusion (h _ hm)
  have h3 : Effect.callFailed x ∉ b := fun hm => Bool.noConfusion (h _ hm)
  rw [well_append]
  constructor
  · rintro ⟨h4, h5, h6, _⟩; exact ⟨h4.resolve_right h1, h5.resolve_right h2, h6⟩
  · rintro ⟨h4, h5, h6⟩; exact ⟨.inl h4, .inl h5, h6, h3⟩

theorem settles_aside {b : List Effect} {x : Text} (h : ∀ e ∈ b, e.still = true) : b.countP (settles x) = 0 := by
  rw [List.countP_eq_zero]
  intro e he
  have := h e he
  cases e <;> simp_all [Effect.still, settles]

theorem joined_aside {b x : Text} {L es : List Effect} {pb px : Nat} (hes : ∀ e ∈ es, e.still = true)
    (h : Joined b x L pb px) : Joined b x (L ++ es) pb px where
  lb := by rw [List.countP_append, settles_aside hes]; exact h.lb
  lx := by rw [List.countP_append, settles_aside hes]; exact h.lx
  cf hm := by
    rw [List.countP_append, settles_aside hes]
    rcases List.mem_append.1 hm with hm | hm
    · exact h.cf hm
    · exact Bool.noConfusion (hes _ hm)
  gone hp hn := h.gone hp fun hw => hn ((well_aside hes).2 hw)
  kept hw := by
    rw [List.countP_append, settles_aside hes]
    exact h.kept ((well_aside hes).1 hw)

theorem joined_step {b x : Text} {L : List Effect} {t : PTask} {out : Outcome} {es : List Effect} {rb rx : Nat}
    (hst : Stepped t out es) (hs : out.stops = false)
    (h : Joined b x L (t.strip.count b + rb) (t.strip.count x + rx))
    (hlink : Core.All (Link b x) t.strip) (hover : SentIn L b → t.id = b → t.strip.waits = true)
    (hdef : t.strip.waits = true → t.id = b → SentIn L b)
    (hlb : (L ++ es ++ closing t out).countP (settles b) + (poolCount b out.tasks + rb) ≤ 1)
    (hlx : (L ++ es ++ closing t out).countP (settles x) + (poolCount x out.tasks + rx) ≤ 1) :
    Joined b x (L ++ es ++ closing t out) (poolCount b out.tasks + rb) (poolCount x out.tasks + rx) := by
  have hid : t.strip.id = t.id := strip_id t
  have hcb : t.strip.count b = (if t.id = b then 1 else 0) + countList b t.strip.children := by
    rw [Core.count_eq, hid]
  have hcx : t.strip.count x = (if t.id = x then 1 else 0) + countList x t.strip.children := by
    rw [Core.count_eq, hid]
  have hdown := link_down hlink
  have hup := link_up hlink
  have done_b : Effect.completed b ∈ L → 1 ≤ L.countP (settles b) := fun hm => settles_pos.2 (.inl hm)
  have hjl := h.lb
  have hjx := h.lx
  cases hst with
  | again t' hw ha =>
    have hcl : closing t (.requeued [t']) = [] := by simp [closing, hw]
    have h1 : ∀ y, poolCount y (Outcome.requeued [t']).tasks = t.strip.count y := by
      intro y
      rw [Outcome.tasks, poolCount_cons, poolCount_nil, ha.count]; omega
    rw [hcl, List.append_nil, List.append_nil, h1, h1]
    exact h
  | sent tok t' g svc by' rid hw hw' hid' hc' =>
    have hcl : closing t (.deferred tok t') = [] := rfl
    have h1 : ∀ y, poolCount y (Outcome.deferred tok t').tasks = t.strip.count y := by
      intro y
      rw [Outcome.tasks, poolCount_cons, poolCount_nil, Core.count_eq, Core.count_eq y t.strip, hid', hc']; omega
    rw [hcl, List.append_nil, h1] at hlb hlx
    rw [hcl, List.append_nil, h1, h1]
    have hset : ∀ y, (L ++ [Effect.dispatch t.id g tok svc by' rid]).countP (settles y) = L.countP (settles y) := by
      intro y; rw [List.countP_append]; rfl
    refine ⟨hlb, hlx, ?_, ?_, ?_⟩
    · intro hm
      rw [hset]
      exact h.cf (by simpa using hm)
    · intro hp hn
      refine h.gone hp fun hw => hn (well_append.2 ⟨.inl hw.1, .inl hw.2.1, hw.2.2, by simp⟩)
    · intro hwa
      rw [hset]
      obtain ⟨h2, h3, h4, _⟩ := well_append.1 hwa
      have h3 : Effect.completed b ∈ L := by simpa using h3
      refine h.kept ⟨?_, h3, h4⟩
      rcases h2 with h2 | ⟨g', tok', svc', by'', rid', h2⟩
      · exact h2
      · simp only [List.mem_singleton, Effect.dispatch.injEq] at h2
        have hb := done_b h3
        rw [if_pos h2.1.symm] at hcb
        omega
  | replies ts hw ha =>
    have hcl : closing t (.requeued ts) = [.completed t.id] := by simp [closing, hw]
    have h1 : ∀ y, poolCount y (Outcome.requeued ts).tasks = countList y t.strip.children := by
      intro y
      rw [Outcome.tasks, poolCount, ha]
    rw [hcl, List.append_nil, h1] at hlb hlx
    rw [hcl, List.append_nil, h1, h1]
    have hset : ∀ y, (L ++ [Effect.completed t.id]).countP (settles y)
        = L.countP (settles y) + if t.id = y then 1 else 0 := by
      intro y; rw [List.countP_append, List.countP_singleton]; simp [settles]
    refine ⟨hlb, hlx, ?_, ?_, ?_⟩
    · intro hm
      rw [hset]
      have := h.cf (by simpa using hm)
      omega
    · intro hp hn
      by_cases hb : t.id = b
      · refine absurd ?_ hn
        refine well_append.2 ⟨.inl (hdef hw hb), .inr (by simp [hb]), fun hm => ?_, by simp⟩
        have := h.cf hm
        rw [if_pos hb] at hcb
        omega
      · rw [if_neg hb] at hcb
        have := h.gone (by omega) fun hwa => hn (well_append.2 ⟨.inl hwa.1, .inl hwa.2.1, hwa.2.2, by simp⟩)
        omega
    · intro hwa
      rw [hset]
      by_cases hb : t.id = b
      · obtain ⟨_, c, hc1, hc2⟩ := hlink.here.1 (hid.trans hb)
        have h2 := countList_mem (x := x) hc1
        have h3 := Core.count_eq x c
        rw [if_pos hc2] at h3
        omega
      · obtain ⟨h2, h3, h4, _⟩ := well_append.1 hwa
        have := h.kept ⟨h2.resolve_right (by rintro ⟨_, _, _, _, _, hm⟩; simp at hm),
          h3.resolve_right (by simp; exact fun e => hb e.symm), h4⟩
        split at hcx <;> simp_all <;> omega
  | over _ _ ho hl hc hr =>
    have h1 : ∀ y, poolCount y out.tasks = 0 := by
      intro y
      rcases ho with rfl | rfl <;> exact poolCount_nil y
    have hcl : ∃ e, closing t out = [e] ∧ (∀ y, settles y e = decide (t.id = y)) ∧ (∀ y, .callFailed y ≠ e) ∧
        (∀ y, .completed y = e → y = t.id) ∧ ∀ i g tok svc by' rid, Effect.dispatch i g tok svc by' rid ≠ e := by
      rcases ho with rfl | rfl
      · exact ⟨_, rfl, fun y => rfl, by simp, fun y h => by simpa using h, by simp⟩
      · exact ⟨_, rfl, fun y => rfl, by simp, fun y h => by simp at h, by simp⟩
    obtain ⟨e, hcl, he1, he2, he3, he4⟩ := hcl
    rw [hcl, h1] at hlb hlx
    rw [hcl, h1, h1]
    have hset : ∀ y, (L ++ es ++ [e]).countP (settles y) = L.countP (settles y) + if t.id = y then 1 else 0 := by
      intro y
      rw [List.countP_append, List.countP_append, settles_local hl, List.countP_singleton, he1]
      simp
    refine ⟨hlb, hlx, ?_, ?_, ?_⟩
    · intro hm
      rw [hset]
      simp only [List.mem_append, List.mem_singleton] at hm
      rcases hm with (hm | hm) | hm
      · have := h.cf hm; omega
      · rw [if_pos (hc b hm).symm]; omega
      · exact absurd hm (he2 b)
    · intro hp hn
      by_cases hb : t.strip.count b = 0
      · have := h.gone (by omega) fun hwa => hn ?_
        · omega
        · refine well_append.2 ⟨.inl (sent_append.2 (.inl hwa.1)), .inl (List.mem_append_left _ hwa.2.1), ?_, ?_⟩
          · intro hm
            rcases List.mem_append.1 hm with hm | hm
            · exact hwa.2.2 hm
            · rw [if_pos (hc b hm).symm] at hcb; omega
          · intro hm; exact he2 b (List.mem_singleton.1 hm)
      · have := hdown hb
        omega
    · intro hwa
      rw [hset]
      obtain ⟨h2, h3, h4, _⟩ := well_append.1 hwa
      have h2 : SentIn L b := by
        rcases h2 with h2 | ⟨_, _, _, _, _, h2⟩
        · exact (sent_append.1 h2).resolve_right (sent_local hl b)
        · exact (he4 _ _ _ _ _ _ (List.mem_singleton.1 h2)).elim
      have h4 : Effect.callFailed b ∉ L ∧ Effect.callFailed b ∉ es :=
        ⟨fun hm => h4 (List.mem_append_left _ hm), fun hm => h4 (List.mem_append_right _ hm)⟩
      have h3 : Effect.completed b ∈ L ∨ t.id = b := by
        rcases h3 with h3 | h3
        · exact .inl ((List.mem_append.1 h3).resolve_right (completed_local hl b))
        · exact .inr (he3 b (List.mem_singleton.1 h3)).symm
      by_cases hb : t.id = b
      · have hw := hover h2 hb
        obtain ⟨_, c, hc1, hc2⟩ := hlink.here.1 (hid.trans hb)
        have := hr hw (List.ne_nil_of_mem hc1)
        rw [hb] at this
        exact absurd this h4.2
      · have h3 := h3.resolve_right hb
        have h5 := h.kept ⟨h2, h3, h4.1⟩
        have h6 := done_b h3
        by_cases hx : t.strip.count x = 0
        · omega
        · rcases hup hx with hx | hx
          · rw [hid] at hx; rw [if_pos hx]; omega
          · omega
  | stop => simp [Outcome.stops] at hs

end Verif
