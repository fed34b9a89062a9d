import Verif.Lemmas.Turns
/-! The tasks of a request are the actions still to come. -/
set_option linter.unusedSimpArgs false
namespace Verif
open Spec

variable {H : Type} {o : Oracle H}

attribute [local irreducible] Core.count countList

theorem Closed.lasting {P : Core → Prop} (h : Closed P) : Lasting P where
  again := h.again
  sent := h.sent
  noop n g := h.noop _ g

theorem Made.count_self {a : Action} {k : Core} (h : Made a k) : 1 ≤ k.count a.head.id := by
  rw [Core.count_eq, h.id, if_pos rfl]; omega

theorem tops_self {as : List Action} {ts : List PTask} (h : Tops as ts) {a : Action} (ha : a ∈ as) :
    1 ≤ poolCount a.head.id ts := by
  induction h with
  | nil => cases ha
  | cons a' as ts ts' h hs ih =>
    rw [poolCount_append]
    rcases List.mem_cons.1 ha with rfl | ha
    · have : 1 ≤ poolCount a.head.id ts := by
        cases h with
        | call head kind svc deny var msg acts k pre w hk hp =>
          rw [poolCount_append]
          have h1 := hk.count_self
          have h2 : poolCount (Action.grpc head (.call kind svc deny) var msg acts).head.id
              [if w = true then PTask.tracing (.failureMode (.core k) deny) else .failureMode (.core k) deny] =
              k.count (Action.grpc head (.call kind svc deny) var msg acts).head.id := by
            rw [poolCount_cons, poolCount_nil]
            cases w <;> rfl
          omega
        | other a k hk =>
          rw [poolCount_cons, poolCount_nil]
          have := hk.count_self
          show 1 ≤ k.count _ + 0
          omega
      omega
    · have := ih ha
      omega

/-- The task of a top-level action is there from the beginning. -/
theorem fromSet_there {parse : Text → Option Expr} {cfg : PluginConfig} {s : ActionSet} {b : Blueprint} {c : Ctx H}
    {p : Pipe H} (hb : Built c b p) (hfs : FromSet parse cfg s b) {i : Nat} {a : ActionConfig}
    (ha : s.actions[i]? = some a) : 1 ≤ poolCount (natText i) (p.tasks []) := by
  have : p.tasks [] = p.queue := by simp [Pipe.tasks, hb.deferred]
  rw [this]
  obtain ⟨xs, hxs, hc⟩ := hfs.actions
  obtain ⟨hl, hr⟩ := compileLoop_compiled parse cfg.services 0 _ xs hc
  have hlen : (s.actions.zip (computeDeps s.actions)).length = s.actions.length := by
    rw [List.length_zip, computeDeps_length]
    omega
  obtain ⟨hi, _⟩ := List.getElem?_eq_some_iff.1 ha
  have hi1 : i < (s.actions.zip (computeDeps s.actions)).length := by omega
  have hi2 : i < xs.length := by omega
  obtain ⟨t, y, hst, hco, heq⟩ := hr i _ _ xs[i] (List.getElem?_eq_getElem hi1) (by simp [hi2])
  have h1 := tops_self hb.tops (a := xs[i]) (by rw [hxs]; exact List.mem_append_left _ (List.getElem_mem hi2))
  rw [heq, withDeps_id, hco.head_id, Nat.zero_add] at h1
  exact h1

/-- Every action of the set was compiled. -/
theorem fromSet_compiled {parse : Text → Option Expr} {cfg : PluginConfig} {s : ActionSet} {b : Blueprint}
    (hfs : FromSet parse cfg s b) {x : Text} {t : TypedAction} (hat : At cfg.services s x t) :
    ∃ y, Compiled parse cfg.services x t y := by
  induction hat with
  | @top i a t ha hs =>
    obtain ⟨xs, hxs, hc⟩ := hfs.actions
    obtain ⟨hl, hr⟩ := compileLoop_compiled parse cfg.services 0 _ xs hc
    have hlen : (s.actions.zip (computeDeps s.actions)).length = s.actions.length := by
      rw [List.length_zip, computeDeps_length]
      omega
    obtain ⟨hi, hai⟩ := List.getElem?_eq_some_iff.1 ha
    have hi1 : i < (s.actions.zip (computeDeps s.actions)).length := by omega
    have hi2 : i < xs.length := by omega
    obtain ⟨t', y, hst, hco, heq⟩ := hr i _ _ xs[i] (List.getElem?_eq_getElem hi1) (by simp [hi2])
    rw [Nat.zero_add] at hco
    have : (s.actions.zip (computeDeps s.actions))[i].1 = a := by rw [List.getElem_zip]; exact hai
    change StandsFor cfg.services (s.actions.zip (computeDeps s.actions))[i].1 t' at hst
    rw [this] at hst
    have h2 := standsFor_iff.1 hst
    rw [hs] at h2
    cases h2
    exact ⟨y, hco⟩
  | @reply id head service var message replies j t h hj ih =>
    obtain ⟨y, hy⟩ := ih
    cases hy with
    | grpc _ _ _ _ _ _ pred kind svc deny msg acts hp hs hm hl hseq hr =>
      obtain ⟨hj1, hj2⟩ := List.getElem?_eq_some_iff.1 hj
      exact ⟨acts[j], hr j t _ hj (by simp [show j < acts.length by omega])⟩

/-- The tasks of a call have its reply actions. -/
theorem fromSet_link {parse : Text → Option Expr} {cfg : PluginConfig} {s : ActionSet} {b : Blueprint} {c : Ctx H}
    {p : Pipe H} (hb : Built c b p) (hfs : FromSet parse cfg s b) {x : Text} {head : TypedHead}
    {service var message : Text} {replies : List TypedAction}
    (hat : At cfg.services s x (.grpc head service var message replies)) {j : Nat} {t : TypedAction}
    (hj : replies[j]? = some t) : Tasks (Link x (x ++ '.' :: natText j)) p [] := by
  obtain ⟨y, hy⟩ := fromSet_compiled hfs hat
  obtain ⟨kind, svc, deny, hsvc⟩ : ∃ kind svc deny, cfg.services service = some (.call kind svc deny) := by
    cases hy with
    | grpc _ _ _ _ _ _ pred kind svc deny msg acts hp hs => exact ⟨_, _, _, hs⟩
  have h1 := fromSet_kidsOf hb hfs hat hsvc
  have h2 := fromSet_parentOf hb hfs x j
  have h3 : Tasks (fun k => k.id = x → k.isCall = true) p [] := by
    refine fromSet_tasks hb hfs hat (fun k hk hid => absurd hid hk) ?_
    intro y deps k hco hm _
    cases hco with
    | grpc => cases hm; rfl
  intro t' ht'
  refine Core.All.imp ?_ (((h1 t' ht').and (h2 t' ht')).and (h3 t' ht'))
  rintro k ⟨⟨hk1, hk2⟩, hk3⟩
  refine ⟨fun hid => ⟨hk3 hid, ?_⟩, hk2⟩
  have hk := hk1 hid (hk3 hid)
  obtain ⟨hj1, _⟩ := List.getElem?_eq_some_iff.1 hj
  have hj2 : j < k.children.length := by have := hk.len; omega
  exact ⟨k.children[j], List.getElem_mem hj2, hk.id (i := j) (by simp [hj2])⟩

section
variable {parse : Text → Option Expr} {cfg : PluginConfig} {factory : Factory} {host : H} {s : ActionSet}

theorem built_start {b : Blueprint} {p : Pipe H} (hb : Built ({ host := host } : Ctx H) b p)
    (hfs : FromSet parse cfg s b) {y : Text} (hy : Plainly y) : (p.push .hits).load y [] ≤ 1 := by
  have hlog0 : (p.push .hits).ctx.log = [.hits] := by simp [Pipe.push, Ctx.push, hb.quiet.log]
  unfold Pipe.load
  rw [hlog0]
  have := fromSet_load hb hfs hy
  show 0 + poolCount y (p.tasks []) ≤ 1
  omega

/-- The tasks of a call and its reply action at the beginning. -/
theorem built_tied {b : Blueprint} {p : Pipe H} (hbuilt : Built ({ host := host } : Ctx H) b p)
    (hfs : FromSet parse cfg s b) {x : Text} {head : TypedHead} {service var message : Text} {replies : List TypedAction}
    (hat : At cfg.services s x (.grpc head service var message replies)) {j : Nat} {t : TypedAction}
    (hj : replies[j]? = some t) : Tied x (x ++ '.' :: natText j) (p.push .hits) [] := by
  have hatj : At cfg.services s (x ++ '.' :: natText j) t := .reply hat hj
  have hlog0 : (p.push .hits).ctx.log = [.hits] := by simp [Pipe.push, Ctx.push, hbuilt.quiet.log]
  have hns : ¬SentIn [Effect.hits] x := by rintro ⟨_, _, _, _, _, h⟩; simp at h
  have hnw : ¬WellAnswered [Effect.hits] x := fun h => hns h.1
  have lb := built_start hbuilt hfs hat.plainly
  have lx := built_start hbuilt hfs hatj.plainly
  have hlinks := fromSet_link hbuilt hfs hat hj
  refine ⟨hlinks, ?_, ?_, lb, lx, fun _ => ?_⟩
  · rw [hlog0]; exact fun h => absurd h hns
  · intro e he
    have : (p.push .hits).deferred = [] := hbuilt.deferred
    rw [this] at he
    cases he
  · unfold Pipe.load at lb lx
    rw [hlog0] at lb lx ⊢
    refine ⟨lb, lx, by simp, ?_, fun h => absurd h hnw⟩
    intro hp0 _
    refine Decidable.byContradiction fun hx0 => ?_
    have hd : p.deferred = [] := hbuilt.deferred
    have h1 : (p.push .hits).tasks [] = p.queue := by simp [Pipe.tasks, Pipe.push, hd]
    rw [h1] at hx0 hp0
    -- the task with `x.j` below it
    obtain ⟨t', ht', hc⟩ : ∃ t' ∈ p.queue, t'.strip.count (x ++ '.' :: natText j) ≠ 0 := by
      refine Decidable.byContradiction fun hno => hx0 (countList_zero ?_)
      intro k hk
      obtain ⟨t', ht', rfl⟩ := List.mem_map.1 hk
      exact Decidable.byContradiction fun h => hno ⟨t', ht', h⟩
    have hlink := hlinks t' (by simp [Pipe.tasks, ht'])
    rcases link_up hlink hc with hid | hc'
    · rw [strip_id] at hid
      refine fromSet_tops hbuilt hfs hat.plainly (j := j) t' ht' ?_
      exact hid
    · have := poolCount_mem (x := x) ht'
      omega

/-- The tasks of a call and its reply action at any moment. -/
theorem moment_tied (hs : ServedBy o parse cfg factory host s) {x : Text} {head : TypedHead}
    {service var message : Text} {replies : List TypedAction}
    (hat : At cfg.services s x (.grpc head service var message replies)) {j : Nat} {t : TypedAction}
    (hj : replies[j]? = some t) (before : List (Event H)) (e : Option (Event H)) (m : Ctx H × List PTask)
    (hm : m ∈ Filter.turnsAt o factory host before e) : Moment (Tied x (x ++ '.' :: natText j)) m := by
  by_cases hb : ∃ p, factory.build o { host := host } = .pipeline p
  · obtain ⟨p, hb⟩ := hb
    obtain ⟨b, hbuilt, hfs⟩ := servedBy_fromSet hs hb
    have hatj : At cfg.services s (x ++ '.' :: natText j) t := .reply hat hj
    exact (tied_extra (o := o) hat.plainly.teardown hatj.plainly.teardown).turnsAt factory host p hb
      (built_tied hbuilt hfs hat hj) before e m hm
  · rw [idle_turns factory host (fun p hp => hb ⟨p, hp⟩) before e] at hm
    cases hm

/-- The task of a top-level action at any moment. -/
theorem moment_rooted (hs : ServedBy o parse cfg factory host s) {i : Nat} {a : ActionConfig}
    (ha : s.actions[i]? = some a) {t : TypedAction} (hst : standsFor cfg.services a = some t)
    (before : List (Event H)) (e : Option (Event H))
    (m : Ctx H × List PTask) (hm : m ∈ Filter.turnsAt o factory host before e) :
    Moment (Rooted (natText i)) m := by
  by_cases hb : ∃ p, factory.build o { host := host } = .pipeline p
  · obtain ⟨p, hb⟩ := hb
    obtain ⟨b, hbuilt, hfs⟩ := servedBy_fromSet hs hb
    have hat : At cfg.services s (natText i) t := .top ha hst
    refine (rooted_extra (o := o) hat.plainly.teardown).turnsAt factory host p hb ?_ before e m hm
    refine ⟨fromSet_kidless hbuilt hfs i, built_start hbuilt hfs hat.plainly, fun _ => ?_⟩
    have := fromSet_there hbuilt hfs ha
    show 1 ≤ _ + poolCount (natText i) (p.tasks [])
    omega
  · rw [idle_turns factory host (fun p hp => hb ⟨p, hp⟩) before e] at hm
    cases hm

/-- A property of all tasks at any moment. -/
theorem moment_tasks (hs : ServedBy o parse cfg factory host s) {P : Core → Prop} (hP : Lasting P)
    (h0 : ∀ p b, Built ({ host := host } : Ctx H) b p → FromSet parse cfg s b → Begun o cfg host p → Tasks P p [])
    (before : List (Event H)) (e : Option (Event H)) (m : Ctx H × List PTask)
    (hm : m ∈ Filter.turnsAt o factory host before e) : ∀ t ∈ m.2, Core.All P t.strip := by
  by_cases hb : ∃ p, factory.build o { host := host } = .pipeline p
  · obtain ⟨p, hb⟩ := hb
    obtain ⟨b, hbuilt, hfs⟩ := servedBy_fromSet hs hb
    obtain ⟨q, t, rest, _, h, rfl⟩ := (lasting_extra (o := o) hP).turnsAt factory host p hb
      (h0 p b hbuilt hfs (servedBy_begun hs hb)) before e m hm
    exact h
  · rw [idle_turns factory host (fun p hp => hb ⟨p, hp⟩) before e] at hm
    cases hm

theorem pool_pos {x : Text} {ts : List PTask} (h : 1 ≤ poolCount x ts) : ∃ t ∈ ts, t.strip.count x ≠ 0 := by
  refine Decidable.byContradiction fun hno => ?_
  have : poolCount x ts = 0 := by
    refine countList_zero ?_
    intro k hk
    obtain ⟨t', ht', rfl⟩ := List.mem_map.1 hk
    exact Decidable.byContradiction fun h => hno ⟨t', ht', h⟩
  omega

/-- An action still to come has a task. -/
theorem due_task (hs : ServedBy o parse cfg factory host s) (before : List (Event H)) (e : Option (Event H))
    (c : Ctx H) (tasks : List PTask) (hm : (c, tasks) ∈ Filter.turnsAt o factory host before e) (hf : Fresh c.log)
    {x : Text} {t : TypedAction} (h : Due cfg.services s c.log x t) :
    At cfg.services s x t ∧ 1 ≤ poolCount x tasks := by
  have hpush : ∀ (q : Pipe H) (y : Text), (q.ctx.push (.applied y)).log = q.ctx.log ++ [.applied y] := fun _ _ => rfl
  have hst : ∀ y, ∀ e ∈ [Effect.applied y], e.still = true := by simp [Effect.still]
  induction h with
  | @top i a t ha hst' hc =>
    obtain ⟨q, t', rest, hl, hx, heq⟩ := moment_rooted hs ha hst' before e _ hm
    cases heq
    refine ⟨.top ha hst', ?_⟩
    have h1 := hx.there hf.prefix
    have h2 := mt settles_pos.1 hc
    rw [hpush, List.countP_append, settles_aside (hst _)] at h2
    omega
  | @within id head service var message replies j t h hj hc ih =>
    obtain ⟨hat, hpos⟩ := ih
    refine ⟨.reply hat hj, ?_⟩
    obtain ⟨q, t', rest, hl, hx, heq⟩ := moment_tied hs hat hj before e _ hm
    cases heq
    obtain ⟨u, hu, hcu⟩ := pool_pos hpos
    have h1 := link_down (hx.links u hu) hcu
    have h2 := poolCount_mem (x := id ++ '.' :: natText j) hu
    omega
  | @after id head service var message replies j t hat ha hj hc =>
    refine ⟨.reply hat hj, ?_⟩
    obtain ⟨q, t', rest, hl, hx, heq⟩ := moment_tied hs hat hj before e _ hm
    cases heq
    have h1 := (joined_aside (hst t'.id) (hx.joined hf.prefix)).kept ha
    have h2 := mt settles_pos.1 hc
    rw [hpush] at h2
    omega

/-- An action with a task is still to come. -/
theorem task_due (hs : ServedBy o parse cfg factory host s) (before : List (Event H)) (e : Option (Event H))
    (c : Ctx H) (tasks : List PTask) (hm : (c, tasks) ∈ Filter.turnsAt o factory host before e) (hf : Fresh c.log)
    {x : Text} {t : TypedAction} (hat : At cfg.services s x t) (hp : 1 ≤ poolCount x tasks) :
    Due cfg.services s c.log x t := by
  have hpush : ∀ (q : Pipe H) (y : Text), (q.ctx.push (.applied y)).log = q.ctx.log ++ [.applied y] := fun _ _ => rfl
  have hst : ∀ y, ∀ e ∈ [Effect.applied y], e.still = true := by simp [Effect.still]
  induction hat with
  | @top i a t ha hst' =>
    refine .top ha hst' fun hc => ?_
    obtain ⟨q, t', rest, hl, hx, heq⟩ := moment_rooted hs ha hst' before e _ hm
    cases heq
    have h1 := hx.load
    have h2 := settles_pos.2 hc
    rw [hpush, List.countP_append, settles_aside (hst _)] at h2
    unfold Pipe.load at h1
    omega
  | @reply id head service var message replies j t hat hj ih =>
    obtain ⟨q, t', rest, hl, hx, heq⟩ := moment_tied hs hat hj before e _ hm
    cases heq
    have hjo := joined_aside (hst t'.id) (hx.joined hf.prefix)
    have hnc : ¬Concluded (q.ctx.push (.applied t'.id)).log (id ++ '.' :: natText j) := by
      intro hc
      have h2 := settles_pos.2 hc
      have h1 := hjo.lx
      rw [hpush] at h2
      omega
    by_cases hpb : poolCount id (q.tasks (t' :: rest)) = 0
    · by_cases hw : WellAnswered (q.ctx.log ++ [.applied t'.id]) id
      · exact .after hat hw hj hnc
      · have := hjo.gone hpb hw
        omega
    · exact .within (ih (by omega)) hj hnc

end

/-! ### Reservations -/

theorem reservationsOf_mem {path : Text} {ks : List Core} :
    path ∈ reservationsOf ks ↔ ∃ k ∈ ks, path ∈ k.reservations := by
  induction ks with
  | nil => simp [reservationsOf]
  | cons k ks ih => simp [reservationsOf, ih]

theorem reservations_children {k : Core} {path : Text} (h : path ∈ k.reservations) :
    (∃ id pred e x terminal st, k = .store id pred e path x terminal st) ∨ ∃ c ∈ k.children, path ∈ c.reservations := by
  cases k with
  | grpc => rw [Core.reservations] at h; exact .inr (reservationsOf_mem.1 h)
  | pending => rw [Core.reservations] at h; exact .inr (reservationsOf_mem.1 h)
  | store id pred e p x terminal st =>
    rw [Core.reservations, List.mem_singleton] at h
    subst h
    exact .inl ⟨_, _, _, _, _, _, rfl⟩
  | _ => rw [Core.reservations] at h; cases h

theorem children_reservations {k c : Core} {path : Text} (hc : c ∈ k.children) (h : path ∈ c.reservations) :
    path ∈ k.reservations := by
  cases k with
  | grpc => rw [Core.reservations]; exact reservationsOf_mem.2 ⟨c, hc, h⟩
  | pending => rw [Core.reservations]; exact reservationsOf_mem.2 ⟨c, hc, h⟩
  | _ => cases hc

theorem reserved_store {P : Core → Prop} {k : Core} (h : Core.All P k) {path : Text} (hp : path ∈ k.reservations) :
    ∃ id pred e x terminal st, P (.store id pred e path x terminal st) ∧ k.count id ≠ 0 := by
  induction h with
  | mk k hk hs ih =>
    rcases reservations_children hp with ⟨id, pred, e, x, terminal, st, rfl⟩ | ⟨c, hc, hp⟩
    · refine ⟨id, pred, e, x, terminal, st, hk, ?_⟩
      rw [Core.count_eq, if_pos (show (Core.store id pred e path x terminal st).id = id from rfl)]
      omega
    · obtain ⟨id, pred, e, x, terminal, st, h1, h2⟩ := ih c hc hp
      refine ⟨id, pred, e, x, terminal, st, h1, ?_⟩
      have := countList_mem (x := id) hc
      rw [Core.count_eq]
      omega

theorem store_reserved {x path : Text} {k : Core}
    (h : Core.All (fun k => k.id = x → path ∈ k.reservations) k) (hc : k.count x ≠ 0) : path ∈ k.reservations := by
  refine Decidable.byContradiction fun hno => hc (count_of_all ?_)
  clear hc
  induction h with
  | mk k hk hs ih =>
    exact .mk k (fun hid => hno (hk hid)) fun c hc => ih c hc fun h => hno (children_reservations hc h)

theorem strip_reservations (t : PTask) : t.reservations = t.strip.reservations := by
  induction t with
  | core k => rfl
  | failureMode t a ih => exact ih
  | tracing t ih => exact ih

theorem writes_lasting {x path : Text} (hx : ∀ n, Pipe.teardownId n ≠ x) :
    Lasting (fun k => k.id = x → ∃ pred e y terminal st, k = .store x pred e path y terminal st) where
  again k k' h ha := by
    cases ha with
    | same => exact h
    | store id pred e p y terminal st st' =>
      intro hid
      obtain ⟨_, _, _, _, _, heq⟩ := h hid
      cases heq
      exact ⟨_, _, _, _, _, rfl⟩
    | tokenUsage =>
      intro hid
      obtain ⟨_, _, _, _, _, heq⟩ := h hid
      cases heq
  sent id deps guard pred msg var svc r h := by
    intro hid
    obtain ⟨_, _, _, _, _, heq⟩ := h hid
    cases heq
  noop n g := fun hid => absurd hid (hx n)

/-- The reservations of the tasks are the paths of the store actions still to come. -/
theorem reservations_due {parse : Text → Option Expr} {cfg : PluginConfig} {factory : Factory} {host : H}
    {s : ActionSet} (hs : ServedBy o parse cfg factory host s) (before : List (Event H)) (e : Option (Event H))
    (c : Ctx H) (tasks : List PTask) (hm : (c, tasks) ∈ Filter.turnsAt o factory host before e) (hf : Fresh c.log)
    (path : Text) : path ∈ tasks.flatMap PTask.reservations ↔ WriterDue cfg.services s c.log path := by
  constructor
  · intro hp
    obtain ⟨t, ht, hp⟩ := List.mem_flatMap.1 hp
    rw [strip_reservations] at hp
    have hk := moment_tasks hs (known_closed (o := o) parse cfg s).lasting
      (fun p b hbuilt hfs hbeg => fromSet_known hbuilt hfs hbeg) before e _ hm t ht
    obtain ⟨id, pred, ex, x, terminal, st, h1, h2⟩ := reserved_store hk hp
    cases h1 with
    | store hat hp' he =>
      have := poolCount_mem (x := id) ht
      exact ⟨_, _, _, _, task_due hs before e c tasks hm hf hat (by omega)⟩
    | waits _ h => cases h
  · rintro ⟨id, head, source, exported, hd⟩
    obtain ⟨hat, hpos⟩ := due_task hs before e c tasks hm hf hd
    obtain ⟨t, ht, hc⟩ := pool_pos hpos
    refine List.mem_flatMap.2 ⟨t, ht, ?_⟩
    rw [strip_reservations]
    have hk := moment_tasks hs (writes_lasting (path := path) hat.plainly.teardown) (fun p b hbuilt hfs _ => by
      refine fromSet_tasks hbuilt hfs hat (fun k hk hid => absurd hid hk) ?_
      intro y deps k hco hm' _
      cases hco with
      | store => cases hm'; exact ⟨_, _, _, _, _, rfl⟩) before e _ hm t ht
    refine store_reserved (Core.All.imp ?_ hk) hc
    intro k hk hid
    obtain ⟨_, _, _, _, _, rfl⟩ := hk hid
    rw [Core.reservations]
    simp

end Verif
