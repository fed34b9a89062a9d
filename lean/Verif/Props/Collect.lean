import Verif.Lemmas.Deps
import Verif.Lemmas.Places
import Verif.Spec.Collect
import Verif.Props.Order
import Verif.Lemmas.Counters
/-!
C71: the fields of the response body that a call refers to are looked for in the response body.
-/
set_option linter.unusedSimpArgs false
namespace Verif.Props
open Verif Verif.Spec

section
variable {H : Type} {o : Oracle H} {parse : Text → Option Expr} {cfg : PluginConfig}

theorem mem_dedup (l : List Text) (x : Text) : x ∈ dedup l ↔ x ∈ l := by
  induction l with
  | nil => rfl
  | cons a l ih =>
    cases l with
    | nil => rfl
    | cons b l =>
      unfold dedup
      split
      · rename_i h
        subst h
        rw [ih]
        simp
      · rw [List.mem_cons, ih, List.mem_cons (l := b :: l)]

theorem mem_sortDedup (l : List Text) (x : Text) : x ∈ sortDedup l ↔ x ∈ l := by
  unfold sortDedup
  rw [mem_dedup, List.mem_mergeSort]

theorem mem_bodyFieldsList (as : List Action) (f : Text) : f ∈ bodyFieldsList as ↔ ∃ a ∈ as, f ∈ a.bodyFields := by
  induction as with
  | nil => simp [bodyFieldsList]
  | cons a as ih => simp [bodyFieldsList, ih]

theorem source_of {source : Text} {e : Expr} (h : parse source = some e) (f : Text) :
    SourceReads parse source f ↔ f ∈ e.respFields := by
  constructor
  · rintro ⟨e', he, hf⟩
    rw [h] at he
    cases he
    exact hf
  · exact fun hf => ⟨e, h, hf⟩

theorem reads_leaf {t : TypedAction} (hl : ∀ h s v m r, t ≠ .grpc h s v m r) (f : Text) :
    ActionReads parse t f ↔ ∃ source ∈ ownSources t, SourceReads parse source f := by
  constructor
  · rintro ⟨u, source, hp, hs, hr⟩
    cases hp with
    | self => exact ⟨source, hs, hr⟩
    | reply => exact absurd rfl (hl _ _ _ _ _)
  · rintro ⟨source, hs, hr⟩
    exact ⟨t, source, .self t, hs, hr⟩

theorem bodyFields_reads {services : Text → Option SvcInst} {id : Text} {t : TypedAction} {x : Action}
    (h : Compiled parse services id t x) : ∀ f, f ∈ x.bodyFields ↔ ActionReads parse t f := by
  induction h with
  | grpc id h service var message onReply pred kind svc deny msg replies hp hs hm hl hseq hr ih =>
    intro f
    rw [Action.bodyFields, List.mem_append, List.mem_append, mem_bodyFieldsList]
    constructor
    · rintro ((hf | hf) | ⟨x, hx, hf⟩)
      · exact ⟨_, _, .self _, List.mem_cons_self .., _, hp, hf⟩
      · exact ⟨_, _, .self _, List.mem_cons_of_mem _ (List.mem_cons_self ..), _, hm, hf⟩
      · obtain ⟨i, hi⟩ := List.getElem?_of_mem hx
        have hlt : i < onReply.length := by
          rw [hl]; exact (List.getElem?_eq_some_iff.1 hi).1
        have ha : onReply[i]? = some onReply[i] := List.getElem?_eq_getElem hlt
        obtain ⟨u, source, g1, g2, g3⟩ := (ih i _ _ ha hi f).1 hf
        exact ⟨u, source, .reply (List.getElem_mem hlt) g1, g2, g3⟩
    · rintro ⟨u, source, g1, g2, g3⟩
      cases g1 with
      | self =>
        rcases List.mem_cons.1 g2 with rfl | g2
        · exact .inl (.inl ((source_of hp f).1 g3))
        · cases List.mem_singleton.1 g2
          exact .inl (.inr ((source_of hm f).1 g3))
      | reply hmem g1 =>
        obtain ⟨i, hi⟩ := List.getElem?_of_mem hmem
        have hlt : i < replies.length := by
          rw [← hl]; exact (List.getElem?_eq_some_iff.1 hi).1
        have hx : replies[i]? = some replies[i] := List.getElem?_eq_getElem hlt
        exact .inr ⟨_, List.getElem_mem hlt, (ih i _ _ hi hx f).2 ⟨u, source, g1, g2, g3⟩⟩
  | deny id h denyWith pred e hp he =>
    intro f
    rw [reads_leaf (by simp)]
    simp [Action.bodyFields, ownSources, source_of hp, source_of he]
  | headers id h target value pred e hp he =>
    intro f
    rw [reads_leaf (by simp)]
    simp [Action.bodyFields, ownSources, source_of hp, source_of he]
  | store id h path value x pred e hp he =>
    intro f
    rw [reads_leaf (by simp)]
    simp [Action.bodyFields, ownSources, source_of hp, source_of he]
  | fail id h pred hp =>
    intro f
    rw [reads_leaf (by simp)]
    simp [Action.bodyFields, ownSources, source_of hp]

theorem withDeps_bodyFields (deps : List Text) (x : Action) : (x.withDeps deps).bodyFields = x.bodyFields := by
  cases x <;> simp [Action.withDeps, Action.bodyFields]

theorem data_reads {factory : Factory} (h : Factory.tryFrom parse cfg = some factory) (f : Text) :
    f ∈ factory.requestData.flatMap (·.respFields) ↔ DataReads parse cfg f := by
  unfold Factory.tryFrom at h
  split at h
  · exact nomatch h
  · cases h
    simp only [List.mem_flatMap, List.mem_filterMap, DataReads, SourceReads]
    constructor
    · rintro ⟨e, ⟨d, hd, he⟩, hf⟩
      exact ⟨d, hd, e, he, hf⟩
    · rintro ⟨d, hd, e, he, hf⟩
      exact ⟨e, ⟨d, hd, he⟩, hf⟩

/-- The tasks of the `i`th action are a part of all the tasks. -/
theorem tasksLoop_at (rd : List Expr) (w : Bool) (as : List Action) : ∀ (c : Ctx H) ts td c',
    tasksLoop o c rd w as = some (ts, td, c') → ∀ (i : Nat) (a : Action), as[i]? = some a →
    ∃ c1 ts1 td1 c2 pre post, actionTasks o c1 rd w a = some (ts1, td1, c2) ∧ ts = pre ++ ts1 ++ post := by
  induction as with
  | nil => intro c ts td c' _ i a h; simp at h
  | cons b as ih =>
    intro c ts td c' h i a hi
    unfold tasksLoop at h
    split at h
    · simp at h
    · rename_i ts1 td1 c1 heq
      split at h
      · simp at h
      · rename_i ts2 td2 c2 heq2
        simp only [Option.some.injEq, Prod.mk.injEq] at h
        obtain ⟨rfl, -, rfl⟩ := h
        cases i with
        | zero =>
          simp only [List.getElem?_cons_zero, Option.some.injEq] at hi
          subst hi
          exact ⟨_, _, _, _, [], ts2, heq, by simp⟩
        | succ i =>
          simp only [List.getElem?_cons_succ] at hi
          obtain ⟨c3, ts3, td3, c4, pre, post, h1, rfl⟩ := ih _ _ _ _ heq2 i a hi
          exact ⟨c3, ts3, td3, c4, ts1 ++ pre, post, h1, by simp⟩

theorem tasksLoop_mem (rd : List Expr) (w : Bool) (as : List Action) : ∀ (c : Ctx H) ts td c',
    tasksLoop o c rd w as = some (ts, td, c') → ∀ t ∈ ts,
    ∃ (i : Nat) (a : Action) (c1 : Ctx H) (ts1 : List PTask) (td1 : List Text) (c2 : Ctx H), as[i]? = some a ∧ actionTasks o c1 rd w a = some (ts1, td1, c2) ∧ t ∈ ts1 := by
  induction as with
  | nil => intro c ts td c' h t ht; simp [tasksLoop] at h; rw [h.1] at ht; simp at ht
  | cons b as ih =>
    intro c ts td c' h t ht
    unfold tasksLoop at h
    split at h
    · simp at h
    · rename_i ts1 td1 c1 heq
      split at h
      · simp at h
      · rename_i ts2 td2 c2 heq2
        simp only [Option.some.injEq, Prod.mk.injEq] at h
        obtain ⟨rfl, -, rfl⟩ := h
        rcases List.mem_append.1 ht with ht | ht
        · exact ⟨0, b, _, _, _, _, rfl, heq, ht⟩
        · obtain ⟨i, a, c3, ts3, td3, c4, h1, h2, h3⟩ := ih _ _ _ _ heq2 t ht
          exact ⟨i + 1, a, c3, ts3, td3, c4, h1, h2, h3⟩

/-- The tasks of a request come from the actions of its action set. -/
theorem served_tasks {factory : Factory} {host : H} {s : ActionSet} (hs : ServedBy o parse cfg factory host s)
    {p : Pipe H} (hp : factory.build o { host := host } = .pipeline p) :
    ∃ (b : Blueprint) (w : Bool) (c c' : Ctx H) (td : List Text), FromSet parse cfg s b ∧
      tasksLoop o c factory.requestData w b.actions = some (p.queue, td, c') := by
  obtain ⟨b, b', h1, h2, rfl⟩ := hs
  have hf := compile_fromSet parse cfg s b' h2
  unfold Factory.build at hp
  split at hp
  · simp at hp
  · simp at hp
  · rename_i b0 c1 heq
    rw [heq] at h1
    cases h1
    dsimp only at hp
    split at hp
    · simp at hp
    · rename_i ts td c2 heq2
      split at hp
      · simp at hp
      · simp only [Build.pipeline.injEq] at hp
        subst hp
        exact ⟨_, _, _, _, _, hf, heq2⟩

theorem set_action {s : ActionSet} {b : Blueprint} (hf : FromSet parse cfg s b) {i : Nat} {a : ActionConfig}
    {t : TypedAction} (hi : s.actions[i]? = some a) (ht : standsFor cfg.services a = some t) :
    ∃ x deps, b.actions[i]? = some (x.withDeps deps) ∧ Compiled parse cfg.services (natText i) t x := by
  obtain ⟨xs, hx, hc⟩ := hf.actions
  obtain ⟨hl, hr⟩ := compileLoop_compiled parse cfg.services 0 _ xs hc
  have hlt : i < s.actions.length := (List.getElem?_eq_some_iff.1 hi).1
  have hz : (s.actions.zip (computeDeps s.actions)).length = s.actions.length := by
    simp [computeDeps_length]
  have hdl : i < (computeDeps s.actions).length := by rw [computeDeps_length]; exact hlt
  have hxl : i < xs.length := by rw [← hl, hz]; exact hlt
  have hzi : (s.actions.zip (computeDeps s.actions))[i]? = some (a, (computeDeps s.actions)[i]) :=
    List.getElem?_zip_eq_some.2 ⟨hi, List.getElem?_eq_getElem hdl⟩
  obtain ⟨t', y, h1, h2, h3⟩ := hr i a _ _ hzi (List.getElem?_eq_getElem hxl)
  rw [standsFor_iff, ht] at h1
  cases h1
  rw [Nat.zero_add] at h2
  refine ⟨y, (computeDeps s.actions)[i], ?_, h2⟩
  rw [hx, List.getElem?_append_left hxl, List.getElem?_eq_getElem hxl, h3]

/-- C71: ahead of a call stands a task that looks, in the response body, for exactly the fields of the response body
that the call refers to: in its predicate, its message, its reply actions at any depth, or the request data. If there
are none, the call refers to no field of the response body. -/
theorem C71_looked_for (factory : Factory) (host : H) (s : ActionSet) (hcfg : Factory.tryFrom parse cfg = some factory)
    (hs : ServedBy o parse cfg factory host s) (p : Pipe H) (hp : factory.build o { host := host } = .pipeline p)
    (i : Nat) (a : ActionConfig) (hi : s.actions[i]? = some a) (head : TypedHead) (service var message : Text)
    (replies : List TypedAction)
    (ht : standsFor cfg.services a = some (.grpc head service var message replies)) :
    let reads f := ActionReads parse (.grpc head service var message replies) f ∨ DataReads parse cfg f
    (∀ f, ¬reads f) ∨
    ∃ before fields call after, p.queue = before ++ [.core (.tokenUsage none fields), call] ++ after ∧
      call.id = natText i ∧ ∀ f, f ∈ fields ↔ reads f := by
  intro reads
  obtain ⟨b, w, c, c', td, hf, htl⟩ := served_tasks hs hp
  obtain ⟨x, deps, hx, hc⟩ := set_action hf hi ht
  obtain ⟨c1, ts1, td1, c2, pre, post, hat, hq⟩ := tasksLoop_at _ _ _ _ _ _ _ htl i _ hx
  have hfields : ∀ f, f ∈ collectBodyValues factory.requestData (x.withDeps deps) ↔ reads f := by
    intro f
    rw [collectBodyValues, mem_sortDedup, List.mem_append, withDeps_bodyFields, bodyFields_reads hc, data_reads hcfg,
      or_comm]
  cases hc with
  | grpc _ _ _ _ _ _ pred kind svc deny msg replies' h1 h2 h3 h4 h5 h6 =>
    unfold actionTasks at hat
    split at hat
    · simp at hat
    · rename_i k c3 hk
      simp only [Action.withDeps, Option.some.injEq, Prod.mk.injEq] at hat hfields
      obtain ⟨rfl, -, -⟩ := hat
      cases hfl : collectBodyValues factory.requestData (.grpc
          { id := natText i, pred := pred, terminal := head.terminal, deps := deps, guard := head.guard }
          (.call kind svc deny) var msg replies') with
      | nil =>
        left
        intro f hr
        have := (hfields f).2 hr
        rw [hfl] at this
        exact nomatch this
      | cons f0 fs =>
        right
        simp only [hfl] at hq hfields
        have hid : k.id = natText i := by
          simp only [Action.withDeps, Action.toCore] at hk
          split at hk
          · exact nomatch hk
          · cases hk
            rfl
        refine ⟨pre, f0 :: fs, _, post, hq, ?_, hfields⟩
        cases w <;> exact hid

/-- C71: nothing else is looked for: every field that such a task looks for is one that a call of the action set or
the request data refer to. -/
theorem C71_only (factory : Factory) (host : H) (s : ActionSet) (hcfg : Factory.tryFrom parse cfg = some factory)
    (hs : ServedBy o parse cfg factory host s) (p : Pipe H) (hp : factory.build o { host := host } = .pipeline p)
    (fields : List Text) (strategy : Option Strategy) (hm : .core (.tokenUsage strategy fields) ∈ p.queue) (f : Text)
    (hf : f ∈ fields) :
    DataReads parse cfg f ∨ ∃ (i : Nat) (a : ActionConfig) (head : TypedHead) (service var message : Text)
      (replies : List TypedAction), s.actions[i]? = some a ∧
      standsFor cfg.services a = some (.grpc head service var message replies) ∧
      ActionReads parse (.grpc head service var message replies) f := by
  obtain ⟨b, w, c, c', td, hb, htl⟩ := served_tasks hs hp
  obtain ⟨i, x, c1, ts1, td1, c2, hx, hat, hin⟩ := tasksLoop_mem _ _ _ _ _ _ _ htl _ hm
  have made : ∀ k c3, x.toCore o c1 = some (k, c3) → k ≠ .tokenUsage strategy fields := by
    intro k c3 hk e
    subst e
    have := (toCore_made o x c1 _ c3 hk).1
    cases this
  have hcall : ∃ hd kind svc deny v m r, x = .grpc hd (.call kind svc deny) v m r ∧
      f ∈ collectBodyValues factory.requestData x := by
    unfold actionTasks at hat
    split at hat
    · simp at hat
    · rename_i k c3 hk
      split at hat
      · cases hat
        cases List.mem_singleton.1 hin
        exact absurd rfl (made _ _ hk)
      · cases hat
        rcases List.mem_append.1 hin with hin | hin
        · split at hin
          · exact nomatch hin
          · cases List.mem_singleton.1 hin
            exact ⟨_, _, _, _, _, _, _, rfl, hf⟩
        · cases w
          · exact nomatch List.mem_singleton.1 hin
          · exact nomatch List.mem_singleton.1 hin
      · cases hat
        cases List.mem_singleton.1 hin
        exact absurd rfl (made _ _ hk)
  obtain ⟨hd, kind, svc, deny, v, m, r, rfl, hmem⟩ := hcall
  rw [collectBodyValues, mem_sortDedup, List.mem_append, data_reads hcfg] at hmem
  rcases hmem with hmem | hmem
  · exact .inl hmem
  obtain ⟨xs, hxs, hc⟩ := hb.actions
  obtain ⟨hl, hr⟩ := compileLoop_compiled parse cfg.services 0 _ xs hc
  have hz : (s.actions.zip (computeDeps s.actions)).length = s.actions.length := by
    simp [computeDeps_length]
  rw [hxs] at hx
  by_cases hlt : i < xs.length
  · rw [List.getElem?_append_left hlt] at hx
    have hlt' : i < s.actions.length := by rw [← hz, hl]; exact hlt
    have hdl : i < (computeDeps s.actions).length := by rw [computeDeps_length]; exact hlt'
    have hzi : (s.actions.zip (computeDeps s.actions))[i]? = some (s.actions[i], (computeDeps s.actions)[i]) :=
      List.getElem?_zip_eq_some.2 ⟨List.getElem?_eq_getElem hlt', List.getElem?_eq_getElem hdl⟩
    obtain ⟨t, y, h1, h2, h3⟩ := hr i _ _ _ hzi hx
    rw [h3, withDeps_bodyFields, bodyFields_reads h2] at hmem
    rw [standsFor_iff] at h1
    right
    cases h2 with
    | grpc => exact ⟨i, _, _, _, _, _, _, List.getElem?_eq_getElem hlt', h1, hmem⟩
    | deny => exact nomatch h3
    | headers => exact nomatch h3
    | store => exact nomatch h3
    | fail => exact nomatch h3
  · rw [List.getElem?_append_right (by omega)] at hx
    exfalso
    have hx := List.mem_of_getElem? hx
    unfold devModeAction at hx
    cases hh : cfg.headerIdentifier with
    | none => rw [hh] at hx; simp at hx
    | some h0 =>
      rw [hh] at hx
      simp only [Option.map_some, Option.toList_some, List.mem_singleton, Action.grpc.injEq] at hx
      obtain ⟨rfl, -, -, rfl, rfl⟩ := hx
      simp [Action.bodyFields, bodyFieldsList, truePred] at hmem

theorem built_pipeline {factory : Factory} {c c1 : Ctx H} {b : Blueprint} (hs : factory.select o c = (.found b, c1))
    (hne : b.actions ≠ [])
    (ht : (b.toTasks o (c1.withHost (o.getHeaders c1 .request).2) factory.requestData).isSome = true) :
    ∃ p, factory.build o c = .pipeline p := by
  obtain ⟨⟨ts, td, c2⟩, h⟩ := Option.isSome_iff_exists.1 ht
  have hts := tops_nonempty (tasksLoop_tops o _ _ _ _ _ _ _ h).1
  unfold Factory.build
  rw [hs]
  dsimp only
  rw [h]
  dsimp only
  have : ts.isEmpty = false := by
    cases hl : ts with
    | nil => exact absurd (hts hl) hne
    | cons x xs => rfl
  rw [this]
  exact ⟨_, rfl⟩

end

namespace Usage

/-- The expression `usage` refers to a field of the response body. -/
def parse (t : Text) : Option Expr :=
  if t = "usage".toList then some { src := t, respFields := ["/usage".toList] } else Demo.parse t

def factory (actions : List ActionConfig) : Factory := (Factory.tryFrom parse (Demo.config actions)).getD {}

def actionSet (actions : List ActionConfig) : ActionSet :=
  { name := "demo".toList, hostnames := ["*.com".toList, "Example.com".toList], predicates := ["true".toList], actions }

theorem factory_eq (actions : List ActionConfig) (h : (Factory.tryFrom parse (Demo.config actions)).isSome = true) :
    Factory.tryFrom parse (Demo.config actions) = some (factory actions) := by
  unfold factory
  cases hf : Factory.tryFrom parse (Demo.config actions) <;> simp_all

theorem served (actions : List ActionConfig) (h1 : (Factory.tryFrom parse (Demo.config actions)).isSome = true)
    (h2 : ∃ b, ((factory actions).select Demo.world { host := 0 }).1 = .found b) :
    ServedBy Demo.world parse (Demo.config actions) (factory actions) 0 (actionSet actions) := by
  obtain ⟨b, hb⟩ := h2
  rcases servedBy_exists (o := Demo.world) (host := 0) (factory_eq _ h1) hb with ⟨s, hs, h⟩ | ⟨a, ha, _⟩
  · simp only [Demo.config, List.mem_singleton] at hs
    subst hs
    exact h
  · simp [devModeAction, Demo.config] at ha

/-- A call with a reply action that refers to a field of the response body. -/
def reporting : List ActionConfig := [Demo.grpc "allow" [Demo.headers "usage"]]

end Usage

/-- The field that only a reply action refers to is looked for. -/
example : ∃ p, (Usage.factory Usage.reporting).build Demo.world { host := 0 } = .pipeline p ∧
    ∃ before fields call after, p.queue = before ++ [.core (.tokenUsage none fields), call] ++ after ∧
      call.id = natText 0 ∧ "/usage".toList ∈ fields := by
  obtain ⟨p, hp⟩ := built_pipeline (o := Demo.world) (factory := Usage.factory Usage.reporting) (c := { host := 0 })
    rfl (by simp) (by with_unfolding_all rfl)
  refine ⟨p, hp, ?_⟩
  have hreads : ActionReads Usage.parse (.grpc { predicate := "true".toList } "allow".toList "v".toList
      "null".toList [Demo.headers "usage"]) "/usage".toList :=
    ⟨Demo.headers "usage", "usage".toList, .reply (List.mem_singleton.2 rfl) (.self _), List.mem_cons_self ..,
      _, rfl, List.mem_singleton.2 rfl⟩
  rcases C71_looked_for (Usage.factory Usage.reporting) 0 _ (Usage.factory_eq _ (by decide +kernel))
    (Usage.served _ (by decide +kernel) ⟨_, rfl⟩) p hp 0 _ rfl _ _ _ _ _ rfl with h | ⟨b, fields, k, e, h1, h2, h3⟩
  · exact absurd (.inl hreads) (h _)
  · exact ⟨b, fields, k, e, h1, h2, (h3 _).2 (.inl hreads)⟩

/-- C71 is about calls only. For an action of another kind at the top level nothing looks for the fields it refers to,
so it is never carried out, and the end of the response body is held back for good. -/
theorem C71_unread_deviation :
    Demo.view (Filter.run Demo.world (Usage.factory [.typed (Demo.deny "usage")]) 0
      [.responseHeaders 0, .responseBody 0 3 false, .responseBody 0 4 true]).log =
    ["hits", "start 0", "continue", "allowed", "start 0", "continue", "start 0", "continue", "start 0", "pause"] := by
  decide +kernel

end Verif.Props
