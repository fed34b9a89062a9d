import Verif.Lemmas.Deps
import Verif.Lemmas.Waits
import Verif.Props.Demo
/-! The order of actions: C06 and C07. -/
set_option linter.unusedSimpArgs false
namespace Verif.Props
open Verif Spec

/-- The direct dependencies of the actions, as positions. -/
abbrev direct (actions : List ActionConfig) : List (List Nat) := depLoop 0 [] [] actions

/-- C07, the dependencies recorded in a blueprint are these positions, printed. -/
theorem C07_printed (actions : List ActionConfig) :
    computeDeps actions = (direct actions).map (·.map natText) ∧
    (∀ m n, natText m = natText n → m = n) :=
  ⟨rfl, fun _ _ => natText_inj⟩

/-- C07: a sequential action waits for exactly the actions before it. -/
theorem C07_sequential (actions : List ActionConfig) (i : Nat) (a : ActionConfig)
    (ha : actions[i]? = some a) (hm : mode a = .sequential) (j : Nat) :
    Waits (direct actions) i j ↔ j < i :=
  ⟨waits_lt, sequential_waits i a ha hm j⟩

/-- C07: a parallel action waits for exactly the actions up to the latest sequential action before it. -/
theorem C07_parallel (actions : List ActionConfig) (i : Nat) (a : ActionConfig)
    (ha : actions[i]? = some a) (hm : mode a = .parallel) (j : Nat) :
    Waits (direct actions) i j ↔ ∃ s, LatestSequential (actions.map mode) i s ∧ j ≤ s := by
  obtain ⟨d, hd, hs⟩ := deps_spec actions i a ha
  rw [hm] at hs
  constructor
  · intro h
    obtain ⟨d', k, hd', hk, hor⟩ := waits_first h
    rw [hd] at hd'
    cases hd'
    refine ⟨k, (hs k).1 hk, ?_⟩
    rcases hor with rfl | h
    · exact Nat.le_refl _
    · exact Nat.le_of_lt (waits_lt h)
  · rintro ⟨s, hs1, hj⟩
    have hw : Waits (direct actions) i s := .direct hd ((hs s).2 hs1)
    rcases Nat.lt_or_ge j s with hjs | hjs
    · have h2 := hs1.2.1
      rw [List.getElem?_map, Option.map_eq_some_iff] at h2
      obtain ⟨b, hb, hmb⟩ := h2
      exact .trans hw (sequential_waits s b hb hmb j hjs)
    · rw [show j = s by omega]; exact hw

/-- C07: a legacy action depends directly on the action just before it. -/
theorem C07_legacy (actions : List ActionConfig) (i : Nat) (a : ActionConfig)
    (ha : actions[i]? = some a) (hm : mode a = .legacy) :
    (direct actions)[i]? = some (if 0 < i then [i - 1] else []) := by
  obtain ⟨d, hd, hs⟩ := deps_spec actions i a ha
  rw [hm] at hs
  simp only [DepSpec] at hs
  rw [hd, hs]

/-- C07: in a set of legacy actions each waits for all before it: a strict chain. -/
theorem C07_all_legacy (actions : List ActionConfig) (h : ∀ a ∈ actions, mode a = .legacy)
    (i : Nat) (hi : i < actions.length) (j : Nat) : Waits (direct actions) i j ↔ j < i := by
  refine ⟨waits_lt, ?_⟩
  intro hj
  induction i with
  | zero => omega
  | succ i ih =>
    have hd := C07_legacy actions (i + 1) actions[i + 1] (by simp [hi]) (h _ (List.getElem_mem hi))
    have hw : Waits (direct actions) (i + 1) i := .direct hd (by simp)
    rcases Nat.lt_or_ge j i with hji | hji
    · exact .trans hw (ih (by omega) hji)
    · rw [show j = i by omega]; exact hw

/-- C07: no action waits for itself or for a later one. -/
theorem C07_no_cycle (actions : List ActionConfig) (i j : Nat) (h : Waits (direct actions) i j) : j < i :=
  waits_lt h

/-- Mixed modes. -/
example : direct [.legacy [] (fun _ => Demo.deny), .legacy [] (fun _ => Demo.deny),
    Demo.grpc "deny" (sequential := true), Demo.grpc "deny", .legacy [] (fun _ => Demo.deny),
    Demo.grpc "deny", Demo.grpc "deny" (sequential := true)]
    = [[], [0], [0, 1], [2], [3], [2], [2, 3, 4, 5]] := by
  decide

variable {H : Type} (o : Oracle H)

/-- C06: a gRPC action starts and sends its call only after the actions it depends on have completed and
their calls were answered. -/
theorem C06_after_dependencies (parse : Text → Option Expr) (cfg : PluginConfig) (factory : Factory)
    (host : H) (s : ActionSet) (hs : ServedBy o parse cfg factory host s)
    (i : Nat) (a : ActionConfig) (ha : s.actions[i]? = some a) (hc : IsCall a)
    (deps : List Nat) (hd : (direct s.actions)[i]? = some deps) (events : List (Event H)) :
    Everywhere (fun pre e => Begins (natText i) e → ∀ d ∈ deps, Finished pre (natText d))
      (Filter.run o factory host events).log := by
  by_cases hb : ∃ p, factory.build o { host := host } = .pipeline p
  · obtain ⟨p, hb⟩ := hb
    obtain ⟨b, hbuilt, hfs⟩ := servedBy_fromSet hs hb
    have hlog0 : (p.push .hits).ctx.log = [.hits] := by simp [Pipe.push, Ctx.push, hbuilt.quiet.log]
    -- the dependencies have completed
    have h1 : Everywhere (Awaits (natText i) (deps.map natText)) (Filter.run o factory host events).log := by
      have hg := (waiting_extra (o := o) (natText i) (deps.map natText)).run factory host p hb ?_ events
      · refine hg.log (Q := Everywhere (Awaits (natText i) (deps.map natText))) ?_
        rintro q (⟨_, h⟩ | ⟨_, h⟩)
        · exact h.evs
        · exact h
      · refine ⟨?_, by simp [Pipe.push, hbuilt.completed], ?_⟩
        · refine built_all' hbuilt (R := fun y => y.head.id = natText i →
            (∃ head kind svc deny var msg acts, y = .grpc head (.call kind svc deny) var msg acts) ∧
              y.head.deps = deps.map natText) ?_ ?_ ?_
          · refine set_only hfs i (fun y hy h => absurd h hy) ?_
            intro a' deps' t y ha' hd' hst hco _
            rw [ha] at ha'
            cases ha'
            have hdd : deps' = deps.map natText := by
              simp only [computeDeps, List.getElem?_map, hd, Option.map_some, Option.some.injEq] at hd'
              exact hd'.symm
            have hcall : ∃ h service var message replies, t = .grpc h service var message replies := by
              cases hst with
              | typed t => cases t <;> simp [IsCall] at hc ⊢
              | legacy _ _ kind => exact hc kind
            obtain ⟨h, service, var, message, replies, rfl⟩ := hcall
            cases hco
            exact ⟨⟨_, _, _, _, _, _, _, rfl⟩, hdd⟩
          · intro y k hr hm hw hid
            rw [hm.id] at hid
            obtain ⟨⟨head, kind, svc, deny, var, msg, acts, rfl⟩, h2⟩ := hr hid
            cases hm
            exact h2
          · intro fields hw hid
            exact absurd hid (natText_ne (c := 't') (show 't' ∈ "token_usage".toList by decide) rfl)
        · rw [hlog0]
          exact (everywhere_nil _).passive (es := [.hits]) (by simp [Effect.passive])
    -- their calls were answered
    have h2 : ∀ d, Everywhere (Orderly (natText d)) (Filter.run o factory host events).log := by
      intro d
      have hg := (tracked_extra (o := o) d).run factory host p hb (tracked_new hbuilt hfs d) events
      refine hg.log (Q := Everywhere (Orderly (natText d))) ?_
      rintro q (⟨_, h⟩ | ⟨_, h⟩)
      · exact h.evs
      · exact h.evs
    intro pre e post hlog hbeg d hd'
    have hpre : Everywhere (Orderly (natText d)) pre := by
      have := h2 d; rw [hlog] at this; exact this.prefix
    have hdone := h1 pre e post hlog hbeg (natText d) (List.mem_map_of_mem hd')
    refine ⟨hdone, ?_⟩
    intro u g tok svc b rid v hu
    obtain ⟨w, w', hw⟩ := List.append_of_mem hdone
    -- the call precedes the completion
    rw [hu] at hw
    rcases List.append_eq_append_iff.1 hw with ⟨as, h3, h4⟩ | ⟨bs, h3, h4⟩
    · cases as with
      | nil => simp at h4
      | cons x as =>
        simp only [List.cons_append, List.cons.injEq] at h4
        obtain ⟨rfl, h4⟩ := h4
        have := (hpre w (.completed (natText d)) w' (by rw [hu, hw])).2 rfl u g tok svc b rid as h3
        obtain ⟨s', z, h5⟩ := this
        exact ⟨s', z, by rw [h4]; exact List.mem_append_left _ h5⟩
    · cases bs with
      | nil => simp at h4
      | cons x bs =>
        simp only [List.cons_append, List.cons.injEq] at h4
        obtain ⟨rfl, h4⟩ := h4
        have := (hpre u _ v hu).1 g tok svc b rid rfl
        exact absurd (by rw [h3]; simp) this
  · have hp := unrelated_run_idle (o := o) factory host events (fun p hp => hb ⟨p, hp⟩)
    intro pre e post hlog hbeg
    have := hp e (by rw [hlog]; simp)
    rcases hbeg with rfl | ⟨_, _, _, _, _, rfl⟩ <;> simp [Effect.unrelated] at this

/-- C06, through chains of dependencies: in a set of gRPC actions an action starts only after all actions it
waits for are finished. -/
theorem C06_transitively (parse : Text → Option Expr) (cfg : PluginConfig) (factory : Factory)
    (host : H) (s : ActionSet) (hs : ServedBy o parse cfg factory host s)
    (hc : ∀ a ∈ s.actions, IsCall a) (events : List (Event H))
    (i j : Nat) (hw : Waits (direct s.actions) i j) :
    Everywhere (fun pre e => Begins (natText i) e → Finished pre (natText j))
      (Filter.run o factory host events).log := by
  induction hw with
  | @direct i j d h hj =>
    obtain ⟨a, ha⟩ : ∃ a, s.actions[i]? = some a := by
      have hi := (List.getElem?_eq_some_iff.1 h).1
      rw [depLoop_length] at hi
      exact ⟨_, List.getElem?_eq_getElem hi⟩
    have := C06_after_dependencies o parse cfg factory host s hs i a ha (hc a (List.mem_of_getElem? ha)) d h events
    exact fun pre e post hlog hb => this pre e post hlog hb j hj
  | @trans i j k h g ih1 ih2 =>
    intro pre e post hlog hb
    have h1 := ih1 pre e post hlog hb
    have hord := orderly_run (o := o) parse cfg factory host s hs events k
    have hst := fromStart_run (o := o) parse cfg factory host s hs events j
    rw [hlog] at hord hst
    obtain ⟨u, v, huv⟩ := List.append_of_mem h1.1
    have hap : Effect.applied (natText j) ∈ u := by
      refine hst u _ (v ++ e :: post) (by rw [huv]; simp) (.inl rfl)
    obtain ⟨a, b, hab⟩ := List.append_of_mem hap
    have h2 := ih2 a (.applied (natText j)) (b ++ .completed (natText j) :: v ++ e :: post)
      (by rw [hlog, huv, hab]; simp) (.inl rfl)
    have hpre : pre = a ++ (.applied (natText j) :: b ++ .completed (natText j) :: v) := by
      rw [huv, hab]; simp
    rw [hpre]
    rw [hpre] at hord
    exact Finished.mono h2 (hord.prefix (b := [e] ++ post))

/-- Requests for the demo hostname are served by the demo set, whatever the rest of the world. -/
theorem demo_served_by (o : Oracle Nat) (actions : List ActionConfig)
    (h1 : (Factory.tryFrom Demo.parse (Demo.config actions)).isSome = true)
    (h2 : ∃ b, ((Demo.factory (Demo.config actions)).select o { host := 0 }).1 = .found b) :
    ServedBy o Demo.parse (Demo.config actions) (Demo.factory (Demo.config actions)) 0
      { name := "demo".toList, hostnames := ["*.com".toList, "Example.com".toList],
        predicates := ["true".toList], actions } := by
  obtain ⟨b, hb⟩ := h2
  rcases servedBy_exists (o := o) (host := 0) (Demo.factory_eq _ h1) hb with ⟨s, hs, h⟩ | ⟨a, ha, _⟩
  · simp only [Demo.config, List.mem_singleton] at hs
    subst hs
    exact h
  · simp [devModeAction, Demo.config] at ha

/-- Requests for the demo hostname are served by the demo set. -/
theorem demo_served (actions : List ActionConfig)
    (h1 : (Factory.tryFrom Demo.parse (Demo.config actions)).isSome = true)
    (h2 : ∃ b, ((Demo.factory (Demo.config actions)).select Demo.world { host := 0 }).1 = .found b) :
    ServedBy Demo.world Demo.parse (Demo.config actions) (Demo.factory (Demo.config actions)) 0
      { name := "demo".toList, hostnames := ["*.com".toList, "Example.com".toList],
        predicates := ["true".toList], actions } := demo_served_by Demo.world actions h1 h2

example : ServedBy Demo.world Demo.parse (Demo.config [Demo.grpc "deny", Demo.grpc "allow" (sequential := true)])
    (Demo.factory (Demo.config [Demo.grpc "deny", Demo.grpc "allow" (sequential := true)])) 0
    { name := "demo".toList, hostnames := ["*.com".toList, "Example.com".toList],
      predicates := ["true".toList], actions := [Demo.grpc "deny", Demo.grpc "allow" (sequential := true)] } :=
  demo_served _ (by decide +kernel) ⟨_, rfl⟩

/-- The second action starts after the first was answered and completed. -/
example : Demo.view (Demo.request [Demo.grpc "deny", Demo.grpc "allow" (sequential := true)]
    [.grpcResponse 1 0 0 0, .grpcResponse 2 1 0 0])
    = ["hits", "start 0", "call 0 guard token 0", "pause", "response 0 status 0", "completed 0", "start 1",
       "call 1 guard token 1", "response 1 status 0", "completed 1", "resume request"] := by
  decide +kernel

theorem applied_at (l : List Effect) (n : Nat) (id : Text)
    (h : (match l[n]? with
      | some (.applied i) => decide (i = id)
      | _ => false) = true) : l = l.take n ++ .applied id :: l.drop (n + 1) := by
  split at h
  · rename_i i hl
    simp only [decide_eq_true_eq] at h
    subst h
    obtain ⟨hn, hl⟩ := List.getElem?_eq_some_iff.1 hl
    rw [← hl, List.getElem_cons_drop, List.take_append_drop]
  · simp at h

/-- C06 is about gRPC actions only: a sequential headers action depends on the action before it, and is
carried out although that action has not completed. -/
theorem C06_only_calls :
    ∃ (cfg : PluginConfig) (factory : Factory) (s : ActionSet),
      Factory.tryFrom Demo.parse cfg = some factory ∧ ServedBy Demo.world Demo.parse cfg factory 0 s ∧
      (direct s.actions)[1]? = some [0] ∧
      ∃ pre post, (Filter.run Demo.world factory 0 []).log = pre ++ .applied (natText 1) :: post ∧
        ∀ e ∈ pre, e ≠ .completed (natText 0) := by
  refine ⟨Demo.config [Demo.grpc "deny",
      .typed (.headers { predicate := "true".toList, sequential := true } .request "headers".toList)], _, _,
    Demo.factory_eq _ (by decide +kernel), demo_served _ (by decide +kernel) ⟨_, rfl⟩, rfl,
    _, _, applied_at _ 3 _ (by decide +kernel), ?_⟩
  intro e he
  have h : (((Filter.run Demo.world (Demo.factory (Demo.config [Demo.grpc "deny",
      .typed (.headers { predicate := "true".toList, sequential := true } .request "headers".toList)])) 0
      []).log.take 3).all fun e => match e with
        | .completed _ => false
        | _ => true) = true := by decide +kernel
  have := List.all_eq_true.1 h e he
  rintro rfl
  simp at this

end Verif.Props
