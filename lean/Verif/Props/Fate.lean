import Verif.Lemmas.Retry
import Verif.Props.Progress
/-!
C77: no action of a request is forgotten.
-/
set_option linter.unusedSimpArgs false
namespace Verif.Props
open Verif Verif.Spec

variable {H : Type} {o : Oracle H}

theorem start_lift {I : Pipe H → Prop} {D : List Effect → List Effect → Prop} (hD : Lifts o I D)
    (hbefore : ∀ {base mid log}, D (base ++ mid) log → D base log) {factory : Factory} {host : H} {p : Pipe H}
    (hb : factory.build o { host := host } = .pipeline p) (hi : I (p.push .hits)) :
    D [] (Filter.start o factory host).log := by
  rw [start_pipeline factory host p hb]
  refine hD.push ?_ rfl
  rw [store_log]
  exact hbefore (base := []) (hD.eval _ hi)

/-- C77: an action that was started in a request is never forgotten. At the end of every callback it is completed, it
failed, the answer to its call is still to come, or it was started again in this callback and had to wait for data,
unless the request has been ended early. -/
theorem C77_started (factory : Factory) (host : H) (events : List (Event H)) (e : Event H) (x : Text)
    (hfresh : Fresh (Filter.run o factory host (events ++ [e])).log)
    (hend : ¬ Ended (Filter.run o factory host (events ++ [e])).log)
    (hx : .applied x ∈ (Filter.run o factory host (events ++ [e])).log) :
    HasResult (Filter.run o factory host (events ++ [e])).log x ∨
    CallOut (Filter.run o factory host (events ++ [e])).log x ∨
    WaitsNow (Filter.run o factory host events).log (Filter.run o factory host (events ++ [e])).log x := by
  by_cases hb : ∃ p, factory.build o { host := host } = .pipeline p
  · obtain ⟨p, hb⟩ := hb
    obtain ⟨b, _, hbuilt⟩ := build_built o factory _ p hb
    have hlog : (p.push .hits).ctx.log = [.hits] := by simp [Pipe.push, Ctx.push, hbuilt.quiet.log]
    have hg := (owed_extra (o := o) true x).run factory host p hb
      ⟨fun _ ha => by have := ha rfl; rw [hlog] at this; simp at this⟩ events
    have := (tried_lifts (o := o) x).step (owed_extra true x).stable hg e (run_not_crashed factory host p hb events)
    rw [← run_snoc] at this
    exact this hfresh hend hx
  · have := unrelated_run_idle (o := o) factory host (events ++ [e]) (fun p hp => hb ⟨p, hp⟩) _ hx
    simp [Effect.unrelated] at this

/-- C77: the same for the first callback. -/
theorem C77_started_first (factory : Factory) (host : H) (x : Text)
    (hfresh : Fresh (Filter.run o factory host []).log) (hend : ¬ Ended (Filter.run o factory host []).log)
    (hx : .applied x ∈ (Filter.run o factory host []).log) :
    HasResult (Filter.run o factory host []).log x ∨ CallOut (Filter.run o factory host []).log x ∨
    WaitsNow [] (Filter.run o factory host []).log x := by
  by_cases hb : ∃ p, factory.build o { host := host } = .pipeline p
  · obtain ⟨p, hb⟩ := hb
    obtain ⟨b, _, hbuilt⟩ := build_built o factory _ p hb
    have hlog : (p.push .hits).ctx.log = [.hits] := by simp [Pipe.push, Ctx.push, hbuilt.quiet.log]
    refine start_lift (tried_lifts (o := o) x) ?_ hb (.inl ⟨hits_live hb, ⟨fun _ ha => ?_⟩⟩) hfresh hend hx
    · intro base mid log h hf hend ha
      rcases h hf hend ha with h | h | h
      · exact .inl h
      · exact .inr (.inl h)
      · exact .inr (.inr (waitsNow_before h))
    · have := ha rfl
      rw [hlog] at this
      simp at this
  · have := unrelated_run_idle (o := o) factory host [] (fun p hp => hb ⟨p, hp⟩) _ hx
    simp [Effect.unrelated] at this

/-- C77: an action that was started, has no result and has no call out waits for data. It is started again in every
later callback, unless the request has been ended early. -/
theorem C77_retried (factory : Factory) (host : H) (events : List (Event H)) (e : Event H) (x : Text)
    (hfresh : Fresh (Filter.run o factory host (events ++ [e])).log)
    (hend : ¬ Ended (Filter.run o factory host (events ++ [e])).log)
    (hx : .applied x ∈ (Filter.run o factory host events).log)
    (hres : ¬ HasResult (Filter.run o factory host events).log x)
    (hcall : ¬ CallOut (Filter.run o factory host events).log x) :
    ∃ new, (Filter.run o factory host (events ++ [e])).log = (Filter.run o factory host events).log ++ new ∧
      .applied x ∈ new := by
  by_cases hb : ∃ p, factory.build o { host := host } = .pipeline p
  · obtain ⟨p, hb⟩ := hb
    obtain ⟨b, _, hbuilt⟩ := build_built o factory _ p hb
    have hlog : (p.push .hits).ctx.log = [.hits] := by simp [Pipe.push, Ctx.push, hbuilt.quiet.log]
    have hE := (owed_extra (o := o) true x).and flown_extra
    have hg := hE.run factory host p hb
      ⟨⟨fun _ ha => by have := ha rfl; rw [hlog] at this; simp at this⟩,
        ⟨fun _ => .inl fun e he => by simp [Pipe.push, hbuilt.deferred] at he⟩⟩ events
    have := (retried_lifts (o := o) x).step hE.stable hg e (run_not_crashed factory host p hb events)
    rw [← run_snoc] at this
    exact this hfresh hend hx hres hcall
  · have := unrelated_run_idle (o := o) factory host events (fun p hp => hb ⟨p, hp⟩) _ hx
    simp [Effect.unrelated] at this

theorem fromSet_explains {parse : Text → Option Expr} {cfg : PluginConfig} {s : ActionSet} {b : Blueprint}
    {c : Ctx H} {p : Pipe H} (hb : Built c b p) (hfs : FromSet parse cfg s b) :
    Explains s.actions (direct s.actions) (p.push .hits) [] := by
  refine ⟨⟨⟨fromSet_placeable hb hfs, ⟨fun _ => .inl ?_⟩⟩, fun t ht => fromSet_depsLink hb hfs t ht⟩, fun i hi => ⟨fun _ _ => .inr ?_⟩⟩
  · intro e he
    simp [Pipe.push, hb.deferred] at he
  · obtain ⟨t, ht, hid⟩ := fromSet_queued hb hfs hi
    exact ⟨t, by rw [List.append_nil]; exact ht, hid, by simp⟩

theorem hits_built {factory : Factory} {host : H} {events : List (Event H)}
    (hhit : .hits ∈ (Filter.run o factory host events).log) : ∃ p, factory.build o { host := host } = .pipeline p := by
  refine Classical.byContradiction fun hb => ?_
  obtain ⟨a, es, hlog, hes, ha⟩ := run_idle_log (o := o) factory host events fun p hp => hb ⟨p, hp⟩
  rw [hlog, List.mem_append] at hhit
  rcases hhit with h | h
  · rcases ha with rfl | ⟨_, rfl⟩ | rfl <;> simp at h
  · have := hes _ h
    simp [Effect.isIdle] at this

/-- C77: at the end of every callback each action of the set that serves the request is completed or is held back for
one of the reasons of `HeldBack`, unless the request has been ended early. -/
theorem C77_held_back (parse : Text → Option Expr) (cfg : PluginConfig) (factory : Factory) (host : H)
    (s : ActionSet) (hs : ServedBy o parse cfg factory host s) (events : List (Event H)) (e : Event H)
    (hhit : .hits ∈ (Filter.run o factory host (events ++ [e])).log)
    (hfresh : Fresh (Filter.run o factory host (events ++ [e])).log)
    (hend : ¬ Ended (Filter.run o factory host (events ++ [e])).log) (i : Nat) (hi : i < s.actions.length) :
    .completed (natText i) ∈ (Filter.run o factory host (events ++ [e])).log ∨
    HeldBack s.actions (direct s.actions) (Filter.run o factory host events).log
      (Filter.run o factory host (events ++ [e])).log i := by
  obtain ⟨p, hb⟩ := hits_built hhit
  obtain ⟨b, hbuilt, hfs⟩ := servedBy_fromSet hs hb
  have hg := (explains_extra (o := o) s.actions (direct s.actions)).run factory host p hb (fromSet_explains hbuilt hfs) events
  have := (fateKnown_lifts (o := o) s.actions (direct s.actions)).step (explains_extra _ _).stable hg e
    (run_not_crashed factory host p hb events)
  rw [← run_snoc] at this
  exact this hfresh hend i hi

/-- C77: the same for the first callback. -/
theorem C77_held_back_first (parse : Text → Option Expr) (cfg : PluginConfig) (factory : Factory) (host : H)
    (s : ActionSet) (hs : ServedBy o parse cfg factory host s)
    (hhit : .hits ∈ (Filter.run o factory host []).log) (hfresh : Fresh (Filter.run o factory host []).log)
    (hend : ¬ Ended (Filter.run o factory host []).log) (i : Nat) (hi : i < s.actions.length) :
    .completed (natText i) ∈ (Filter.run o factory host []).log ∨
    HeldBack s.actions (direct s.actions) [] (Filter.run o factory host []).log i := by
  obtain ⟨p, hb⟩ := hits_built hhit
  obtain ⟨b, hbuilt, hfs⟩ := servedBy_fromSet hs hb
  refine start_lift (fateKnown_lifts (o := o) s.actions (direct s.actions)) ?_ hb
    (.inl ⟨hits_live hb, fromSet_explains hbuilt hfs⟩) hfresh hend i hi
  intro base mid log h hf hend i hi
  rcases h hf hend i hi with h | h
  · exact .inl h
  · exact .inr (heldBack_mono (fun _ h => h) (fun _ h => h) (fun _ h => waitsNow_before h) h)

/-- A call that needs a field of the request body, and one behind it. -/
abbrev waitingCall : List ActionConfig :=
  [Demo.grpc "allow" (message := "body"), .typed Demo.headers, Demo.grpc "auth" (sequential := true)]

/-- The first action is started in every callback until the body has arrived. Here its message cannot be computed then,
so it fails, and the call behind it is held back for good. -/
example : Demo.view (Demo.request waitingCall [.requestBody 0 5 false, .requestBody 0 5 true]) =
    ["hits", "start 0", "start 1", "headers x=1", "completed 1", "continue", "start 0", "continue", "start 0",
      "call failed 0", "failed 0", "continue"] := by
  decide +kernel

/-- The hypotheses of `C77_held_back` and `C77_started` hold, with actions that are held back. -/
example : (∀ i < 3, .completed (natText i) ∈ Demo.request waitingCall [.requestBody 0 5 false] ∨
      HeldBack waitingCall (direct waitingCall) (Demo.request waitingCall []) (Demo.request waitingCall [.requestBody 0 5 false]) i) ∧
    WaitsNow (Demo.request waitingCall []) (Demo.request waitingCall [.requestBody 0 5 false]) (natText 0) := by
  have hhit : .hits ∈ Demo.request waitingCall [.requestBody 0 5 false] := by
    have h : (Demo.request waitingCall [.requestBody 0 5 false]).head? = some .hits := by with_unfolding_all rfl
    exact List.mem_of_mem_head? h
  have hfresh : Fresh (Demo.request waitingCall [.requestBody 0 5 false]) := fresh_of_check (by decide +kernel)
  have hx : .applied (natText 0) ∈ Demo.request waitingCall [.requestBody 0 5 false] := by
    have h : (Demo.request waitingCall [.requestBody 0 5 false])[1]? = some (.applied (natText 0)) := by
      with_unfolding_all rfl
    exact List.mem_of_getElem? h
  have hend : ¬ Ended (Demo.request waitingCall [.requestBody 0 5 false]) := not_ended _ (by decide +kernel)
  refine ⟨fun i hi => C77_held_back (o := Demo.world) Demo.parse (Demo.config waitingCall) _ 0 _
    (demo_served waitingCall (by decide +kernel) ⟨_, rfl⟩) [] (.requestBody 0 5 false) hhit hfresh hend i hi, ?_⟩
  rcases C77_started (o := Demo.world) (Demo.factory (Demo.config waitingCall)) 0 [] (.requestBody 0 5 false) (natText 0)
    hfresh hend hx with (h | h) | ⟨tok, pre, g, svc, b, r, post, h, _⟩ | h
  · have h2 : (Demo.request waitingCall [.requestBody 0 5 false]).all
        (fun | .completed x => !decide (x = natText 0) | _ => true) = true := by decide +kernel
    exact absurd (List.all_eq_true.1 h2 _ h) (by simp)
  · have h2 : (Demo.request waitingCall [.requestBody 0 5 false]).all
        (fun | .failed x => !decide (x = natText 0) | _ => true) = true := by decide +kernel
    exact absurd (List.all_eq_true.1 h2 _ h) (by simp)
  · have h2 : (Demo.request waitingCall [.requestBody 0 5 false]).all (fun | .dispatch .. => false | _ => true) = true := by
      decide +kernel
    have h3 : .dispatch (natText 0) g tok svc b r ∈ Demo.request waitingCall [.requestBody 0 5 false] := by
      show _ ∈ (Filter.run Demo.world _ 0 _).log
      exact h ▸ (by simp)
    exact absurd (List.all_eq_true.1 h2 _ h3) (by simp)
  · exact h

/-- Nothing of the kind is in the history. -/
theorem unheard_of (l : List Effect) (x : Text) (h : l.all (fun
    | .completed y => !decide (y = x) | .failed y => !decide (y = x) | .dispatch .. => false | _ => true) = true) :
    ¬ HasResult l x ∧ ¬ CallOut l x := by
  rw [List.all_eq_true] at h
  refine ⟨?_, ?_⟩
  · rintro (hm | hm) <;> exact absurd (h _ hm) (by simp)
  · rintro ⟨tok, pre, g, svc, b, r, post, h1, _⟩
    exact absurd (h (.dispatch x g tok svc b r) (by rw [h1]; simp)) (by simp)

/-- The hypotheses of `C77_retried` hold: the first action is started again in the second callback. -/
example : ∃ new, Demo.request waitingCall [.requestBody 0 5 false] = Demo.request waitingCall [] ++ new ∧
    .applied (natText 0) ∈ new := by
  have hx : .applied (natText 0) ∈ Demo.request waitingCall [] := by
    have h : (Demo.request waitingCall [])[1]? = some (.applied (natText 0)) := by with_unfolding_all rfl
    exact List.mem_of_getElem? h
  obtain ⟨h1, h2⟩ := unheard_of (Demo.request waitingCall []) (natText 0) (by decide +kernel)
  exact C77_retried (o := Demo.world) (Demo.factory (Demo.config waitingCall)) 0 [] (.requestBody 0 5 false) (natText 0)
    (fresh_of_check (by decide +kernel)) (not_ended _ (by decide +kernel)) hx h1 h2

end Verif.Props
