import Verif.Lemmas.Attempt
import Verif.Props.Order
/-! Failure modes: C08 and C09. -/
set_option linter.unusedSimpArgs false
namespace Verif.Props
open Verif Spec

variable {H : Type} (o : Oracle H)

/-- What follows the failure of an action that was started once. -/
theorem failure_followed (parse : Text → Option Expr) (cfg : PluginConfig) (factory : Factory)
    (host : H) (s : ActionSet) (hs : ServedBy o parse cfg factory host s)
    (i : Nat) (a : ActionConfig) (ha : s.actions[i]? = some a) (deny : Bool)
    (hm : FailureMode cfg.services deny a) (events : List (Event H)) :
    Follows deny (natText i) (Filter.run o factory host events).log := by
  by_cases hb : ∃ p, factory.build o { host := host } = .pipeline p
  · obtain ⟨p, hb⟩ := hb
    obtain ⟨b, hbuilt, hfs⟩ := servedBy_fromSet hs hb
    have hg := (minded_extra (o := o) deny i).run factory host p hb ?_ events
    · refine hg.log (Q := Follows deny (natText i)) ?_
      rintro q (⟨_, h⟩ | ⟨_, h⟩)
      · exact h.evs
      · exact h
    · have hlog0 : (p.push .hits).ctx.log = [.hits] := by simp [Pipe.push, Ctx.push, hbuilt.quiet.log]
      refine ⟨fromSet_kidless hbuilt hfs i, ?_, by simp [Pipe.push, hbuilt.deferred], ?_⟩
      · intro t ht hid
        left
        have htop : ∀ y ∈ b.actions, y.head.id = natText i →
            ∃ head kind svc var msg acts, y = .grpc head (.call kind svc deny) var msg acts := by
          intro y hy
          refine (set_only hfs i (R := fun y => y.head.id = natText i →
            ∃ head kind svc var msg acts, y = .grpc head (.call kind svc deny) var msg acts)
            (fun y hy h => absurd h hy) ?_ y hy).here
          intro a' deps' t y ha' hd' hst hco _
          rw [ha] at ha'
          cases ha'
          have hcall : ∃ h service var message replies, t = .grpc h service var message replies ∧
              ∃ kind svc, cfg.services service = some (.call kind svc deny) := by
            cases hst with
            | typed t =>
              cases t with
              | grpc => exact ⟨_, _, _, _, _, rfl, hm⟩
              | _ => exact hm.elim
            | legacy _ _ kind => exact hm kind
          obtain ⟨h, service, var, message, replies, rfl, kind, svc, hsvc⟩ := hcall
          cases hco with
          | grpc _ _ _ _ _ _ _ _ _ deny' _ _ _ hs' =>
            rw [hsvc] at hs'
            cases hs'
            exact ⟨_, _, _, _, _, _, rfl⟩
        rw [List.append_nil] at ht
        exact tops_guarded hbuilt.tops htop t ht hid
      · rw [hlog0]
        intro pre post hx
        have : Effect.callFailed (natText i) ∈ [Effect.hits] := by rw [hx]; simp
        simp at this
  · have hp := unrelated_run_idle (o := o) factory host events (fun p hp => hb ⟨p, hp⟩)
    intro pre post hx
    have := hp (.callFailed (natText i)) (by rw [hx]; simp)
    simp [Effect.unrelated] at this

/-- C08: the failure of an action whose service has failure mode deny, and which was not postponed before,
ends the request with a 500 reply. -/
theorem C08_fails_closed (parse : Text → Option Expr) (cfg : PluginConfig) (factory : Factory)
    (host : H) (s : ActionSet) (hs : ServedBy o parse cfg factory host s)
    (i : Nat) (a : ActionConfig) (ha : s.actions[i]? = some a)
    (hm : FailureMode cfg.services true a) (events : List (Event H)) (pre post : List Effect)
    (hlog : (Filter.run o factory host events).log = pre ++ .callFailed (natText i) :: post)
    (honce : timesStarted (natText i) pre ≤ 1) : FailsClosed post :=
  failure_followed o parse cfg factory host s hs i a ha true hm events pre post hlog honce

/-- C09: the failure of an action whose service has failure mode allow, and which was not postponed before,
completes the action. -/
theorem C09_fails_open (parse : Text → Option Expr) (cfg : PluginConfig) (factory : Factory)
    (host : H) (s : ActionSet) (hs : ServedBy o parse cfg factory host s)
    (i : Nat) (a : ActionConfig) (ha : s.actions[i]? = some a)
    (hm : FailureMode cfg.services false a) (events : List (Event H)) (pre post : List Effect)
    (hlog : (Filter.run o factory host events).log = pre ++ .callFailed (natText i) :: post)
    (honce : timesStarted (natText i) pre ≤ 1) : FailsOpen (natText i) post :=
  failure_followed o parse cfg factory host s hs i a ha false hm events pre post hlog honce

/-- Every response with an error status to a call in flight is a failure of the action. -/
theorem C08_error_status (factory : Factory) (host : H) (events : List (Event H))
    (pre post : List Effect) (token status size : Nat) (id : Text)
    (hlog : (Filter.run o factory host events).log = pre ++ .responded token status size :: post)
    (hstatus : status ≠ 0) (hcall : InFlightFor pre token id) (hend : ¬Ended pre) :
    ∃ rest, post = .callFailed id :: rest := by
  by_cases hb : ∃ p, factory.build o { host := host } = .pipeline p
  · obtain ⟨p, hb⟩ := hb
    obtain ⟨b, _, hbuilt⟩ := build_built o factory _ p hb
    have hlog0 : (p.push .hits).ctx.log = [.hits] := by simp [Pipe.push, Ctx.push, hbuilt.quiet.log]
    have hg := (held_extra (o := o) (P := fun _ => True) ⟨by simp, by simp, by simp⟩
      (by rintro x a b ⟨rest, rfl⟩; exact ⟨rest ++ b, rfl⟩) error_key).run factory host events p hb ?_
    · exact reacts_log hg pre token status size post id hlog hstatus hcall hend
    · refine ⟨⟨?_, ?_⟩, fun t _ => Core.all_of (fun _ => trivial) _⟩
      · intro tok x hx
        rw [hlog0] at hx
        exact absurd hx (inFlightFor_hits tok x)
      · rw [hlog0]; exact reacts_hits _ _
  · have hp := unrelated_run_idle (o := o) factory host events (fun p hp => hb ⟨p, hp⟩)
    obtain ⟨u, g, svc, b, rid, v, hx, _⟩ := hcall
    have := hp (.dispatch id g token svc b rid) (by rw [hlog, hx]; simp)
    simp [Effect.unrelated] at this

/-- A successful response that cannot be decoded is a failure of an action with reply actions. -/
theorem C08_undecodable (parse : Text → Option Expr) (cfg : PluginConfig) (factory : Factory)
    (host : H) (s : ActionSet) (hs : ServedBy o parse cfg factory host s)
    (i : Nat) (a : ActionConfig) (ha : s.actions[i]? = some a) (pred msg : Expr) (svc : Svc)
    (hcallOf : CallOf parse cfg.services pred msg svc a) (hrep : HasReplies a)
    (events : List (Event H)) (pre post : List Effect) (token size : Nat)
    (hlog : (Filter.run o factory host events).log = pre ++ .responded token 0 size :: post)
    (hcall : InFlightFor pre token (natText i)) (hend : ¬Ended pre)
    (hbad : ∀ c : Ctx H, Hearing o factory host events token 0 size c → c.log = pre ++ [.responded token 0 size] →
      (o.response c svc size).1 = none) :
    ∃ rest, post = .callFailed (natText i) :: rest := by
  by_cases hb : ∃ p, factory.build o { host := host } = .pipeline p
  · obtain ⟨p, hb⟩ := hb
    obtain ⟨b, hbuilt, hfs⟩ := servedBy_fromSet hs hb
    have hlog0 : (p.push .hits).ctx.log = [.hits] := by simp [Pipe.push, Ctx.push, hbuilt.quiet.log]
    have hg := (held_extra (o := o) (theCall_closed _ _ _ _ _)
      (by rintro x a b ⟨rest, rfl⟩; exact ⟨rest ++ b, rfl⟩)
      (undecodable_key (natText i) pred msg svc)).run factory host events p hb ?_
    · exact reacts_log hg pre token 0 size post _ hlog ⟨rfl, rfl, hbad⟩ hcall hend
    · refine ⟨⟨?_, ?_⟩, ?_⟩
      · intro tok x hx
        rw [hlog0] at hx
        exact absurd hx (inFlightFor_hits tok x)
      · rw [hlog0]; exact reacts_hits _ _
      · have := fromSet_theCall hbuilt hfs i a ha pred msg svc hcallOf
        rw [show HasReplies a = True from propext ⟨fun _ => trivial, fun _ => hrep⟩] at this
        exact this
  · have hp := unrelated_run_idle (o := o) factory host events (fun p hp => hb ⟨p, hp⟩)
    obtain ⟨u, g, svc, b, rid, v, hx, _⟩ := hcall
    have := hp (.dispatch (natText i) g token svc b rid) (by rw [hlog, hx]; simp)
    simp [Effect.unrelated] at this

/-- An action that is started and cannot be sent is a failure of the action. -/
theorem C08_cannot_send (parse : Text → Option Expr) (cfg : PluginConfig) (factory : Factory)
    (host : H) (s : ActionSet) (hs : ServedBy o parse cfg factory host s)
    (i : Nat) (a : ActionConfig) (ha : s.actions[i]? = some a) (pred msg : Expr) (svc : Svc)
    (hcallOf : CallOf parse cfg.services pred msg svc a)
    (events : List (Event H)) (pre post : List Effect)
    (hlog : (Filter.run o factory host events).log = pre ++ .applied (natText i) :: post)
    (hbad : ∀ c : Ctx H, Acting o factory host events c → c.log = pre ++ [.applied (natText i)] →
      CallFails o c (natText i) pred msg svc) :
    ∃ rest, post = .callFailed (natText i) :: rest := by
  by_cases hb : ∃ p, factory.build o { host := host } = .pipeline p
  · obtain ⟨p, hb⟩ := hb
    obtain ⟨b, hbuilt, hfs⟩ := servedBy_fromSet hs hb
    have hlog0 : (p.push .hits).ctx.log = [.hits] := by simp [Pipe.push, Ctx.push, hbuilt.quiet.log]
    have hg := (attempts_extra (o := o) (natText i) pred msg svc (HasReplies a)).run factory host events p hb ?_
    · have : Attempts o (Acting o factory host events) (natText i) pred msg svc (Filter.run o factory host events).log := by
        refine hg.log (Q := Attempts o (Acting o factory host events) (natText i) pred msg svc) ?_
        rintro q (⟨_, h⟩ | ⟨_, h⟩)
        · exact h.2
        · exact h
      exact this pre post hlog hbad
    · refine ⟨fromSet_theCall hbuilt hfs i a ha pred msg svc hcallOf, ?_⟩
      rw [hlog0]
      intro u v hx
      have : Effect.applied (natText i) ∈ [Effect.hits] := by rw [hx]; simp
      simp at this
  · have hp := unrelated_run_idle (o := o) factory host events (fun p hp => hb ⟨p, hp⟩)
    have := hp (.applied (natText i)) (by rw [hlog]; simp)
    simp [Effect.unrelated] at this

/-- One call with failure mode deny and one with failure mode allow. -/
def failing : List ActionConfig := [Demo.grpc "deny", Demo.grpc "allow"]

/-- The failing call ends the request with a 500 reply although another one is in flight. -/
example : Demo.view (Demo.request failing [.grpcResponse 2 0 13 0]) =
    ["hits", "start 0", "call 0 guard token 0", "start 1", "call 1 guard token 1", "pause",
      "response 0 status 13", "call failed 0", "errors", "denied", "reply 500", "ended"] := by
  decide +kernel

/-- Its hypotheses hold. -/
example : ServedBy Demo.world Demo.parse (Demo.config failing) (Demo.factory (Demo.config failing)) 0
      { name := "demo".toList, hostnames := ["*.com".toList, "Example.com".toList],
        predicates := ["true".toList], actions := failing } ∧
    FailureMode (Demo.config failing).services true (Demo.grpc "deny") ∧
    FailureMode (Demo.config failing).services false (Demo.grpc "allow") :=
  ⟨demo_served failing (by decide +kernel) ⟨_, rfl⟩, ⟨_, _, rfl⟩, ⟨_, _, rfl⟩⟩

/-- The failure of the other one is the same as a success; the request goes on when the first one succeeds. -/
example : Demo.view (Demo.request failing [.grpcResponse 2 1 13 0, .grpcResponse 2 0 0 0]) =
    ["hits", "start 0", "call 0 guard token 0", "start 1", "call 1 guard token 1", "pause",
      "response 1 status 13", "call failed 1", "errors", "completed 1",
      "response 0 status 0", "completed 0", "resume request"] := by
  decide +kernel

/-- Actions that depend on the failing call with failure mode allow are started. -/
example : Demo.view (Demo.request [Demo.grpc "allow", Demo.grpc "deny" (sequential := true)]
      [.grpcResponse 1 0 13 0]) =
    ["hits", "start 0", "call 0 guard token 0", "pause", "response 0 status 13", "call failed 0", "errors",
      "completed 0", "start 1", "call 1 guard token 1"] := by
  decide +kernel

/-- A predicate that is no boolean: the call cannot be sent. -/
example : Demo.view (Demo.request [Demo.grpc "deny" (predicate := "error")] []) =
    ["hits", "start 0", "call failed 0", "errors", "denied", "reply 500", "ended", "continue"] ∧
    CallOf Demo.parse Demo.services (Demo.const .null) (Demo.const .null) (Demo.svc "deny")
      (Demo.grpc "deny" (predicate := "error")) ∧
    ∀ c : Ctx Nat, CallFails Demo.world c (natText 0) (Demo.const .null) (Demo.const .null) (Demo.svc "deny") :=
  ⟨by decide +kernel, ⟨rfl, rfl, _, _, rfl⟩, fun _ => .predicate _ rfl⟩

/-- A host whose responses cannot be decoded. -/
def garbled : Oracle Nat := { Demo.world with response := fun c _ _ => (none, c.host) }

example : Demo.view (Filter.run garbled (Demo.factory (Demo.config [Demo.grpc "deny" [Demo.deny]])) 0
      [.grpcResponse 1 0 0 0]).log =
    ["hits", "start 0", "call 0 guard token 0", "pause", "response 0 status 0", "call failed 0", "errors",
      "denied", "reply 500", "ended"] ∧
    HasReplies (Demo.grpc "deny" [Demo.deny]) ∧
    ∀ c svc size, (garbled.response c svc size).1 = none :=
  ⟨by decide +kernel, by simp [Demo.grpc, HasReplies], fun _ _ _ => rfl⟩

/-- C08 does not hold of actions that were postponed: the action waits for data of the request body, fails
when it is started again, and the request goes on although the failure mode is deny. -/
theorem C08_postponed_fails_open : ∃ (cfg : PluginConfig) (factory : Factory) (events : List (Event Nat))
    (s : ActionSet) (a : ActionConfig) (pre post : List Effect),
    ServedBy Demo.world Demo.parse cfg factory 0 s ∧ s.actions[0]? = some a ∧
    FailureMode cfg.services true a ∧
    (Filter.run Demo.world factory 0 events).log = pre ++ .callFailed (natText 0) :: post ∧
    Demo.view post = ["failed 0", "continue"] :=
  ⟨Demo.config [Demo.grpc "deny" (predicate := "body")], _, [.requestBody 0 0 true], _, _,
    [.hits, .applied ['0'], .returned .requestHeaders false, .applied ['0']],
    [.failed ['0'], .returned .requestBody false],
    demo_served [Demo.grpc "deny" (predicate := "body")] (by decide +kernel) ⟨_, rfl⟩, rfl, ⟨_, _, rfl⟩,
    by with_unfolding_all rfl, by decide +kernel⟩

/-- Nor of calls that are reply actions: their failure is no failure of the request, whatever the failure
mode of their service. -/
theorem C08_reply_fails_open : ∃ (cfg : PluginConfig) (factory : Factory) (events : List (Event Nat)),
    Factory.tryFrom Demo.parse cfg = some factory ∧
    Demo.view (Filter.run Demo.world factory 0 events).log =
      ["hits", "start 0", "call 0 guard token 0", "pause", "response 0 status 0", "completed 0", "start 0.0",
        "call 0.0 guard token 1", "response 1 status 13", "call failed 0.0", "failed 0.0", "resume request"] :=
  ⟨Demo.config [Demo.grpc "deny" (onReply := [.grpc { predicate := "true".toList } "deny".toList "v".toList
      "null".toList []])], _, [.grpcResponse 1 0 0 0, .grpcResponse 2 1 13 0],
    Demo.factory_eq _ (by decide +kernel), by decide +kernel⟩

end Verif.Props
