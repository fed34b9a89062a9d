import Verif.Props.Due
import Verif.Props.Hosted
/-! Examples for C73. -/
namespace Verif.Props.Writers
open Verif Spec

/-- Three paths, and constants. -/
def cel (t : Text) : Option CelExpr :=
  if t = "a.b".toList then some (.select (.ident "a".toList) "b".toList)
  else if t = "a.b.c".toList then some (.select (.select (.ident "a".toList) "b".toList) "c".toList)
  else if t = "c.d".toList then some (.select (.ident "c".toList) "d".toList)
  else some (.string t)

def exec (text : Text) (vars : List (Text × Val)) : Option Val :=
  match cel text with
  | some (.string t) => Hosted.constant t
  | some (.select (.ident a) b) => Hosted.field (mapGet vars a) b
  | some (.select (.select (.ident a) b) c) => Hosted.field (Hosted.field (mapGet vars a) b) c
  | _ => none

def set (actions : List ActionConfig) : ActionSet where
  name := "demo".toList
  hostnames := ["*.com".toList, "Example.com".toList]
  predicates := ["true".toList]
  actions := actions

/-- The host of `Hosted` with the reservations of the writers still to come. -/
def world (actions : List ActionConfig) : World Hosted.Proxy :=
  { Hosted.world with
    lib := { Hosted.lib with cel, exec }
    reserved := fun c => (dueWriters Demo.services (set actions) c.log).map fun p => (p, 1) }

theorem reserved (actions : List ActionConfig) (c : Ctx (Attrs Hosted.Proxy)) (path : Text) :
    path ∈ ((world actions).reserved c).map Prod.fst ↔ WriterDue Demo.services (set actions) c.log path := by
  rw [← dueWriters_iff]
  simp [world]

def factory (actions : List ActionConfig) : Factory :=
  (Factory.tryFrom (world actions).oracle.parse (Demo.config actions)).getD {}

def request (actions : List ActionConfig) (events : List (Event (Attrs Hosted.Proxy))) : List Effect :=
  (Filter.run (world actions).oracle (factory actions) { world := {} } events).log

/-- The second action is a call whose answer makes the filter store `a.b`; the first one refers to it. -/
def late : List ActionConfig :=
  [Hosted.headers "a.b", Demo.grpc "deny" [.store { predicate := "true".toList } "a.b".toList "headers".toList false]]

theorem served (actions : List ActionConfig)
    (h1 : (Factory.tryFrom (world actions).oracle.parse (Demo.config actions)).isSome = true)
    (h2 : (match ((factory actions).select (world actions).oracle { host := { world := {} } }).1 with
      | .found _ => true
      | _ => false) = true) :
    ServedBy (world actions).oracle (world actions).oracle.parse (Demo.config actions) (factory actions)
      { world := {} } (set actions) := by
  obtain ⟨b, hb⟩ : ∃ b, ((factory actions).select (world actions).oracle { host := { world := {} } }).1 = .found b := by
    split at h2
    · rename_i b hb; exact ⟨b, hb⟩
    · cases h2
  have hf : Factory.tryFrom (world actions).oracle.parse (Demo.config actions) = some (factory actions) := by
    unfold factory
    cases hf : Factory.tryFrom (world actions).oracle.parse (Demo.config actions) <;> simp_all
  rcases servedBy_exists (o := (world actions).oracle) (host := ({ world := {} } : Attrs Hosted.Proxy)) hf hb with
    ⟨s, hs, h⟩ | ⟨a, ha, _⟩
  · simp only [Demo.config, List.mem_singleton] at hs
    subst hs
    exact h
  · simp [devModeAction, Demo.config] at ha

theorem served_late : ServedBy (world late).oracle (world late).oracle.parse (Demo.config late) (factory late)
    { world := {} } (set late) := served late (by decide +kernel) (by decide +kernel)

/-- An answer to the call. -/
def answered (status : Nat) : List (Event (Attrs Hosted.Proxy)) := [.grpcResponse { world := {} } 0 status 1]

/-- The first action waits for the second one's reply action. -/
example : Demo.view (request late (answered 0)) =
    ["hits", "start 0", "start 1", "call 1 guard token 0", "pause", "response 0 status 0", "completed 1", "start 1.0",
      "stored a.b", "completed 1.0", "start 0", "headers :path=/,x=1", "completed 0", "resume request"] := by
  decide +kernel

/-- When it is run first, the writer is to come; when it is run again, it is not. -/
example : dueWriters Demo.services (set late) [.hits, .applied "0".toList] = ["a.b".toList] ∧
    dueWriters Demo.services (set late) (request late (answered 0)) = [] := by
  decide +kernel

/-- What the reservations are when actions are run. -/
example : (Filter.turnsAt (world late).oracle (factory late) { world := {} } [] none).map
      (fun m => (Demo.view m.1.log, m.2.flatMap PTask.reservations)) =
    [(["hits", "start 0"], ["a.b".toList]), (["hits", "start 0", "start 1"], ["a.b".toList])] ∧
    (Filter.turnsAt (world late).oracle (factory late) { world := {} } [] ((answered 0).head?)).map
      (fun m => m.2.flatMap PTask.reservations) = [["a.b".toList], []] := by
  decide +kernel

theorem acts_at (l : List Effect) (n : Nat) (x : Text) (h : (match l[n]?, l[n + 1]? with
    | some (.applied y), some (.headersSet .request _) => decide (y = x)
    | _, _ => false) = true) :
    ∃ pre post hs, l = pre ++ .applied x :: .headersSet .request hs :: post := by
  split at h
  · rename_i y hs h1 h2
    rw [decide_eq_true_eq] at h
    subst h
    refine ⟨l.take n, l.drop (n + 2), hs, ?_⟩
    obtain ⟨k1, h1⟩ := List.getElem?_eq_some_iff.1 h1
    obtain ⟨k2, h2⟩ := List.getElem?_eq_some_iff.1 h2
    have e1 : l.drop n = l[n] :: l.drop (n + 1) := List.drop_eq_getElem_cons k1
    have e2 : l.drop (n + 1) = l[n + 1] :: l.drop (n + 2) := List.drop_eq_getElem_cons k2
    rw [← h1, ← h2, ← e2, ← e1, List.take_append_drop]
  · cases h

/-- The hypotheses of `C73_waits` are met by the effect of the first action. -/
example : (∃ pre post hs, request late (answered 0) = pre ++ .applied "0".toList :: .headersSet .request hs :: post) ∧
    At Demo.services (set late) "0".toList (.headers { predicate := "true".toList } .request "a.b".toList) ∧
    "a.b".toList ∈ expressionsOf (.headers { predicate := "true".toList } .request "a.b".toList) ∧
    Refers (.select (.ident "a".toList) "b".toList) ["a".toList, "b".toList] :=
  ⟨acts_at _ 10 _ (by decide +kernel), .top (i := 0) rfl rfl, by simp [expressionsOf],
    .chain (.select "b".toList (.ident "a".toList)) (by decide)⟩

end Verif.Props.Writers

namespace Verif.Props
open Verif Spec

/-- C73, deviation: an action that refers to a value stored by an action listed after it waits, but the request does
not wait for it: it goes on to the upstream without the headers the action was to set, and the action is run
again when the response headers come. -/
theorem C73_later_writer :
    Demo.view (Writers.request [Hosted.headers "a.b", Hosted.store "a.b" "headers"] []) =
      ["hits", "start 0", "start 1", "stored a.b", "completed 1", "continue"] ∧
    Demo.view (Writers.request [Hosted.headers "a.b", Hosted.store "a.b" "headers"]
        [.responseHeaders { world := {} }]) =
      ["hits", "start 0", "start 1", "stored a.b", "completed 1", "continue", "allowed", "start 0",
        "headers :path=/,x=1", "completed 0", "continue"] := by
  decide +kernel

/-- C73, deviation: an action does not wait for an action that stores a value below a path it refers to. It sees what
was stored before. -/
theorem C73_writer_below :
    Demo.view (Writers.request [Hosted.headers "a.b", Hosted.store "a.b.c" "headers"] []) =
      ["hits", "start 0", "completed 0", "start 1", "stored a.b.c", "completed 1", "continue"] := by
  decide +kernel

/-- C73, deviation: actions that wait for each other, or for themselves, never store anything, and the request goes on
without them. -/
theorem C73_cycle :
    Demo.view (Writers.request [Hosted.store "a.b" "c.d", Hosted.store "c.d" "a.b"] [.responseHeaders { world := {} }]) =
      ["hits", "start 0", "start 1", "continue", "allowed", "start 0", "start 1", "continue"] ∧
    Demo.view (Writers.request [Hosted.store "a.b" "a.b"] [.responseHeaders { world := {} }]) =
      ["hits", "start 0", "continue", "allowed", "start 0", "continue"] := by
  decide +kernel

end Verif.Props
