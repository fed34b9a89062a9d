import Verif.Props.Descriptors
/-!
C37: which configuration serves a request, over every history of the virtual machine.
-/
set_option linter.unusedSimpArgs false
namespace Verif.Props
open Spec

variable {P H : Type} {lib : DescLib P} {parse : Text → Option Expr} {o : Oracle H}

/-- The configuration in force is the last one that compiles. -/
theorem C37_in_force (ops : List (VmOp H)) :
    (Vm.run lib parse o ops).root.factory = inForce parse ops := by
  induction ops using snoc_ind with
  | nil => rfl
  | snoc ops op ih =>
    rw [vm_run_snoc]
    unfold inForce at ih ⊢
    rw [List.foldl_append, ← ih]
    simp only [List.foldl_cons, List.foldl_nil]
    cases op with
    | configure cfg d ok =>
      cases cfg with
      | none => rfl
      | some cfg =>
        simp only [Vm.step]
        cases hc : compiled parse cfg with
        | none => exact (configure_rejected (Vm.run lib parse o ops).root cfg d ok hc).2.2
        | some f => exact (configure_accepted (Vm.run lib parse o ops).root cfg d ok hc).2
    | tick d => rfl
    | grpcResponse t s b => rfl
    | create id => rfl
    | headers id h => rfl
    | event id e => rfl

/-- A configuration that does not compile, or cannot be read, changes nothing for new requests. -/
theorem C37_rejected (ops more : List (VmOp H)) (cfg : Option RootConfig)
    (d : Text → List DescKey → Option Nat) (ok : Bool) (h : cfg.bind (compiled parse) = none) :
    inForce parse (ops ++ .configure cfg d ok :: more) = inForce parse (ops ++ more) := by
  unfold inForce
  rw [List.foldl_append, List.foldl_append, List.foldl_cons]
  cases cfg with
  | none => rfl
  | some cfg =>
    simp only [Option.bind_some] at h
    simp only [h, Option.getD_none]

theorem mapGet_modify (vm : Vm P H) (id id' : Nat) (f : HttpCtx H → HttpCtx H) :
    mapGet (vm.modify id f).contexts id' = if id' = id then (mapGet vm.contexts id').map f
      else mapGet vm.contexts id' := by
  unfold Vm.modify mapGet
  simp only
  induction vm.contexts with
  | nil => simp
  | cons e l ih =>
    obtain ⟨k, c⟩ := e
    rw [List.map_cons, List.find?_cons, List.find?_cons]
    by_cases hk : k = id
    · subst hk
      simp only [if_true]
      by_cases h : k = id'
      · subst h; simp
      · simp only [h, decide_false]
        exact ih
    · simp only [hk, if_false]
      by_cases h : k = id'
      · subst h; simp [hk]
      · simp only [h, decide_false]
        exact ih

theorem context_step (vm : Vm P H) (id : Nat) (op : VmOp H) (h : Later id op) :
    mapGet (vm.step lib parse o op).contexts id =
      (mapGet vm.contexts id).map fun c => { c with
        filter := c.filter.map fun f => (eventsOf id [op]).foldl (fun f e => f.step o e) f } := by
  have hid : (fun c : HttpCtx H => ({ c with filter := c.filter.map fun f => f } : HttpCtx H)) = _root_.id := by
    funext c; obtain ⟨f, x⟩ := c; cases x <;> rfl
  cases op with
  | event id' e =>
    simp only [Vm.step, mapGet_modify, eventsOf, List.filterMap_cons, List.filterMap_nil]
    by_cases he : id' = id
    · subst he; simp
    · have : ¬id = id' := fun h => he h.symm
      simp only [he, this, if_false, List.foldl_nil]
      rw [hid]; simp
  | create id' =>
    have hne : ¬id = id' := fun h' => h h'.symm
    simp only [Vm.step, mapGet_mapInsert, hne, if_false, eventsOf, List.filterMap_cons, List.filterMap_nil,
      List.foldl_nil]
    rw [hid]; simp
  | headers id' x =>
    have hne : ¬id = id' := fun h' => h h'.symm
    simp only [Vm.step, mapGet_modify, hne, if_false, eventsOf, List.filterMap_cons, List.filterMap_nil,
      List.foldl_nil]
    rw [hid]; simp
  | _ =>
    simp only [Vm.step, eventsOf, List.filterMap_cons, List.filterMap_nil, List.foldl_nil]
    rw [hid]; simp

theorem context_run (ops : List (VmOp H)) (id : Nat) (h : ∀ op ∈ ops, Later id op) (vm : Vm P H) :
    mapGet (ops.foldl (Vm.step lib parse o) vm).contexts id =
      (mapGet vm.contexts id).map fun c => { c with
        filter := c.filter.map fun f => (eventsOf id ops).foldl (fun f e => f.step o e) f } := by
  induction ops generalizing vm with
  | nil =>
    have hid : (fun c : HttpCtx H => ({ c with filter := c.filter.map fun f => f } : HttpCtx H)) = _root_.id := by
      funext c; obtain ⟨f, x⟩ := c; cases x <;> rfl
    simp only [List.foldl_nil, eventsOf, List.filterMap_nil]
    rw [hid]; simp
  | cons op ops ih =>
    rw [List.foldl_cons, ih (fun x hx => h x (List.mem_cons_of_mem _ hx)),
      context_step _ _ _ (h op (List.mem_cons_self ..))]
    have : eventsOf id (op :: ops) = eventsOf id [op] ++ eventsOf id ops := by
      rw [show op :: ops = [op] ++ ops from rfl]
      unfold eventsOf
      rw [List.filterMap_append]
    rw [this]
    cases mapGet vm.contexts id with
    | none => rfl
    | some c =>
      obtain ⟨f, x⟩ := c
      cases x <;> simp

/-- A request is processed from beginning to end with the configuration that was in force when its context
was created, whatever happens in between. -/
theorem C37_in_flight (before between after : List (VmOp H)) (id : Nat) (host : H)
    (h1 : ∀ op ∈ between, Later id op) (h2 : ∀ op ∈ after, Later id op) :
    (mapGet (Vm.run lib parse o (before ++ .create id :: between ++ .headers id host :: after)).contexts id).bind
      HttpCtx.filter = some (Filter.run o (inForce parse before) host (eventsOf id after)) := by
  rw [← C37_in_force (lib := lib) (o := o)]
  unfold Vm.run
  rw [List.foldl_append, List.foldl_append, List.foldl_cons, List.foldl_cons, context_run after id h2]
  generalize (List.foldl (Vm.step lib parse o) _ before) = vm
  simp only [Vm.step]
  rw [mapGet_modify, context_run between id h1, mapGet_mapInsert]
  simp only [if_true, Option.map_some, Option.map_none, Option.bind_some]
  rfl

/-- A rejected configuration leaves the descriptors of every service configured before as they are. -/
theorem C37_descriptors (ops : List (VmOp H)) (cfg : RootConfig) (d : Text → List DescKey → Option Nat)
    (ok : Bool) (h : compiled parse cfg = none) (earlier : RootConfig) (d0 : Text → List DescKey → Option Nat)
    (ok0 : Bool) (hin : .configure (some earlier) d0 ok0 ∈ ops) (hc : (compiled parse earlier).isSome)
    (key : DescKey) (hneeds : Needs earlier key) :
    (Vm.run lib parse o (ops ++ [.configure (some cfg) d ok])).root.manager.getPool key =
      (Vm.run lib parse o ops).root.manager.getPool key := by
  have hk := needs_known (lib := lib) (parse := parse) (o := o) hin hc hneeds
  rw [vm_run_snoc]
  show ((Vm.run lib parse o ops).root.onConfigure parse (some cfg) d ok).1.manager.getPool key = _
  rw [(configure_rejected (Vm.run lib parse o ops).root cfg d ok h).1]
  have hs := services_same cfg.services (Vm.run lib parse o ops).root.manager
  obtain ⟨s, hs'⟩ := Option.isSome_iff_exists.1 hk
  unfold Manager.getPool
  rw [hs.2.2.2 key s hs', hs', hs.1]

open Pools

/-- The level of the trace filter, however, is taken over from a configuration that is rejected. -/
theorem C37_trace_filter :
    compiled (fun _ => none) { broken with tracing := some "t".toList } = none ∧
    (run hash [.configure (some dynamic) accept true]).root.traceFilter = none ∧
    (run hash [.configure (some dynamic) accept true,
      .configure (some { broken with tracing := some "t".toList }) accept true]).root.traceFilter = some .warn := by
  refine ⟨?_, ?_, ?_⟩ <;> with_unfolding_all rfl

/-- A configuration that denies every request. -/
def other : RootConfig where
  actionSets := [
    { name := "s".toList, hostnames := ["*.com".toList], predicates := [], actions := [.typed Demo.deny] }]

/-- The log of a request. -/
def logOf (vm : Vm Bytes Nat) (id : Nat) : Option (List String) :=
  ((mapGet vm.contexts id).bind HttpCtx.filter).map fun f => Demo.view f.log

example : logOf (Vm.run (descriptors hash) Demo.parse Demo.world [.configure (some other) accept true,
      .configure (some broken) accept true, .create 1, .configure (some {}) accept true, .create 2,
      .headers 1 0, .headers 2 0]) 1 =
    some ["hits", "start 0", "denied", "reply 403", "ended", "continue"] := by
  decide +kernel
example : logOf (Vm.run (descriptors hash) Demo.parse Demo.world [.configure (some other) accept true,
      .configure (some broken) accept true, .create 1, .configure (some {}) accept true, .create 2,
      .headers 1 0, .headers 2 0]) 2 = some ["misses", "continue"] := by
  decide +kernel

example : ∀ op ∈ ([.configure (some other) accept true, .event 2 (.requestBody 0 3 true), .create 2] :
    List (VmOp Nat)), Later 1 op := by
  intro op h
  simp at h
  rcases h with rfl | rfl | rfl
  · exact trivial
  · exact trivial
  · exact fun h => nomatch h

end Verif.Props
