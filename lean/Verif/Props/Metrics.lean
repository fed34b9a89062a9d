import Verif.Spec.Metrics
import Verif.Lemmas.Counters
import Verif.Lemmas.Root
import Verif.Props.Root
import Verif.Props.Lifecycle
/-! C75: the counters the host sees. -/
set_option linter.unusedSimpArgs false
namespace Verif.Props
open Verif Spec

variable {P H : Type} {lib : DescLib P} {parse : Text → Option Expr} {o : Oracle H}

/-- The state after the first use. -/
def ready (define : Metrics.Host) (calls : List MetricCall) : Metrics where
  backend := true
  counters := (({ backend := true } : Metrics).force define).counters
  calls := calls

theorem force_first (define : Metrics.Host) :
    (({ backend := true } : Metrics).force define) = ready define definitions := rfl

theorem force_ready (define : Metrics.Host) (calls : List MetricCall) :
    (ready define calls).force define = ready define calls := rfl

theorem getCounter_ready (define : Metrics.Host) (calls : List MetricCall) (c : Counter) :
    (ready define calls).getCounter c.name = given define c := by
  cases c <;> rfl

theorem increment_ready (define : Metrics.Host) (calls : List MetricCall) (c : Counter) :
    (ready define calls).increment define c =
      ready define (calls ++ ([c].filterMap fun c => (given define c).map (.increment · 1))) := by
  unfold Metrics.increment
  rw [force_ready]
  simp only
  rw [getCounter_ready]
  cases h : given define c with
  | none => simp [Metrics.incBy, h]
  | some id => simp [Metrics.incBy, h, ready]

theorem foldl_ready (define : Metrics.Host) (cs : List Counter) (calls : List MetricCall) :
    cs.foldl (Metrics.increment define) (ready define calls) =
      ready define (calls ++ cs.filterMap fun c => (given define c).map (.increment · 1)) := by
  induction cs generalizing calls with
  | nil => simp
  | cons c cs ih =>
    rw [List.foldl_cons, increment_ready, ih]
    congr 1
    rw [List.append_assoc, ← List.filterMap_append]
    rfl

/-- C75: what the host is asked to do for a sequence of things to count. -/
theorem C75_calls (define : Metrics.Host) (cs : List Counter) :
    (cs.foldl (Metrics.increment define) ({} : Metrics).registerBackend).calls = counterCalls define cs := by
  cases cs with
  | nil => rfl
  | cons c cs =>
    have : (({} : Metrics).registerBackend).increment define c = (ready define definitions).increment define c := rfl
    rw [List.foldl_cons, this, ← List.foldl_cons, foldl_ready]
    rfl

theorem run_vm (define : Metrics.Host) (ops : List (VmOp H)) :
    (Metered.run lib parse o define ops).vm = Vm.run lib parse o ops := by
  induction ops using snoc_ind with
  | nil => rfl
  | snoc ops op ih =>
    have h1 : Metered.run lib parse o define (ops ++ [op]) = (Metered.run lib parse o define ops).step lib parse o define op := by
      simp [Metered.run]
    have h2 : Vm.run lib parse o (ops ++ [op]) = (Vm.run lib parse o ops).step lib parse o op := by
      simp [Vm.run]
    rw [h1, h2, ← ih]; rfl

/-- Contexts of a history. -/
structure Contexts (o : Oracle H) (vm : Vm P H) (ops : List (VmOp H)) : Prop where
  nodup : (vm.contexts.map Prod.fst).Nodup
  known : ∀ e ∈ vm.contexts, e.1 ∈ ops.filterMap created
  begun : ∀ e ∈ vm.contexts, e.2.filter.isSome = true → e.1 ∈ ops.filterMap Spec.begun
  run : ∀ e ∈ vm.contexts, ∀ f, e.2.filter = some f → ∃ host events, f = Filter.run o e.2.factory host events

theorem mapGet_mem {α β : Type} [DecidableEq α] {l : List (α × β)} {k : α} {v : β} (h : mapGet l k = some v) : (k, v) ∈ l := by
  unfold mapGet at h
  cases hf : l.find? (fun e => e.1 = k) with
  | none => rw [hf] at h; cases h
  | some e =>
    rw [hf] at h
    cases h
    have h1 := List.find?_some hf
    have h2 := List.mem_of_find?_eq_some hf
    simp only [decide_eq_true_eq] at h1
    obtain ⟨a, b⟩ := e
    cases h1
    exact h2

theorem modify_sum (l : List (Nat × HttpCtx H)) (id : Nat) (f : HttpCtx H → HttpCtx H) (g : HttpCtx H → Nat) (d : Nat)
    (hn : (l.map Prod.fst).Nodup) (hd : ∀ c, mapGet l id = some c → g (f c) = g c + d) (hd0 : mapGet l id = none → d = 0) :
    ((l.map fun e => if e.1 = id then (e.1, f e.2) else e).map fun e => g e.2).sum = (l.map fun e => g e.2).sum + d := by
  induction l with
  | nil => simp [hd0 rfl]
  | cons e l ih =>
    obtain ⟨k, c⟩ := e
    rw [List.map_cons, List.nodup_cons] at hn
    simp only [List.map_cons, List.sum_cons]
    by_cases hk : k = id
    · subst hk
      have h1 : mapGet ((k, c) :: l) k = some c := by simp [mapGet]
      have h2 : (l.map fun e => if e.1 = k then (e.1, f e.2) else e) = l := by
        conv => rhs; rw [← List.map_id l]
        apply List.map_congr_left
        intro e he
        have : e.1 ≠ k := fun h => hn.1 (List.mem_map.2 ⟨e, he, h⟩)
        simp [this]
      rw [h2]
      simp only [if_true]
      rw [hd c h1]
      omega
    · have h1 : mapGet ((k, c) :: l) id = mapGet l id := by simp [mapGet, hk]
      rw [h1] at hd hd0
      simp only [hk, if_false]
      rw [ih hn.2 hd hd0]
      omega

theorem run_ghost (factory : Factory) (host : H) (events : List (Event H)) :
    Ghost Sound (Filter.run o factory host events) := run_sound factory host events

theorem contexts_step (vm : Vm P H) (ops : List (VmOp H)) (op : VmOp H) (hc : Contexts o vm ops)
    (hd : Distinct (ops ++ [op])) : Contexts o (vm.step lib parse o op) (ops ++ [op]) := by
  have more : ∀ {α : Type} (f : VmOp H → Option α) x, x ∈ ops.filterMap f → x ∈ (ops ++ [op]).filterMap f := by
    intro α f x hx
    rw [List.filterMap_append]
    exact List.mem_append_left _ hx
  cases op with
  | create id =>
    have hnew : id ∉ ops.filterMap created := by
      have := hd.created
      rw [List.filterMap_append, List.nodup_append] at this
      intro hm
      exact this.2.2 id hm id (by simp [created]) rfl
    have hno : ∀ e ∈ vm.contexts, e.1 ≠ id := fun e he h => hnew (h ▸ hc.known e he)
    have hf : vm.contexts.filter (fun e => e.1 ≠ id) = vm.contexts := List.filter_eq_self.2 fun e he => by simpa using hno e he
    have hcs : (vm.step lib parse o (.create id)).contexts = (id, { factory := vm.root.factory }) :: vm.contexts := by
      simp only [Vm.step, mapInsert, hf]
    constructor
    · rw [hcs, List.map_cons, List.nodup_cons]
      refine ⟨?_, hc.nodup⟩
      intro hm
      obtain ⟨e, he, h⟩ := List.mem_map.1 hm
      exact hno e he h
    · rw [hcs]
      intro e he
      rcases List.mem_cons.1 he with rfl | he
      · simp [created]
      · exact more _ _ (hc.known e he)
    · rw [hcs]
      intro e he h
      rcases List.mem_cons.1 he with rfl | he
      · cases h
      · exact more _ _ (hc.begun e he h)
    · rw [hcs]
      intro e he f h
      rcases List.mem_cons.1 he with rfl | he
      · cases h
      · exact hc.run e he f h
  | headers id host =>
    constructor
    · simp only [Vm.step, Vm.modify, List.map_map]
      have : (Prod.fst ∘ fun e : Nat × HttpCtx H => if e.1 = id then (e.1, ({ e.2 with filter := some (Filter.start o e.2.factory host) } : HttpCtx H)) else e) = Prod.fst := by
        funext e; simp only [Function.comp]; split <;> rfl
      rw [this]; exact hc.nodup
    · intro e he
      simp only [Vm.step, Vm.modify, List.mem_map] at he
      obtain ⟨e', he', rfl⟩ := he
      have := more _ _ (hc.known e' he')
      split <;> exact this
    · intro e he h
      simp only [Vm.step, Vm.modify, List.mem_map] at he
      obtain ⟨e', he', rfl⟩ := he
      split at h
      · rename_i hid
        simp [hid, Spec.begun]
      · rename_i hid
        simp only [hid, if_false]
        exact more _ _ (hc.begun e' he' h)
    · intro e he f h
      simp only [Vm.step, Vm.modify, List.mem_map] at he
      obtain ⟨e', he', rfl⟩ := he
      split at h
      · rename_i hid
        simp only [hid, if_true]
        cases h
        exact ⟨host, [], rfl⟩
      · rename_i hid
        simp only [hid, if_false]
        exact hc.run e' he' f h
  | event id x =>
    constructor
    · simp only [Vm.step, Vm.modify, List.map_map]
      have : (Prod.fst ∘ fun e : Nat × HttpCtx H => if e.1 = id then (e.1, ({ e.2 with filter := e.2.filter.map fun f => f.step o x } : HttpCtx H)) else e) = Prod.fst := by
        funext e; simp only [Function.comp]; split <;> rfl
      rw [this]; exact hc.nodup
    · intro e he
      simp only [Vm.step, Vm.modify, List.mem_map] at he
      obtain ⟨e', he', rfl⟩ := he
      have := more _ _ (hc.known e' he')
      split <;> exact this
    · intro e he h
      simp only [Vm.step, Vm.modify, List.mem_map] at he
      obtain ⟨e', he', rfl⟩ := he
      have : e'.2.filter.isSome = true := by
        split at h
        · simpa using h
        · exact h
      have := more _ _ (hc.begun e' he' this)
      split <;> exact this
    · intro e he f h
      simp only [Vm.step, Vm.modify, List.mem_map] at he
      obtain ⟨e', he', rfl⟩ := he
      split at h
      · rename_i hid
        simp only [hid, if_true]
        simp only [Option.map_eq_some_iff] at h
        obtain ⟨f', hf', rfl⟩ := h
        obtain ⟨host, events, rfl⟩ := hc.run e' he' f' hf'
        exact ⟨host, events ++ [x], by simp [Filter.run]⟩
      · rename_i hid
        simp only [hid, if_false]
        exact hc.run e' he' f h
  | _ => exact ⟨hc.nodup, fun e he => more _ _ (hc.known e he), fun e he h => more _ _ (hc.begun e he h), hc.run⟩

theorem distinct_init {ops : List (VmOp H)} {op : VmOp H} (h : Distinct (ops ++ [op])) : Distinct ops := by
  constructor
  · have := h.created
    rw [List.filterMap_append, List.nodup_append] at this
    exact this.1
  · have := h.begun
    rw [List.filterMap_append, List.nodup_append] at this
    exact this.1

theorem vm_contexts (ops : List (VmOp H)) (hd : Distinct ops) : Contexts o (Vm.run lib parse o ops) ops := by
  induction ops using snoc_ind with
  | nil => exact ⟨by simp [Vm.run], by simp [Vm.run], by simp [Vm.run], by simp [Vm.run]⟩
  | snoc ops op ih =>
    rw [vm_run_snoc]
    exact contexts_step _ ops op (ih (distinct_init hd)) hd

/-- One more callback changes the totals by what it uses. -/
theorem total_step (ops : List (VmOp H)) (op : VmOp H) (hd : Distinct (ops ++ [op])) (c : Counter) :
    total (Vm.run lib parse o (ops ++ [op])) (ops ++ [op]) c =
      total (Vm.run lib parse o ops) ops c + ((Vm.run lib parse o ops).used o op).count c := by
  have hc : Contexts o (Vm.run lib parse o ops) ops := vm_contexts ops (distinct_init hd)
  rw [vm_run_snoc]
  generalize Vm.run lib parse o ops = vm at hc
  unfold total
  rw [List.countP_append]
  have count_eq : ∀ l : List Effect, (l.filterMap Effect.counter).count c = l.countP fun x => Counts c x := by
    intro l
    rw [List.count, List.countP_filterMap]
    congr 1
    funext x
    cases x <;> cases c <;> rfl
  cases op with
  | create id =>
    have hnew : id ∉ ops.filterMap created := by
      have := hd.created
      rw [List.filterMap_append, List.nodup_append] at this
      intro hm
      exact this.2.2 id hm id (by simp [created]) rfl
    have hno : ∀ e ∈ vm.contexts, e.1 ≠ id := fun e he h => hnew (h ▸ hc.known e he)
    have hf : vm.contexts.filter (fun e => e.1 ≠ id) = vm.contexts := List.filter_eq_self.2 fun e he => by simpa using hno e he
    have hcs : (vm.step lib parse o (.create id)).contexts = (id, { factory := vm.root.factory }) :: vm.contexts := by
      simp only [Vm.step, mapInsert, hf]
    rw [hcs]
    simp [Vm.used, effectsOf, configures]
  | headers id host =>
    have hnew : id ∉ ops.filterMap Spec.begun := by
      have := hd.begun
      rw [List.filterMap_append, List.nodup_append] at this
      intro hm
      exact this.2.2 id hm id (by simp [Spec.begun]) rfl
    have hs := modify_sum vm.contexts id (fun c => { c with filter := some (Filter.start o c.factory host) })
      (fun e => (effectsOf e).countP fun x => Counts c x) ((vm.used o (.headers id host)).count c) hc.nodup
      (by
        intro ctx hctx
        have hm := mapGet_mem hctx
        have h0 : ctx.filter = none := by
          cases hf : ctx.filter with
          | none => rfl
          | some f => exact absurd (hc.begun _ hm (by simp [hf])) hnew
        simp only [Vm.used, hctx, count_eq, effectsOf, h0, Option.map_some, Option.map_none, Option.getD_some,
          Option.getD_none, List.countP_nil, Nat.zero_add])
      (by intro hn; simp [Vm.used, hn])
    simp only [Vm.step, Vm.modify]
    rw [hs]
    simp only [List.countP_cons, List.countP_nil, configures]
    simp
    omega
  | event id x =>
    have hs := modify_sum vm.contexts id (fun c => { c with filter := c.filter.map fun f => f.step o x })
      (fun e => (effectsOf e).countP fun x => Counts c x) ((vm.used o (.event id x)).count c) hc.nodup
      (by
        intro ctx hctx
        have hm := mapGet_mem hctx
        cases hf : ctx.filter with
        | none => simp [Vm.used, hctx, hf, effectsOf]
        | some f =>
          obtain ⟨host, events, rfl⟩ := hc.run _ hm f hf
          obtain ⟨es, hes, _⟩ := step_later (o := o) _ x (run_ghost (o := o) ctx.factory host events)
          simp only [Vm.used, hctx, Option.bind_some, hf, count_eq, effectsOf, Option.map_some, Option.getD_some, hes,
            List.drop_left, List.countP_append])
      (by intro hn; simp [Vm.used, hn])
    simp only [Vm.step, Vm.modify]
    rw [hs]
    simp only [List.countP_cons, List.countP_nil, configures]
    simp
    omega
  | configure cfg d ok =>
    simp only [Vm.step, Vm.used, List.countP_cons, List.countP_nil, List.count_cons, List.count_nil, configures]
    cases c <;> simp <;> omega
  | _ => simp [Vm.step, Vm.used, configures]

/-- C75: after any history, the host has been asked to increase a counter it knows exactly as often as what it counts
occurred, always by one, and each counter was made known to it once. -/
theorem C75_totals (define : Metrics.Host) (ops : List (VmOp H)) (hd : Distinct ops) :
    ∃ cs : List Counter, (Metered.run lib parse o define ops).metrics.calls = counterCalls define cs ∧
      ∀ c, cs.count c = total (Vm.run lib parse o ops) ops c := by
  suffices h : ∃ cs : List Counter, (Metered.run lib parse o define ops).metrics =
      cs.foldl (Metrics.increment define) ({} : Metrics).registerBackend ∧
      ∀ c, cs.count c = total (Vm.run lib parse o ops) ops c by
    obtain ⟨cs, h1, h2⟩ := h
    exact ⟨cs, by rw [h1, C75_calls], h2⟩
  induction ops using snoc_ind with
  | nil => exact ⟨[], rfl, fun c => by simp [total, Vm.run]⟩
  | snoc ops op ih =>
    obtain ⟨cs, h1, h2⟩ := ih (distinct_init hd)
    have hs : Metered.run lib parse o define (ops ++ [op]) = (Metered.run lib parse o define ops).step lib parse o define op := by
      simp [Metered.run]
    refine ⟨cs ++ (Vm.run lib parse o ops).used o op, ?_, fun c => ?_⟩
    · rw [hs, List.foldl_append, ← h1, ← run_vm (lib := lib) (parse := parse) (o := o) define ops]; rfl
    · rw [List.count_append, h2, total_step ops op hd]

/-- C75: the increments of one counter, for a host that keeps counters apart. -/
theorem C75_counter (define : Metrics.Host) (ops : List (VmOp H)) (hd : Distinct ops) (c : Counter) (n : Nat)
    (hc : given define c = some n) (hn : ∀ c', given define c' = some n → c' = c) :
    (Metered.run lib parse o define ops).metrics.calls.count (.increment n 1) = total (Vm.run lib parse o ops) ops c := by
  obtain ⟨cs, h1, h2⟩ := C75_totals (lib := lib) (parse := parse) (o := o) define ops hd
  rw [h1, ← h2]
  have hdef : definitions.count (.increment n 1) = 0 := by
    rw [List.count_eq_zero]
    intro h
    simp [definitions] at h
  have key : ∀ cs : List Counter, (cs.filterMap fun c => (given define c).map (MetricCall.increment · 1)).count (.increment n 1) =
      cs.count c := by
    intro cs
    rw [List.count, List.countP_filterMap, List.count]
    apply List.countP_congr
    intro x _
    cases hx : given define x with
    | none =>
      have : x ≠ c := by rintro rfl; rw [hc] at hx; cases hx
      simp [this]
    | some m =>
      by_cases h : x = c
      · subst h
        rw [hc] at hx
        cases hx
        simp
      · have : m ≠ n := by rintro rfl; exact h (hn x hx)
        simp [h, this]
  cases cs with
  | nil => rfl
  | cons x cs =>
    show (definitions ++ _).count _ = _
    rw [List.count_append, hdef, key, Nat.zero_add]

/-- C75: a request is counted at most once as a hit or a miss. -/
theorem C75_requests (ops : List (VmOp H)) (hd : Distinct ops) :
    total (Vm.run lib parse o ops) ops .hits + total (Vm.run lib parse o ops) ops .misses ≤ (ops.filterMap Spec.begun).length := by
  have hc : Contexts o (Vm.run lib parse o ops) ops := vm_contexts ops hd
  generalize Vm.run lib parse o ops = vm at hc
  unfold total
  rw [if_neg (by decide), if_neg (by decide), Nat.zero_add, Nat.zero_add]
  -- each request that began counts for at most one
  have hone : ∀ e ∈ vm.contexts, ((effectsOf e.2).countP fun x => Counts .hits x) +
      ((effectsOf e.2).countP fun x => Counts .misses x) ≤ if e.2.filter.isSome then 1 else 0 := by
    intro e he
    cases hf : e.2.filter with
    | none => simp [effectsOf, hf]
    | some f =>
      obtain ⟨host, events, rfl⟩ := hc.run e he f hf
      simp only [effectsOf, hf, Option.map_some, Option.getD_some, Option.isSome_some, if_true]
      by_cases hp : (Factory.build o e.2.factory { host := host } : Build H) = .panic
      · obtain ⟨es, hl, hes⟩ := run_later (o := o) e.2.factory host events
        have hst : (Filter.start o e.2.factory host).log = [] := by
          unfold Filter.start; simp [hp]
        rw [hl, hst, List.nil_append]
        have z1 : (es.countP fun x => Counts .hits x) = 0 := by
          rw [List.countP_eq_zero]; intro x hx h
          have := hes x hx
          cases x <;> simp_all [Counts, Effect.later]
        have z2 : (es.countP fun x => Counts .misses x) = 0 := by
          rw [List.countP_eq_zero]; intro x hx h
          have := hes x hx
          cases x <;> simp_all [Counts, Effect.later]
        rw [z1, z2]; omega
      · obtain ⟨a, rest, hl, ha, h1, h2⟩ := C16_counted_once (o := o) e.2.factory host events hp
        rw [hl]
        have z1 : (rest.countP fun x => Counts .hits x) = 0 := by
          rw [List.countP_eq_zero]; intro x hx h
          cases x <;> simp_all [Counts]
        have z2 : (rest.countP fun x => Counts .misses x) = 0 := by
          rw [List.countP_eq_zero]; intro x hx h
          cases x <;> simp_all [Counts]
        rw [List.countP_cons, List.countP_cons, z1, z2]
        rcases ha with rfl | rfl | rfl <;> simp [Counts]
  have hsum : ∀ l : List (Nat × HttpCtx H), (∀ e ∈ l, e ∈ vm.contexts) →
      (l.map fun e => (effectsOf e.2).countP fun x => Counts .hits x).sum +
        (l.map fun e => (effectsOf e.2).countP fun x => Counts .misses x).sum ≤
      (l.filter fun e => e.2.filter.isSome).length := by
    intro l hl
    induction l with
    | nil => simp
    | cons e l ih =>
      have := ih fun x hx => hl x (by simp [hx])
      have he := hone e (hl e (by simp))
      simp only [List.map_cons, List.sum_cons, List.filter_cons]
      split at he <;> rename_i hs
      · rw [if_pos hs, List.length_cons]; omega
      · rw [if_neg hs]; omega
  refine Nat.le_trans (hsum _ fun _ h => h) ?_
  -- they have different identifiers among those that began
  have hnd : ((vm.contexts.filter fun e => e.2.filter.isSome).map Prod.fst).Nodup :=
    hc.nodup.sublist ((List.filter_sublist).map _)
  have hsub : ∀ x ∈ (vm.contexts.filter fun e => e.2.filter.isSome).map Prod.fst, x ∈ ops.filterMap Spec.begun := by
    intro x hx
    obtain ⟨e, he, rfl⟩ := List.mem_map.1 hx
    have := List.mem_filter.1 he
    exact hc.begun e this.1 this.2
  rw [← List.length_map (f := Prod.fst)]
  exact List.Nodup.length_le_of_subset hnd hsub

/-- C75, against what the names say: a request can be counted both as denied and as allowed, since `allowed` is
increased whenever response headers arrive, those of the filter's own reply included. -/
theorem C75_allowed_deviation : ∃ ops : List (VmOp Nat), Distinct ops ∧ ops.filterMap Spec.begun = [1] ∧
    total (Vm.run (Pools.descriptors Pools.hash) Demo.parse Demo.world ops) ops .denied = 1 ∧
    total (Vm.run (Pools.descriptors Pools.hash) Demo.parse Demo.world ops) ops .allowed = 1 :=
  ⟨[.configure (some other) Pools.accept true, .create 1, .headers 1 0, .event 1 (.responseHeaders 0)],
    ⟨by decide, by decide⟩, by decide, by decide +kernel, by decide +kernel⟩

/-- A host that numbers counters but does not know `kuadrant.denied`. -/
def numbers : Metrics.Host := fun calls name => if name = "kuadrant.denied".toList then none else some (calls.length + 10)

def counted : List (VmOp Nat) :=
  [.configure (some other) Pools.accept true, .create 1, .configure none Pools.accept true, .create 2, .headers 1 0,
    .headers 2 0, .event 2 (.responseHeaders 0)]

example : (Metered.run (Pools.descriptors Pools.hash) Demo.parse Demo.world numbers counted).metrics.calls =
    definitions ++ [.increment 10 1, .increment 10 1, .increment 11 1, .increment 11 1, .increment 13 1] := by
  decide +kernel

/-- The hypotheses of `C75_counter` are met. -/
example : Distinct counted ∧ given numbers .hits = some 11 ∧ (∀ c', given numbers c' = some 11 → c' = .hits) ∧
    total (Vm.run (Pools.descriptors Pools.hash) Demo.parse Demo.world counted) counted .hits = 2 ∧
    total (Vm.run (Pools.descriptors Pools.hash) Demo.parse Demo.world counted) counted .denied = 2 := by
  refine ⟨⟨by decide, by decide⟩, by decide, ?_, by decide +kernel, by decide +kernel⟩
  intro c' h
  cases c' <;> first | rfl | (exfalso; revert h; decide)

end Verif.Props
