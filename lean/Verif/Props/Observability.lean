import Verif.Spec.Observability
import Verif.Lemmas.Basic
/-! C74: what is logged, and which level of traces is in force. -/
set_option linter.unusedSimpArgs false
namespace Verif.Props
open Verif Spec

variable {H : Type}

theorem enables_detail (f : Level) (e : EventLevel) : f.enables e = decide (detail e ≤ shows f) := by
  cases f <;> cases e <;> rfl

theorem current_wanted (h : Option HostLevel) : shows (currentLogFilter h) = wanted h := by
  cases h with
  | none => rfl
  | some l => cases l <;> rfl

theorem message_eq (fields : List (Text × Text)) (m : Text) :
    fields.foldl (fun m f => if f.1 = "message".toList then f.2 else m) m =
      (((fields.filter fun f => f.1 = "message".toList).getLast?).map Prod.snd).getD m := by
  generalize "message".toList = key
  induction fields generalizing m with
  | nil => rfl
  | cons f fields ih =>
    rw [List.foldl_cons, ih]
    by_cases h : f.1 = key
    · rw [List.filter_cons_of_pos (by simpa using h), if_pos h]
      cases hl : fields.filter (fun f => f.1 = key) with
      | nil => rfl
      | cons a l => rw [List.getLast?_cons_cons, List.getLast?_eq_some_getLast (l := a :: l) (by simp)]; rfl
    · rw [List.filter_cons_of_neg (by simpa using h), if_neg h]

theorem onEvent_eq (e : TraceEvent) : LogLayer.onEvent e = (e.level, message e) := by
  have : messageOf e.fields = message e := message_eq e.fields []
  unfold LogLayer.onEvent
  rw [this]
  split <;> simp_all

theorem run_snoc (ops : List (LogOp H)) (op : LogOp H) : Logs.run (ops ++ [op]) = (Logs.run ops).step op := by
  simp [Logs.run]

theorem otel_eq (cfg : RootConfig) : otelFilter cfg.tracing.isSome cfg.defaultLevel = traceLevel cfg := by
  unfold otelFilter traceLevel
  cases cfg.tracing with
  | none => rfl
  | some t =>
    simp only [Option.isSome_some, if_true, Option.map_some, Option.some.injEq]
    cases cfg.defaultLevel with
    | none => rfl
    | some l =>
      simp only [Option.some.injEq, Option.bind_some, levelNames]
      repeat' split
      all_goals (try (subst l; rfl))
      rename_i h1 h2 h3 h4 h5 h6
      have e : ∀ x : Text, l ≠ x → (l == x) = false := by simp
      simp only [List.lookup, e _ h1, e _ h2, e _ h3, e _ h4, e _ h5, e _ h6, Option.getD_none]

/-- The filters in force, from the history. -/
theorem filters_run (ops : List (LogOp H)) :
    match (Logs.run ops).filters with
    | none => lastConfig ops = none
    | some f => ∃ cfg host, lastConfig ops = some cfg ∧ lastAsked ops = some host ∧ f.otel = traceLevel cfg ∧
        f.log = currentLogFilter host := by
  induction ops using snoc_ind with
  | nil => rfl
  | snoc ops op ih =>
    rw [run_snoc]
    have hc : lastConfig (ops ++ [op]) = (readConfig op).or (lastConfig ops) := by
      unfold lastConfig
      rw [List.filterMap_append, List.getLast?_append]
      cases h : readConfig op <;> simp [h]
    have ha : lastAsked (ops ++ [op]) = (asked op).or (lastAsked ops) := by
      unfold lastAsked
      rw [List.filterMap_append, List.getLast?_append]
      cases h : asked op <;> simp [h]
    rw [hc, ha]
    generalize Logs.run ops = s at ih
    obtain ⟨filters, lines⟩ := s
    cases op with
    | event e =>
      have : ((⟨filters, lines⟩ : Logs).step (.event e : LogOp H)).filters = filters := by
        unfold Logs.step
        cases filters with
        | none => rfl
        | some f => simp only; split <;> rfl
      rw [this]
      simpa [readConfig, asked] using ih
    | callback op host =>
      cases op with
      | configure cfg d ok =>
        cases cfg with
        | none => simpa [readConfig, asked, Logs.step] using ih
        | some cfg =>
          cases filters with
          | none => simp [readConfig, asked, Logs.step, initObservability, otel_eq]
          | some f => simp [readConfig, asked, Logs.step, initObservability, setLogLevel, otel_eq]
      | create id =>
        cases filters with
        | none => simpa [readConfig, asked, Logs.step, setLogLevel] using ih
        | some f =>
          simp only at ih
          obtain ⟨cfg, host', h1, h2, h3, h4⟩ := ih
          simp [readConfig, asked, Logs.step, setLogLevel, h1, h3]
      | _ => simpa [readConfig, asked, Logs.step] using ih

/-- C74: the level of traces in force is that of the last configuration that was read, whether it was accepted or not:
the level it names, a warning if it names none or another word, and no filter at all if it has no tracing service. -/
theorem C74_traces (ops : List (LogOp H)) :
    ((Logs.run ops).filters.map (·.otel)) = (lastConfig ops).map traceLevel := by
  have h := filters_run ops
  cases hf : (Logs.run ops).filters with
  | none => rw [hf] at h; rw [h]; rfl
  | some f =>
    rw [hf] at h
    obtain ⟨cfg, host, h1, _, h3, _⟩ := h
    rw [h1]
    simp [h3]

/-- C74: the lines that are logged over a history, in order. -/
theorem C74_lines (ops : List (LogOp H)) : (Logs.run ops).lines = linesOf [] ops := by
  have key : ∀ (rest before : List (LogOp H)),
      (rest.foldl Logs.step (Logs.run before)).lines = (Logs.run before).lines ++ linesOf before rest := by
    intro rest
    induction rest with
    | nil => intro before; simp [linesOf]
    | cons op rest ih =>
      intro before
      rw [List.foldl_cons, ← run_snoc, ih]
      have hf := filters_run before
      cases op with
      | event e =>
        have hl : linesOf before (.event e :: rest) = lineOf before e ++ linesOf (before ++ [.event e]) rest := rfl
        rw [hl, ← List.append_assoc]
        congr 1
        rw [run_snoc]
        unfold Logs.step lineOf
        cases hs : (Logs.run before).filters with
        | none =>
          rw [hs] at hf
          rw [hf]
          simp
        | some f =>
          rw [hs] at hf
          obtain ⟨cfg, host, h1, h2, _, h4⟩ := hf
          rw [h1, h2]
          simp only
          rw [enables_detail, h4, current_wanted]
          by_cases hd : detail e.level ≤ wanted host
          · rw [if_pos (by simpa using hd), if_pos hd, onEvent_eq]
          · rw [if_neg (by simpa using hd), if_neg hd, List.append_nil]
      | callback op host =>
        have hl : linesOf before (.callback op host :: rest) = linesOf (before ++ [.callback op host]) rest := rfl
        rw [hl]
        congr 1
        rw [run_snoc]
        unfold Logs.step
        cases op with
        | configure cfg d ok => cases cfg <;> rfl
        | _ => rfl
  exact key ops []

/-- C74: a change of the host's level is not seen before the next request begins or a configuration is read: in
between, events are logged as before, whatever the host says now. -/
theorem C74_stale (before between : List (LogOp H)) (h : ∀ op ∈ between, asked op = none) (e : TraceEvent) :
    lineOf (before ++ between) e = lineOf before e := by
  have hr : ∀ op : LogOp H, asked op = none → readConfig op = none := by
    intro op ho
    cases op with
    | event e => rfl
    | callback op host =>
      cases op with
      | configure cfg d ok =>
        cases cfg with
        | none => rfl
        | some c => cases ho
      | _ => rfl
  have h1 : between.filterMap asked = [] := List.filterMap_eq_nil_iff.2 h
  have h2 : between.filterMap readConfig = [] := List.filterMap_eq_nil_iff.2 fun op ho => hr op (h op ho)
  unfold lineOf lastConfig lastAsked
  rw [List.filterMap_append, List.filterMap_append, h1, h2, List.append_nil, List.append_nil]

/-- C74: the trace filter of the root context is the one in force once a configuration was read. -/
theorem C74_root {P : Type} (lib : DescLib P) (parse : Text → Option Expr) (o : Oracle H) (ops : List (LogOp H))
    (cfg : RootConfig) (h : lastConfig ops = some cfg) :
    (Vm.run lib parse o (ops.filterMap fun | .callback op _ => some op | .event _ => none)).root.traceFilter =
      traceLevel cfg := by
  induction ops using snoc_ind with
  | nil => cases h
  | snoc ops op ih =>
    have hc : lastConfig (ops ++ [op]) = (readConfig op).or (lastConfig ops) := by
      unfold lastConfig
      rw [List.filterMap_append, List.getLast?_append]
      cases h : readConfig op <;> simp [h]
    rw [hc] at h
    cases op with
    | event e => simpa [readConfig] using ih (by simpa [readConfig] using h)
    | callback op host =>
      have hsnoc : ∀ l : List (VmOp H), Vm.run lib parse o (l ++ [op]) = (Vm.run lib parse o l).step lib parse o op := by
        intro l; simp [Vm.run]
      rw [List.filterMap_append]
      simp only [List.filterMap_cons, List.filterMap_nil]
      rw [hsnoc]
      generalize Vm.run lib parse o _ = vm at ih
      have hfetch : ∀ (r : Root P) d, (r.fetch d).traceFilter = r.traceFilter := fun r d => rfl
      have htick : ∀ (r : Root P) a b, (r.setTickEnabled a b).traceFilter = r.traceFilter := by
        intro r a b
        unfold Root.setTickEnabled
        repeat' split
        all_goals rfl
      cases op with
      | configure cfg' d ok =>
        cases cfg' with
        | none => exact ih (by simpa [readConfig] using h)
        | some cfg' =>
          have : cfg' = cfg := by simpa [readConfig] using h
          subst this
          simp only [Vm.step, Root.onConfigure, Root.processConfig]
          split
          · exact otel_eq cfg'
          · simp only [htick]
            split
            · exact otel_eq cfg'
            · exact otel_eq cfg'
      | _ => exact ih (by simpa [readConfig] using h)

def demoOps : List (LogOp Nat) :=
  [.event ⟨.error, [("message".toList, "early".toList)]⟩,
    .callback (.configure (some { tracing := some "t".toList, defaultLevel := some "debug".toList }) (fun _ _ => none) true)
      (some .info),
    .event ⟨.info, [("message".toList, "read".toList), ("x".toList, "1".toList)]⟩,
    .event ⟨.debug, [("message".toList, "details".toList)]⟩,
    .callback (.create 1) (some .critical),
    .event ⟨.warn, [("message".toList, "hidden".toList)]⟩,
    .event ⟨.error, [("x".toList, "1".toList)]⟩,
    .callback (.configure none (fun _ _ => none) true) (some .trace),
    .event ⟨.trace, []⟩]

example : (Logs.run demoOps).lines = [(.info, "read".toList), (.error, [])] ∧
    (Logs.run demoOps).filters = some { otel := some .warn, log := .error } ∧ (lastConfig demoOps).isSome = true := by
  decide +kernel

/-- A level is named in capitals. -/
example : traceLevel { tracing := some "t".toList, defaultLevel := some "DEBUG".toList } = some .debug ∧
    traceLevel { tracing := some "t".toList, defaultLevel := some "debug".toList } = some .warn ∧
    traceLevel { defaultLevel := some "DEBUG".toList } = none := by
  decide +kernel

/-- The hypothesis of `C74_stale`. -/
example : ∀ op ∈ ([.callback (.headers 1 0) (some .trace), .event ⟨.trace, []⟩] : List (LogOp Nat)), asked op = none := by
  intro op h
  simp at h
  rcases h with rfl | rfl <;> rfl

end Verif.Props
