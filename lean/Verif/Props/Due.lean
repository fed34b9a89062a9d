import Verif.Lemmas.Truth
import Verif.Lemmas.DueTasks
import Verif.Lemmas.DuePaths
import Verif.Props.Cause
import Verif.Props.Demo
/-! C73: actions that refer to a stored value wait for the actions that store it. -/
set_option linter.unusedSimpArgs false
namespace Verif.Props
open Verif Spec

/-- C73: whenever an action is run, the value store has exactly the reservations for the values that actions still to
come keep. -/
theorem C73_reservations {H : Type} (o : Oracle H) (parse : Text → Option Expr) (cfg : PluginConfig)
    (factory : Factory) (host : H) (s : ActionSet) (hs : ServedBy o parse cfg factory host s)
    (before : List (Event H)) (e : Option (Event H)) (c : Ctx H) (tasks : List PTask)
    (hm : (c, tasks) ∈ Filter.turnsAt o factory host before e) (hf : Fresh c.log) (path : Text) :
    path ∈ tasks.flatMap PTask.reservations ↔ WriterDue cfg.services s c.log path :=
  reservations_due hs before e c tasks hm hf path

section
variable {W : Type} (w : World W) (cfg : PluginConfig) (factory : Factory) (host : Attrs W) (s : ActionSet)

theorem evaluated_settled {known : Ctx (Attrs W) → Prop} {log : List Effect} {x : Text} {pred e : Expr} {v : Val} {after : Ctx (Attrs W)}
    {ptext etext : Text} (hpt : w.oracle.parse ptext = some pred) (het : w.oracle.parse etext = some e)
    (hv : EvaluatedIn w.oracle known log x pred e v after) {text : Text} (htext : text ∈ [ptext, etext]) {ex : CelExpr}
    (hex : w.lib.cel text = some ex) {p q : Path} (hp : p ∈ (compileExpr ex).attributes) (hq : q <+: p)
    {root : Text} (hroot : q.head? = some root) (hne : root ≠ [])
    (hno : ∀ r, Above r q → r ∉ (compileExpr ex).attributes)
    (hfree : ∀ r v, r ≠ [] → r <+: q → Effect.stored (dotted r) v ∉ log) :
    ∃ a c : Ctx (Attrs W), known a ∧ Asked w.oracle a c ∧ c.log = log ∧ ∀ n, (dotted q, n) ∉ w.reserved c := by
  obtain ⟨c, c', h1, h2, hk, h3, h4⟩ := hv
  rw [← testPred_tests] at h3
  have hvals : ∀ r v, r ≠ [] → r <+: q → (dotted r, v) ∉ c.values := by
    intro r v hr hrq hm
    rw [h2] at hm
    rcases storedIn_mem log [] hm with h | h
    · exact hfree r v hr hrq h
    · cases h
  simp only [List.mem_cons, List.not_mem_nil, or_false] at htext
  rcases htext with rfl | rfl
  · unfold testPred at h3
    split at h3
    · rename_i b d hd
      exact ⟨c, _, hk, Asked.none.attributes pred, h1, eval_settled w hpt hd hex hp hq hroot hne hvals hno⟩
    · cases h3
    · cases h3
    · cases h3
  · have hh := eval_settled w het h4 hex hp hq hroot hne (by
      intro r v hr hrq
      have : c'.values = c.values := by
        have := testPred_values (o := w.oracle) c x pred
        rw [h3] at this
        exact this
      rw [this]
      exact hvals r v hr hrq) hno
    have hfed := testPred_asked (o := w.oracle) c x pred
    rw [h3] at hfed
    refine ⟨c, _, hk, hfed.attributes e, ?_, hh⟩
    show c'.log = log
    rw [← h1]
    have := testPred_log w.oracle c x pred
    rw [h3] at this
    exact this

/-- C73: an action acts only after every value it refers to, in its predicate or in its expression, was stored, or
when no action that would store it is still to come. -/
theorem C73_waits (hs : ServedBy w.oracle w.oracle.parse cfg factory host s)
    (events : List (Event (Attrs W)))
    (hres : ∀ c : Ctx (Attrs W), Fetching w.oracle factory host events c → Fresh c.log →
      ∀ path, path ∈ (w.reserved c).map Prod.fst ↔ WriterDue cfg.services s c.log path)
    (pre post : List Effect) (x : Text) (e : Effect)
    (hlog : (Filter.run w.oracle factory host events).log = pre ++ .applied x :: e :: post)
    (hfresh : Fresh (Filter.run w.oracle factory host events).log) (he : e.acts = true)
    (t : TypedAction) (hat : At cfg.services s x t) (text : Text) (htext : text ∈ expressionsOf t) (ex : CelExpr)
    (hex : w.lib.cel text = some ex) (hplain : PlainExpr ex) (p q : Path) (href : Refers ex p)
    (hgrpc : ¬grpcRoot <+: p) (hq : q <+: p) (root : Text) (hroot : q.head? = some root) (hne : root ≠ [])
    (hno : ∀ r, Above r q → ¬Refers ex r) :
    (∃ r v, r ≠ [] ∧ r <+: q ∧ Effect.stored (dotted r) v ∈ pre) ∨
    ¬WriterDue cfg.services s (pre ++ [.applied x]) (dotted q) := by
  by_cases hfree : ∃ r v, r ≠ [] ∧ r <+: q ∧ Effect.stored (dotted r) v ∈ pre
  · exact .inl hfree
  refine .inr fun hdue => ?_
  have hp : p ∈ (compileExpr ex).attributes := (C45_exact ex hplain p).1.mpr ⟨href, hgrpc⟩
  have hno' : ∀ r, Above r q → r ∉ (compileExpr ex).attributes :=
    fun r hr hrm => hno r hr ((C45_exact ex hplain r).1.mp hrm).1
  have hlog' : (Filter.run w.oracle factory host events).log = (pre ++ [.applied x]) ++ e :: post := by
    rw [hlog]; simp
  have hfr : Fresh (pre ++ [.applied x]) := by
    rw [hlog'] at hfresh
    exact hfresh.prefix
  have main : ∀ {known : Ctx (Attrs W) → Prop}, (∀ a, known a → Fetching w.oracle factory host events a) →
      ∀ {pred y : Expr} {v : Val} {after : Ctx (Attrs W)} {ptext etext : Text},
      w.oracle.parse ptext = some pred → w.oracle.parse etext = some y →
      EvaluatedIn w.oracle known (pre ++ [.applied x]) x pred y v after → text ∈ [ptext, etext] → False := by
    intro known hkn pred y v after ptext etext h1 h2 h3 h4
    obtain ⟨a, c, hka, hfed, hc, hn⟩ := evaluated_settled w h1 h2 h3 h4 hex hp hq hroot hne hno' (by
      intro r v hr hrq hm
      refine hfree ⟨r, v, hr, hrq, ?_⟩
      simpa using hm)
    obtain ⟨a', ha', hfed'⟩ := hkn a hka
    have := (hres c ⟨a', ha', hfed'.trans hfed⟩ (by rw [hc]; exact hfr) (dotted q)).2 (by rw [hc]; exact hdue)
    obtain ⟨⟨a, n⟩, hm, rfl⟩ := List.mem_map.1 this
    exact hn n hm
  have hc := C60_caused w.oracle w.oracle.parse cfg factory host s hs events (pre ++ [.applied x]) post e hlog' he
  generalize hl : pre ++ [Effect.applied x] = log at hc
  cases hc with
  | call hat' hp' hm' hsv hv hb =>
    obtain ⟨rfl, hx⟩ := List.append_inj' hl rfl
    cases hx
    cases At.unique hat hat'
    exact main (fun a ha => ⟨a, ha, .none⟩) hp' hm' hv htext
  | headers hat' hp' he' hv ho hn =>
    obtain ⟨rfl, hx⟩ := List.append_inj' hl rfl
    cases hx
    cases At.unique hat hat'
    exact main (fun a ha => ⟨a, ha, .none⟩) hp' he' hv htext
  | value hat' hp' he' hv =>
    obtain ⟨rfl, hx⟩ := List.append_inj' hl rfl
    cases hx
    cases At.unique hat hat'
    exact main (fun a ha => ha) hp' he' hv htext
  | «attribute» hat' hp' he' hv hb =>
    obtain ⟨rfl, hx⟩ := List.append_inj' hl rfl
    cases hx
    cases At.unique hat hat'
    exact main (fun a ha => ha) hp' he' hv htext
  | exported =>
    obtain ⟨_, hx⟩ := List.append_inj' hl rfl
    cases hx
  | deny =>
    obtain ⟨_, hx⟩ := List.append_inj' hl rfl
    cases hx
  | error =>
    obtain ⟨_, hx⟩ := List.append_inj' hl rfl
    cases hx
  | broken =>
    have := congrArg List.getLast? hl
    simp at this
  | tracking =>
    obtain ⟨rfl, hx⟩ := List.append_inj' hl rfl
    cases hx
    exact hat.plainly.2 (by decide)
  | devCall =>
    obtain ⟨rfl, hx⟩ := List.append_inj' hl rfl
    cases hx
    exact hat.plainly.2 (by decide)

/-- C73: the same for actions that deny requests. -/
theorem C73_waits_deny (hs : ServedBy w.oracle w.oracle.parse cfg factory host s)
    (events : List (Event (Attrs W)))
    (hres : ∀ c : Ctx (Attrs W), Fetching w.oracle factory host events c → Fresh c.log →
      ∀ path, path ∈ (w.reserved c).map Prod.fst ↔ WriterDue cfg.services s c.log path)
    (pre post : List Effect) (x : Text) (status : Nat) (hs' : Headers)
    (body : Option Text) (accepted : Bool)
    (hlog : (Filter.run w.oracle factory host events).log =
      pre ++ .applied x :: .denied :: .reply status hs' body accepted :: post)
    (hfresh : Fresh (Filter.run w.oracle factory host events).log) (hown : status ≠ 500 ∨ body ≠ some errorBody)
    (t : TypedAction) (hat : At cfg.services s x t) (text : Text) (htext : text ∈ expressionsOf t) (ex : CelExpr)
    (hex : w.lib.cel text = some ex) (hplain : PlainExpr ex) (p q : Path) (href : Refers ex p)
    (hgrpc : ¬grpcRoot <+: p) (hq : q <+: p) (root : Text) (hroot : q.head? = some root) (hne : root ≠ [])
    (hno : ∀ r, Above r q → ¬Refers ex r) :
    (∃ r v, r ≠ [] ∧ r <+: q ∧ Effect.stored (dotted r) v ∈ pre) ∨
    ¬WriterDue cfg.services s (pre ++ [.applied x]) (dotted q) := by
  by_cases hfree : ∃ r v, r ≠ [] ∧ r <+: q ∧ Effect.stored (dotted r) v ∈ pre
  · exact .inl hfree
  refine .inr fun hdue => ?_
  have hp : p ∈ (compileExpr ex).attributes := (C45_exact ex hplain p).1.mpr ⟨href, hgrpc⟩
  have hno' : ∀ r, Above r q → r ∉ (compileExpr ex).attributes :=
    fun r hr hrm => hno r hr ((C45_exact ex hplain r).1.mp hrm).1
  have hlog' : (Filter.run w.oracle factory host events).log =
      (pre ++ [.applied x] ++ [.denied]) ++ .reply status hs' body accepted :: post := by
    rw [hlog]; simp
  have hfr : Fresh (pre ++ [.applied x]) := by
    rw [hlog', List.append_assoc] at hfresh
    exact hfresh.prefix
  have hc := C60_caused w.oracle w.oracle.parse cfg factory host s hs events _ post _ hlog' rfl
  generalize hl : pre ++ [Effect.applied x] ++ [Effect.denied] = log at hc
  cases hc with
  | @deny log' x' head source pred e name fields c tracking accepted hat' hp' he' hv ht =>
    obtain ⟨hl1, hl2⟩ := List.append_inj' hl rfl
    obtain ⟨rfl, hx⟩ := List.append_inj' hl1 rfl
    cases hx
    cases At.unique hat hat'
    obtain ⟨a, c, hka, hfed, hc, hn⟩ := evaluated_settled w hp' he' hv htext hex hp hq hroot hne hno' (by
      intro r v hr hrq hm
      refine hfree ⟨r, v, hr, hrq, ?_⟩
      simpa using hm)
    have := (hres c ⟨a, hka, hfed⟩ (by rw [hc]; exact hfr) (dotted q)).2 (by rw [hc]; exact hdue)
    obtain ⟨⟨a, n⟩, hm, rfl⟩ := List.mem_map.1 this
    exact hn n hm
  | error =>
    rcases hown with h | h <;> exact h rfl
  | broken =>
    have := congrArg List.getLast? hl
    simp at this

end

end Verif.Props
