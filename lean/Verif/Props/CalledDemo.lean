import Verif.Props.Called
import Verif.Props.RoutedDemo
/-! C83 for a host, a library and a configuration. -/
namespace Verif.Props.CalledDemo
open Verif Verif.Spec Verif.Legacy Verif.Cel HostFactsDemo
open RoutedDemo (tree posted fetched libOf sees decided isTest test_value isBoth both_value)

def data : RequestData := QueryDemo.data.take 1

def action (p : Text) : LegacyAction where
  service := "limit".toList
  scope := "scope".toList
  predicates := [p]
  conditionalData := []

/-- The message of both actions. -/
def message : Text := requestOf (translate (action fetched) data .rateLimit)

def texts : List Text := [posted, fetched, message]

def lib : Lib := libOf texts

def world : World Hosted.Proxy := { HostFactsDemo.world with lib }

/-- The first action is for this request, the second one is not. -/
def set : ActionSet where
  name := "demo".toList
  hostnames := ["*.com".toList]
  predicates := []
  actions := [(action fetched).config data, (action posted).config data]

def cfg : PluginConfig where
  services := QueryDemo.services
  actionSets := [set]

def factory : Factory := (Factory.tryFrom world.oracle.parse cfg).getD {}

theorem accepted_cfg : accepted world cfg factory start = true := by decide +kernel

theorem served : ServedBy world.oracle world.oracle.parse cfg factory { world := start } set :=
  accepted_served accepted_cfg rfl rfl rfl

def log : List Effect := (world.session factory start []).filter.log

def isStarted (i : Text) : Option Effect → Bool
  | some (.applied j) => decide (j = i)
  | _ => false

theorem started_eq {i : Text} {e : Option Effect} (h : isStarted i e = true) : e = some (.applied i) := by
  unfold isStarted at h
  split at h
  · rw [of_decide_eq_true h]
  · cases h

/-- The first action is started, and nothing is written into the cache. -/
theorem log_facts : (isStarted (natText 0) log[1]? && log.all fun e => match e with
    | .stored .. | .headersSet .. | .attrSet .. => false
    | _ => true) = true := by decide +kernel

theorem log_split : ∃ pre post, log = pre ++ .applied (natText 0) :: post := by
  have h := started_eq (Bool.and_eq_true _ _ ▸ log_facts).1
  obtain ⟨hlt, h⟩ := List.getElem?_eq_some_iff.1 h
  exact ⟨log.take 1, log.drop 2, by rw [← h, List.getElem_cons_drop, List.take_append_drop]⟩

theorem unwritten (k : Text) : ∀ e ∈ log, ¬WritesKey k e := by
  have h := List.all_eq_true.1 (Bool.and_eq_true _ _ ▸ log_facts).2
  intro e he hk
  have := h e he
  cases e <;> simp_all [WritesKey]

def facts : List Fact := RoutedDemo.facts ++ [⟨"request".toList, "size".toList, .int 42⟩]

def kept : List Text := set.actions.flatMap fun b => ((standsFor cfg.services b).map VerdictHostDemo.storePaths).getD []

theorem kept_nil : kept = [] := by decide +kernel

theorem facts_stand {pre : List Effect} (hpre : ∀ e ∈ pre, e ∈ log) :
    ∀ f ∈ facts, f.Stands world.abi world.lib.json start cfg.services set pre := by
  intro f hf
  have hk : ∀ path, ¬KeepsAt cfg.services set path := by
    intro path hp
    have h1 : path ∈ kept := VerdictHostDemo.keeps_paths hp
    rw [kept_nil] at h1
    cases h1
  simp only [facts, RoutedDemo.facts, List.cons_append, List.nil_append, List.mem_cons, List.not_mem_nil, or_false] at hf
  rcases hf with rfl | rfl | rfl
  · exact ⟨text_given (by decide +kernel), by decide +kernel, by decide +kernel, fun path hp => absurd hp (hk path),
      fun e he => unwritten _ e (hpre e he)⟩
  · exact ⟨text_given (by decide +kernel), by decide +kernel, by decide +kernel, fun path hp => absurd hp (hk path),
      fun e he => unwritten _ e (hpre e he)⟩
  · exact ⟨port_given (n := 42) (by decide +kernel) (by decide), by decide +kernel, by decide +kernel,
      fun path hp => absurd hp (hk path), fun e he => unwritten _ e (hpre e he)⟩

theorem posted_decided : FactsDecide lib facts posted (.bool false) := by
  refine decided (by decide +kernel) fun env henv => ?_
  have h1 := henv _ (List.mem_cons_self ..) (by decide +kernel)
  rw [test_value (field := "method".toList) (value := "POST".toList) (by decide +kernel) h1]
  exact congrArg (fun b => some (Val.bool b)) (by decide +kernel)

theorem fetched_decided : FactsDecide lib facts fetched (.bool true) := by
  refine decided (by decide +kernel) fun env henv => ?_
  have h1 := henv _ (List.mem_cons_self ..) (by decide +kernel)
  have h2 := henv _ (List.mem_cons_of_mem _ (List.mem_cons_self ..)) (by decide +kernel)
  rw [both_value (p := isTest "method".toList "GET".toList) (q := isTest "path".toList "/p".toList) (by decide +kernel)
    (fun a h => test_value h h1) (fun a h => test_value h h2)]
  exact congrArg (fun b => some (Val.bool b)) (by decide +kernel)

/-- What the service is told. -/
def query : LimitQuery where
  domain := "scope".toList
  hits := 1
  descriptors := [[("f".toList, "42".toList)]]

theorem queries {env : Text → Option Val} (h : Fact.Seen ⟨"request".toList, "size".toList, .int 42⟩ env) :
    Queries (eval env) tree "scope".toList [] data query where
  domain := rfl
  hits := rfl
  descriptors := ⟨[], [("f".toList, "42".toList)], .nil,
    .cons ⟨rfl, _, attribute_value (by decide +kernel) h, QueryDemo.size_text⟩ .nil, rfl⟩

theorem proper : ProperConfig tree [] data where
  predicates _ h := absurd h (by simp)
  expressions _ h := absurd h (by simp)
  hits _ h := absurd h (by simp)
  data := QueryDemo.properConfig.data

theorem message_decided : FactsDecide lib facts message query.value := by
  refine decided (by decide +kernel) fun env henv => ?_
  have h1 := henv ⟨"request".toList, "size".toList, .int 42⟩ (by simp [facts]) (by decide +kernel)
  obtain ⟨a, ha, hv⟩ := C76_limit tree (action fetched) data .rateLimit (.inl rfl)
    (by rw [show availableTo .rateLimit data = data from QueryDemo.available_limit]; exact proper) _ (evaluator env) query
    (by rw [show availableTo .rateLimit data = data from QueryDemo.available_limit]; exact queries h1)
  have hp : Parses message (tree message) := (LegacyDemo.sound (by decide +kernel) (by decide +kernel)).1
  rw [parses_unique hp ha]
  exact hv

theorem takes (x : Hosted.Proxy) (call : GrpcCall) : ∃ token, (world.abi.dispatch x call).1 = .ok token := ⟨_, rfl⟩

theorem encoded : ∃ bytes, lib.encode (Demo.svc "limit") query.value = some bytes := by
  obtain ⟨p, hp, -⟩ := limit_made WireRequestDemo.good WireRequestDemo.requestDescs query
  refine ⟨WireRequestDemo.wire p, ?_⟩
  show (toMessage WireRequestDemo.lib query.value
    (if Demo.svc "limit" = Demo.svc "limit" then limitRequestName else checkRequestName)).map _ = _
  rw [if_pos rfl, hp]
  rfl

theorem lib_reads (t : Text) : world.lib.cel t ≠ none := by
  show lib.cel t ≠ none
  simp only [lib, libOf]
  split <;> simp

theorem predicate_decided :
    FactsDecide lib facts (translate (action fetched) data .rateLimit).head.predicate (.bool true) := by
  rw [show (translate (action fetched) data .rateLimit).head.predicate = fetched by decide +kernel]
  exact fetched_decided

/-- The service of the first action is called with the query. -/
example : ∃ pre bytes guard token rid rest,
    log = pre ++ .applied (natText 0) :: .dispatch (natText 0) guard token (Demo.svc "limit") bytes rid :: rest ∧
    lib.encode (Demo.svc "limit") query.value = some bytes ∧ guard = true := by
  obtain ⟨pre, post, hlog⟩ := log_split
  obtain ⟨bytes, henc⟩ := encoded
  obtain ⟨guard, token, rid, rest, h1, h2⟩ := C83_called world cfg factory start set served 0 (action fetched) data rfl
    .rateLimit (Demo.svc "limit") true rfl (by decide) [] (fun _ _ _ _ h => by cases h) pre post hlog facts
    (facts_stand fun e he => by rw [hlog]; exact List.mem_append_left _ he) (fun t _ => lib_reads t)
    predicate_decided query.value message_decided _ henc (fun x call _ => takes x call)
  exact ⟨pre, _, guard, token, rid, rest, by rw [hlog, h1], henc, h2.2 (.inr (.inl rfl))⟩

theorem log_accepted : ((log.any fun e => match e with
      | .hits => true
      | _ => false) && log.all fun e => match e with
      | .applied i => decide (i ≠ "token_usage".toList)
      | _ => true) = true := by decide +kernel

/-- It is the first thing that is done. -/
example : ∃ bytes guard token rid rest,
    log = .hits :: .applied (natText 0) :: .dispatch (natText 0) guard token (Demo.svc "limit") bytes rid :: rest ∧
    lib.encode (Demo.svc "limit") query.value = some bytes := by
  obtain ⟨bytes, henc⟩ := encoded
  have h := Bool.and_eq_true _ _ ▸ log_accepted
  have hhit : .hits ∈ log := by
    obtain ⟨e, he, h⟩ := List.any_eq_true.1 h.1
    cases e <;> first | exact he | cases h
  have htok : .applied "token_usage".toList ∉ log := by
    intro hm
    have := List.all_eq_true.1 h.2 _ hm
    exact of_decide_eq_true this rfl
  obtain ⟨guard, token, rid, rest, h1, -⟩ := C83_first world cfg factory start set served (action fetched) data rfl
    .rateLimit (Demo.svc "limit") true rfl (by decide) [] (fun _ _ _ _ h => by cases h) hhit htok facts
    (facts_stand fun e he => by cases he) (fun t _ => lib_reads t)
    predicate_decided query.value message_decided _ henc (fun x call _ => takes x call)
  exact ⟨bytes, guard, token, rid, rest, h1, henc⟩

/-- The service of the second action is not called. -/
example (guard : Bool) (token : Nat) (svc : Svc) (bytes : Bytes) (rid : Text) :
    .dispatch (natText 1) guard token svc bytes rid ∉ log :=
  C83_spared world cfg factory start set served 1 (action posted) data rfl
    .rateLimit (Demo.svc "limit") true rfl (by decide) [] (fun _ _ _ _ h => by cases h) facts
    (facts_stand fun e he => he)
    (by
      rw [show (translate (action posted) data .rateLimit).head.predicate = posted by decide +kernel]
      exact posted_decided) guard token svc bytes rid

end Verif.Props.CalledDemo
