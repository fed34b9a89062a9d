import Verif.Lemmas.DocumentOrder
import Verif.Props.Demo
/-!
C61: what a configuration document means. C62: the order of its entries has no meaning.
-/
set_option linter.unusedSimpArgs false
namespace Verif.Props
open Spec Doc

/-! ## C61 -/

/-- Whatever is read is what the document says. -/
theorem C61_means (duration : Text → Option Int) (d : Doc) (c : Document)
    (h : configuration duration d = some c) : ∃ m, d = .obj m ∧ IsConfiguration duration m c :=
  configuration_sound duration d c h

/-- Every meaningful document is read, and as what it says. -/
theorem C61_read (duration : Text → Option Int) (m : List (Text × Doc)) (c : Document)
    (h : IsConfiguration duration m c) :
    ∃ c', configuration duration (.obj m) = some c' ∧ SameConfiguration c' c :=
  configuration_complete duration m c h

/-- A service lets requests pass when it fails only if its failure mode is written as `allow`. -/
theorem C61_fail_open (duration : Text → Option Int) (d : Doc) (c : Document) (name : Text) (s : ServiceConfig)
    (h : configuration duration d = some c) (hs : (name, s) ∈ c.services) (hopen : s.deny = false) :
    ∃ m t e, d = .obj m ∧ Gives m "services" (.obj t) ∧ LastEntry t name (.obj e) ∧
      GivesWord e "failureMode" "allow" := by
  obtain ⟨m, rfl, hc⟩ := C61_means duration d c h
  obtain ⟨t, ht, htab⟩ := hc.services
  obtain ⟨d', hl, e, rfl, he⟩ := (htab.entries name s).1 hs
  have := he.failureMode
  rw [hopen] at this
  exact ⟨m, t, e, rfl, ht, hl, this⟩

/-- A service that leaves out its failure mode, or writes anything else, makes the document unreadable. -/
theorem C61_failure_mode_required (duration : Text → Option Int) (m t e : List (Text × Doc)) (name : Text)
    (ht : Gives m "services" (.obj t)) (hin : (name, .obj e) ∈ t)
    (hmode : ¬ GivesWord e "failureMode" "allow" ∧ ¬ GivesWord e "failureMode" "deny") :
    configuration duration (.obj m) = none := by
  cases h : configuration duration (.obj m) with
  | none => rfl
  | some c =>
    exfalso
    obtain ⟨m', hm, hc⟩ := C61_means duration _ c h
    cases hm
    obtain ⟨t', ht', htab⟩ := hc.services
    cases gives_unique ht ht'
    obtain ⟨a, s, hs, ha⟩ := htab.all _ hin
    cases hs
    have := ha.failureMode
    split at this
    · exact hmode.2 this
    · exact hmode.1 this

/-- An action that does not hold the traffic back says so. -/
theorem C61_guard (m : List (Text × Doc)) (h : TypedHead) (hh : IsHead m h) (hg : h.guard = false) :
    Gives m "isGuard" (.bool false) := by
  have := hh.guard
  rw [hg] at this
  exact this.elim id fun h => absurd h.2 (by decide)

/-- An action without a scope is a typed action or makes the document unreadable: it is never silently
turned into something else. -/
theorem C61_no_scope (m : List (Text × Doc)) (a : DocAction) (h : action (.obj m) = some a)
    (hs : Lacks m "scope") : ∃ t, a = .typed t ∧ IsTyped m t := by
  obtain ⟨m', hm, ha⟩ := (action_iff _ _).1 h
  cases hm
  cases ha with
  | typed ht => exact ⟨_, rfl, ht⟩
  | legacy _ hl => exact absurd hs fun hs => gives_lacks hl.scope hs

theorem gives_insert {pre post : List (Text × Doc)} {key : String} {d x : Doc} {k : Text} (hk : k ≠ key.toList)
    (h : Gives (pre ++ post) key d) : Gives (pre ++ (k, x) :: post) key d := by
  have h' := (entry?_given _ _ _).2 h
  refine (entry?_given _ _ _).1 ?_
  unfold entry? at h' ⊢
  rw [List.filter_append, List.filter_cons, if_neg (by simpa using hk), ← List.filter_append]
  exact h'

theorem lacks_insert {pre post : List (Text × Doc)} {key : String} {x : Doc} {k : Text} (hk : k ≠ key.toList)
    (h : Lacks (pre ++ post) key) : Lacks (pre ++ (k, x) :: post) key := by
  intro e he
  rcases List.mem_append.1 he with he | he
  · exact h e (List.mem_append_left _ he)
  · rcases List.mem_cons.1 he with rfl | he
    · exact hk
    · exact h e (List.mem_append_right _ he)

/-- Entries with unknown keys are ignored. -/
theorem C61_unknown (duration : Text → Option Int) (pre post : List (Text × Doc)) (k : Text) (x : Doc)
    (c : Document)
    (hk : ∀ key ∈ ["requestData", "services", "actionSets", "observability", "descriptorService"], k ≠ key.toList)
    (h : IsConfiguration duration (pre ++ post) c) : IsConfiguration duration (pre ++ (k, x) :: post) c := by
  simp only [List.mem_cons, List.not_mem_nil, or_false, forall_eq_or_imp, forall_eq] at hk
  obtain ⟨k1, k2, k3, k4, k5⟩ := hk
  refine ⟨?_, ?_, ?_, ?_, ?_⟩
  · rcases h.requestData with ⟨t, ht, hr⟩ | ⟨hl, hr⟩
    · exact .inl ⟨t, gives_insert k1 ht, hr⟩
    · exact .inr ⟨lacks_insert k1 hl, hr⟩
  · obtain ⟨t, ht, hr⟩ := h.services
    exact ⟨t, gives_insert k2 ht, hr⟩
  · obtain ⟨t, ht, hr⟩ := h.actionSets
    exact ⟨t, gives_insert k3 ht, hr⟩
  · rcases h.observability with ⟨t, ht, hr⟩ | ⟨hl, hr⟩
    · exact .inl ⟨t, gives_insert k4 ht, hr⟩
    · exact .inr ⟨lacks_insert k4 hl, hr⟩
  · rcases h.descriptorService with hr | ⟨hl, hr⟩
    · exact .inl (gives_insert k5 hr)
    · exact .inr ⟨lacks_insert k5 hl, hr⟩

/-! ## C62 -/

/-- The order of the entries decides nothing: whether the document is readable and what it means. -/
theorem C62_read (duration : Text → Option Int) (d d' : Doc) (h : Reordered d d') :
    (configuration duration d = none ∧ configuration duration d' = none) ∨
    ∃ c c', configuration duration d = some c ∧ configuration duration d' = some c' ∧ SameConfiguration c c' := by
  cases hc : configuration duration d with
  | some c =>
    obtain ⟨c', h', hs⟩ := configuration_reordered duration h hc
    exact .inr ⟨c, c', rfl, h', hs⟩
  | none =>
    cases hc' : configuration duration d' with
    | none => exact .inl ⟨rfl, rfl⟩
    | some c' =>
      obtain ⟨c, h', _⟩ := configuration_reordered duration h.symm hc'
      rw [hc] at h'
      cases h'

theorem unique_requestData {duration : Text → Option Int} {m : List (Text × Doc)} {c : Document}
    (h : IsConfiguration duration m c) : (c.requestData.map Prod.fst).Nodup := by
  rcases h.requestData with ⟨t, _, ht⟩ | ⟨_, he⟩
  · exact ht.unique
  · rw [he]; exact List.nodup_nil

theorem unique_services {duration : Text → Option Int} {m : List (Text × Doc)} {c : Document}
    (h : IsConfiguration duration m c) : (c.services.map Prod.fst).Nodup := by
  obtain ⟨t, _, ht⟩ := h.services
  exact ht.unique

variable {P : Type}

theorem sameManager_missing {m m' : Manager P} (h : SameManager m m') (k : DescKey) :
    k ∈ m.getMissing ↔ k ∈ m'.getMissing := by
  unfold Manager.getMissing
  rw [List.mem_filterMap, List.mem_filterMap]
  exact ⟨fun ⟨e, he, hp⟩ => ⟨e, (h.descriptors e).1 he, hp⟩, fun ⟨e, he, hp⟩ => ⟨e, (h.descriptors e).2 he, hp⟩⟩

theorem sameManager_setService {m m' : Manager P} (h : SameManager m m') (s : Text) :
    SameManager (m.setService s) (m'.setService s) := by
  unfold Manager.setService
  rw [h.service]
  split
  · exact h
  · exact ⟨h.pools, h.embedded, rfl, h.descriptors⟩

/-- What the host is asked for is the same. -/
def SameRequest (log log1 log2 : List RootEffect) : Prop :=
  log1 = log ∧ log2 = log ∨
  ∃ up ks ks' t t', log1 = log ++ [.requested up ks t] ∧ log2 = log ++ [.requested up ks' t'] ∧ ∀ k, k ∈ ks ↔ k ∈ ks'

theorem fetch_same {m m' : Manager P} (h : SameManager m m') (d : Text → List DescKey → Option Nat)
    (log : List RootEffect) :
    SameRequest log (log ++ (m.fetchMissing d).1) (log ++ (m'.fetchMissing d).1) := by
  have hm := sameManager_missing h
  unfold Manager.fetchMissing
  simp only
  rw [h.service]
  generalize m.getMissing = ks at hm
  generalize m'.getMissing = ks' at hm
  cases ks with
  | nil =>
    cases ks' with
    | nil => exact .inl ⟨List.append_nil _, List.append_nil _⟩
    | cons k l => exact absurd ((hm k).2 (List.mem_cons_self ..)) (by simp)
  | cons k l =>
    cases ks' with
    | nil => exact absurd ((hm k).1 (List.mem_cons_self ..)) (by simp)
    | cons k' l' =>
      simp only [List.isEmpty_cons, if_false, Bool.false_eq_true]
      cases m'.service with
      | none => exact .inl ⟨List.append_nil _, List.append_nil _⟩
      | some up =>
        simp only
        refine .inr ⟨up, k :: l, k' :: l', d up (k :: l), d up (k' :: l'), ?_, ?_, hm⟩
        · cases d up (k :: l) <;> rfl
        · cases d up (k' :: l') <;> rfl

/-- What configuring with a document does to the answer, to the configuration in force, to the trace
filter, to the timer and to what the host is asked for does not depend on the order of the entries (nor on
the order in which the hash maps are drained). -/
theorem C62_configure (parse : Text → Option Expr) (alphabetic : Char → Bool) (duration : Text → Option Int)
    (r : Root P) (d d' : Doc) (h : Reordered d d') (dispatch : Text → List DescKey → Option Nat) (tickOk : Bool) :
    (r.onConfigureDoc parse alphabetic duration (some d) dispatch tickOk).2 =
      (r.onConfigureDoc parse alphabetic duration (some d') dispatch tickOk).2 ∧
    (r.onConfigureDoc parse alphabetic duration (some d) dispatch tickOk).1.factory =
      (r.onConfigureDoc parse alphabetic duration (some d') dispatch tickOk).1.factory ∧
    (r.onConfigureDoc parse alphabetic duration (some d) dispatch tickOk).1.traceFilter =
      (r.onConfigureDoc parse alphabetic duration (some d') dispatch tickOk).1.traceFilter ∧
    (r.onConfigureDoc parse alphabetic duration (some d) dispatch tickOk).1.tickEnabled =
      (r.onConfigureDoc parse alphabetic duration (some d') dispatch tickOk).1.tickEnabled ∧
    SameRequest r.log (r.onConfigureDoc parse alphabetic duration (some d) dispatch tickOk).1.log
      (r.onConfigureDoc parse alphabetic duration (some d') dispatch tickOk).1.log := by
  unfold Root.onConfigureDoc
  simp only [Option.bind_some]
  rcases C62_read duration d d' h with ⟨h1, h2⟩ | ⟨c, c', h1, h2, hs⟩
  · rw [h1, h2]
    exact ⟨rfl, rfl, rfl, rfl, .inl ⟨rfl, rfl⟩⟩
  · obtain ⟨m, -, hc⟩ := C61_means duration d c h1
    rw [h1, h2]
    simp only [Option.map_some]
    have hroot := root_same alphabetic parse hs (unique_requestData hc)
    have ht := tryFrom_same parse r.manager (c'.root alphabetic parse) hs.services (unique_services hc)
    rw [← hroot] at ht
    have hc' : ({ c'.root alphabetic parse with services := c'.services } : RootConfig) =
        c'.root alphabetic parse := rfl
    rw [hc'] at ht
    have e1 : (c.root alphabetic parse).tracing = (c'.root alphabetic parse).tracing := by rw [hroot]
    have e2 : (c.root alphabetic parse).defaultLevel = (c'.root alphabetic parse).defaultLevel := by rw [hroot]
    have e3 : (c.root alphabetic parse).descriptorService = (c'.root alphabetic parse).descriptorService := by
      rw [hroot]
    unfold Root.onConfigure Root.processConfig
    simp only [e1, e2, e3]
    generalize (c.root alphabetic parse).tryFrom parse r.manager = q at ht ⊢
    generalize (c'.root alphabetic parse).tryFrom parse r.manager = q' at ht ⊢
    obtain ⟨m1, o1⟩ := q
    obtain ⟨m2, o2⟩ := q'
    simp only at ht
    obtain ⟨rfl, hm⟩ := ht
    cases o1 with
    | none => exact ⟨rfl, rfl, rfl, rfl, .inl ⟨rfl, rfl⟩⟩
    | some f =>
      have hm := sameManager_setService (hm rfl) (c'.root alphabetic parse).descriptorService
      have hexp : (m1.setService (c'.root alphabetic parse).descriptorService).hasExpected =
          (m2.setService (c'.root alphabetic parse).descriptorService).hasExpected :=
        any_congr_mem _ hm.descriptors
      simp only [hexp]
      generalize m1.setService (c'.root alphabetic parse).descriptorService = n1 at hm hexp
      generalize m2.setService (c'.root alphabetic parse).descriptorService = n2 at hm hexp ⊢
      have hf := fetch_same hm dispatch r.log
      cases n2.hasExpected with
      | false =>
        simp only [Bool.false_eq_true, if_false]
        unfold Root.setTickEnabled
        refine ⟨trivial, ?_, ?_, ?_, .inl ⟨?_, ?_⟩⟩ <;>
          cases r.tickEnabled <;> cases tickOk <;> rfl
      | true =>
        simp only [if_true]
        unfold Root.fetch
        simp only
        unfold Root.setTickEnabled
        refine ⟨trivial, ?_, ?_, ?_, ?_⟩
        · cases r.tickEnabled <;> cases tickOk <;> rfl
        · cases r.tickEnabled <;> cases tickOk <;> rfl
        · cases r.tickEnabled <;> cases tickOk <;> rfl
        · cases r.tickEnabled <;> cases tickOk <;> exact hf

/-! ## Examples -/

namespace Sample

/-- Durations such as "24ms"; only this one is needed. -/
def duration (t : Text) : Option Int := if t = "24ms".toList then some 24000000 else none

def auth : List (Text × Doc) :=
  [("type".toList, .str "auth".toList), ("endpoint".toList, .str "a".toList),
   ("failureMode".toList, .str "allow".toList), ("timeout".toList, .str "24ms".toList)]

def limit : List (Text × Doc) :=
  [("failureMode".toList, .str "deny".toList), ("endpoint".toList, .str "l".toList),
   ("type".toList, .str "ratelimit".toList), ("comment".toList, .null)]

/-- A typed call. -/
def call : List (Text × Doc) :=
  [("type".toList, .str "grpc".toList), ("predicate".toList, .str "p".toList),
   ("terminal".toList, .bool false), ("service".toList, .str "auth".toList), ("var".toList, .str "v".toList),
   ("messageBuilder".toList, .str "m".toList),
   ("onReply".toList, .arr [.obj [("type".toList, .str "deny".toList), ("predicate".toList, .str "q".toList),
     ("terminal".toList, .bool true), ("denyWith".toList, .str "w".toList)]])]

/-- A legacy action. -/
def old : List (Text × Doc) :=
  [("service".toList, .str "limit".toList), ("scope".toList, .str "s".toList),
   ("conditionalData".toList, .arr [.obj [("data".toList, .arr [.obj [("static".toList,
     .obj [("key".toList, .str "k".toList), ("value".toList, .str "1".toList)])]])]])]

def sets (actions : List Doc) : Doc := .arr [.obj [("name".toList, .str "n".toList),
  ("routeRuleConditions".toList, .obj [("hostnames".toList, .arr [.str "h".toList])]),
  ("actions".toList, .arr actions)]]

def services : Doc := .obj [("auth".toList, .obj auth), ("limit".toList, .obj limit)]

def whole : List (Text × Doc) :=
  [("services".toList, services), ("actionSets".toList, sets [.obj call, .obj old]),
   ("requestData".toList, .obj [("metrics.labels.user".toList, .str "u".toList)])]

/-- Another order. -/
def turned : List (Text × Doc) :=
  [("actionSets".toList, sets [.obj call, .obj old]),
   ("services".toList, .obj [("limit".toList, .obj limit), ("auth".toList, .obj auth)]),
   ("requestData".toList, .obj [("metrics.labels.user".toList, .str "u".toList)])]

theorem turned_reordered : Reordered (.obj whole) (.obj turned) :=
  .trans (.entry [] "services".toList _ (.swap [] ("auth".toList, .obj auth) ("limit".toList, .obj limit) []
    (by decide)))
    (.swap [] _ _ _ (by decide))

end Sample

/-- The document is read, with the two services and the two actions. -/
example : ∃ c, configuration Sample.duration (.obj Sample.whole) = some c ∧
    c.services.map Prod.fst = ["limit".toList, "auth".toList] ∧
    (c.services.map fun e => (e.2.deny, e.2.timeout)) = [(true, 20000000), (false, 24000000)] ∧
    c.actionSets.map (fun s => s.actions.length) = [2] ∧
    c.requestData = [("metrics.labels.user".toList, "u".toList)] :=
  ⟨_, rfl, by decide +kernel, by decide +kernel, by decide +kernel, by decide +kernel⟩

/-- Hence it has a meaning. -/
example : ∃ c, IsConfiguration Sample.duration Sample.whole c := by
  obtain ⟨c, hc⟩ : ∃ c, configuration Sample.duration (.obj Sample.whole) = some c := ⟨_, rfl⟩
  obtain ⟨m, hm, h⟩ := C61_means _ _ _ hc
  cases hm
  exact ⟨c, h⟩

/-- Both orders configure the same. -/
example (parse : Text → Option Expr) (alphabetic : Char → Bool) (r : Root P)
    (dispatch : Text → List DescKey → Option Nat) :
    (r.onConfigureDoc parse alphabetic Sample.duration (some (.obj Sample.whole)) dispatch true).1.factory =
      (r.onConfigureDoc parse alphabetic Sample.duration (some (.obj Sample.turned)) dispatch true).1.factory :=
  (C62_configure parse alphabetic Sample.duration r _ _ Sample.turned_reordered dispatch true).2.1

/-- A failure mode with a spelling mistake makes the document unreadable. -/
example : configuration Sample.duration (.obj [("services".toList, .obj [("auth".toList,
    .obj [("type".toList, .str "auth".toList), ("endpoint".toList, .str "a".toList),
      ("failureMode".toList, .str "Allow".toList)])]), ("actionSets".toList, .arr [])]) = none :=
  C61_failure_mode_required _ _ _ _ "auth".toList ((entry?_given _ "services" _).1 rfl) (List.mem_cons_self ..)
    ⟨fun h => absurd ((entry?_given _ "failureMode" _).2 h) (by intro h; exact absurd (Doc.str.inj (Option.some.inj (Option.some.inj h))) (by decide +kernel)),
     fun h => absurd ((entry?_given _ "failureMode" _).2 h) (by intro h; exact absurd (Doc.str.inj (Option.some.inj (Option.some.inj h))) (by decide +kernel))⟩

/-- A typed call that forgets `terminal` is not rejected if it also has a scope: it is read as a legacy
action, whose predicate, reply actions and message are gone. -/
theorem C61_fallback : ∃ m a, GivesWord m "type" "grpc" ∧ GivesText m "predicate" "p".toList ∧
    action (.obj m) = some (.legacy a) ∧ a.predicates = [] ∧ a.conditionalData = [] := by
  refine ⟨("scope".toList, .str "s".toList) :: Sample.call.filter (fun e => e.1 ≠ "terminal".toList),
    ⟨"auth".toList, "s".toList, [], []⟩, ?_, ?_, ?_, rfl, rfl⟩
  · exact (entry?_given _ "type" _).1 rfl
  · exact (entry?_given _ "predicate" _).1 rfl
  · with_unfolding_all rfl

/-! A rejected document, however, leaves behind the descriptors of the services met before the faulty one, in
the order in which the hash map happens to be drained. -/

namespace Sample

def lib : DescLib Unit :=
  { hash := fun _ => 0, decode := fun _ => none, build := fun _ => some (), hasService := fun _ _ => true,
    ratelimit := [], auth := [] }

def dyn (more : List (Text × Doc)) : Doc := .obj ([("type".toList, .str "dynamic".toList),
  ("endpoint".toList, .str "e".toList), ("failureMode".toList, .str "deny".toList)] ++ more)

def good : Text × Doc :=
  ("good".toList, dyn [("grpcService".toList, .str "S".toList), ("grpcMethod".toList, .str "M".toList)])

def bad : Text × Doc := ("bad".toList, dyn [])

def onlyServices (l : List (Text × Doc)) : Doc := .obj [("services".toList, .obj l), ("actionSets".toList, .arr [])]

/-- The given configuration, then an empty one. -/
def after (d : Doc) : List RootEffect :=
  let parse : Text → Option Expr := fun _ => none
  let dispatch : Text → List DescKey → Option Nat := fun _ _ => some 1
  let r := ((Root.new lib).onConfigureDoc parse (fun _ => true) duration (some d) dispatch true).1
  (r.onConfigureDoc parse (fun _ => true) duration (some (onlyServices [])) dispatch true).1.log

end Sample

/-- What a later, empty configuration asks for depends on that order. -/
theorem C62_rejected_leftovers : ∃ d d', Reordered d d' ∧ Sample.after d = [] ∧
    Sample.after d' = [.requested "kuadrant-operator-grpc".toList [⟨"e".toList, "S".toList⟩] (some 1)] := by
  refine ⟨Sample.onlyServices [Sample.good, Sample.bad], Sample.onlyServices [Sample.bad, Sample.good],
    .entry [] _ _ (.swap [] _ _ [] (by decide)), ?_, ?_⟩
  · with_unfolding_all rfl
  · with_unfolding_all rfl

end Verif.Props
