import Verif.Props.HostFacts
import Verif.Props.WireRequestDemo
import Verif.Props.VerdictHostDemo
/-! A host and a CEL library that meet the hypotheses of C81. -/
set_option linter.unusedSimpArgs false
namespace Verif.Props.HostFactsDemo
open Verif Verif.Spec Verif.Legacy Verif.Cel
open QueryDemo (tree)

/-! ### Where fields are selected -/

mutual

/-- What fields are selected of. -/
def operands : CelExpr → List CelExpr
  | .call _ args => operandsOf args
  | .method e _ args => operands e ++ operandsOf args
  | .select e _ => e :: operands e
  | .ident _ => []
  | .list es => operandsOf es
  | .map es => operandsOf es
  | .struct _ es => operandsOf es
  | .comprehension a b c d e => operands a ++ operands b ++ operands c ++ operands d ++ operands e
  | .string _ => []
  | .literal => []
  | .unspecified => []

def operandsOf : List CelExpr → List CelExpr
  | [] => []
  | e :: es => operands e ++ operandsOf es

end

theorem operandsOf_mem {es : List CelExpr} {q : CelExpr} (h : q ∈ es) {m : CelExpr} (hm : m ∈ operands q) :
    m ∈ operandsOf es := by
  induction es with
  | nil => cases h
  | cons e es ih =>
    rw [operandsOf, List.mem_append]
    rcases List.mem_cons.1 h with rfl | h
    · exact .inl hm
    · exact .inr (ih h)

theorem operands_parts {e q : CelExpr} (h : q ∈ parts e) {m : CelExpr} (hm : m ∈ operands q) : m ∈ operands e := by
  cases e with
  | call f args => rw [operands]; exact operandsOf_mem h hm
  | method t f args =>
    rw [operands, List.mem_append]
    rcases List.mem_cons.1 h with rfl | h
    · exact .inl hm
    · exact .inr (operandsOf_mem h hm)
  | select t f =>
    rw [operands]
    cases List.mem_singleton.1 h
    exact List.mem_cons_of_mem _ hm
  | ident n => cases h
  | list es => rw [operands]; exact operandsOf_mem h hm
  | map es => rw [operands]; exact operandsOf_mem h hm
  | struct n es => rw [operands]; exact operandsOf_mem h hm
  | comprehension a b c d e =>
    simp only [parts, List.mem_cons, List.not_mem_nil, or_false] at h
    simp only [operands, List.mem_append]
    rcases h with rfl | rfl | rfl | rfl | rfl <;> simp [hm]
  | string t => cases h
  | literal => cases h
  | unspecified => cases h

theorem part_operands {x p : CelExpr} (h : Part x p) : ∀ m ∈ operands p, m ∈ operands x := by
  induction h with
  | self => exact fun m h => h
  | inside hq _ ih => exact fun m h => operands_parts hq (ih m h)

def rooted : CelExpr → Bool
  | .ident _ => true
  | .call _ _ => true
  | .select e _ => rooted e
  | _ => false

theorem rooted_sound : (e : CelExpr) → rooted e = true → Spec.Rooted e
  | .ident _, _ => .ident _
  | .call _ _, _ => .call _ _
  | .select e _, h => .select _ (rooted_sound e (by rw [rooted] at h; exact h))

theorem plain_of {x : CelExpr} (h : (operands x).all rooted = true) : PlainExpr x := fun _ _ hp =>
  rooted_sound _ (List.all_eq_true.1 h _ (part_operands hp _ (by rw [operands]; exact List.mem_cons_self ..)))

/-! ### The library -/

def limitTree : Ast := ratelimitAst tree "scope".toList QueryDemo.blocks (QueryDemo.data.take 1)
def checkTree : Ast := authAst tree "scope".toList ["io.kuadrant.d".toList] WireRequestDemo.data

/-- The trees of the texts of the messages. -/
def treeOf (t : Text) : Option Ast :=
  if t = QueryDemo.limitText then some limitTree
  else if t = WireRequestDemo.checkText then some checkTree
  else none

/-- Values without a type are truth values. -/
def json : JsonLib :=
  { Demo.json with parse := fun t =>
      if t = "true".toList then some (.bool true) else if t = "false".toList then some (.bool false) else none }

/-- The library follows the language for the texts of the messages; the other texts are true. -/
def lib : Lib where
  cel t := match treeOf t with
    | some a => some (VerdictHostDemo.celOf a)
    | none => some .literal
  exec t vars := match treeOf t with
    | some a => eval (mapGet vars) a
    | none => some (.bool true)
  encode svc v := (toMessage WireRequestDemo.lib v
    (if svc = Demo.svc "limit" then limitRequestName else checkRequestName)).map WireRequestDemo.wire
  decode _ _ := some .null
  toBytes _ := some []
  json := json

theorem limit_parses : Parses QueryDemo.limitText limitTree := by
  have := C32_ratelimit_request tree QueryDemo.action (QueryDemo.data.take 1) .rateLimit (.inl rfl)
    (by rw [QueryDemo.available_limit]; exact QueryDemo.properConfig)
  rw [QueryDemo.available_limit] at this
  exact this

theorem check_parses : Parses WireRequestDemo.checkText checkTree := by
  obtain ⟨domains, h1, h2⟩ := C32_auth_request tree QueryDemo.checkAction WireRequestDemo.data WireRequestDemo.proper_data
  rw [WireRequestDemo.available] at h1 h2
  cases domains_unique h1 WireRequestDemo.facts_true.domains
  exact h2

theorem treeOf_parses {t : Text} {a : Ast} (h : treeOf t = some a) : Parses t a := by
  unfold treeOf at h
  split at h
  · cases h; subst t; exact limit_parses
  · split at h
    · cases h; subst t; exact check_parses
    · cases h

/-- What is checked of a tree. -/
def honest (a : Ast) : Bool :=
  ((VerdictHostDemo.mentions (VerdictHostDemo.celOf a)).all fun m =>
    if m.1 then decide (m.2 ∈ bodyFunctions → m.2 ∈ functions a) else decide (m.2 ∈ variables a)) &&
  (operands (VerdictHostDemo.celOf a)).all rooted &&
  (chains a).all fun p => decide (p ∈ (compileExpr (VerdictHostDemo.celOf a)).attributes)

theorem treeOf_honest {t : Text} {a : Ast} (h : treeOf t = some a) : honest a = true := by
  unfold treeOf at h
  split at h
  · cases h; decide +kernel
  · split at h
    · cases h; decide +kernel
    · cases h

theorem follows {t : Text} {e : Ast} (h : treeOf t = some e) : Cel.Follows lib t := by
  have hp := treeOf_parses h
  have hm := treeOf_honest h
  simp only [honest, Bool.and_eq_true, List.all_eq_true] at hm
  obtain ⟨⟨hm, -⟩, -⟩ := hm
  refine ⟨?_, ?_, ?_⟩
  · intro a x ha hx n hn
    cases parses_unique ha hp
    simp only [lib, h, Option.some.injEq] at hx
    subst hx
    have := hm (false, n) (VerdictHostDemo.part_mentions hn _ (by simp [VerdictHostDemo.mentions]))
    simpa using this
  · intro a x ha hx f hf args hn
    cases parses_unique ha hp
    simp only [lib, h, Option.some.injEq] at hx
    subst hx
    have := hm (true, f) (VerdictHostDemo.part_mentions hn _ (by simp [VerdictHostDemo.mentions]))
    simp only [if_true, decide_eq_true_eq] at this
    exact this hf
  · intro a vars u ha hu
    cases parses_unique ha hp
    simp only [lib, h]
    exact hu

theorem mirrors {t : Text} {e : Ast} (h : treeOf t = some e) : Cel.Mirrors lib t := by
  have hp := treeOf_parses h
  have hm := treeOf_honest h
  simp only [honest, Bool.and_eq_true] at hm
  obtain ⟨⟨-, hplain⟩, href⟩ := hm
  constructor
  · intro x hx
    simp only [lib, h, Option.some.injEq] at hx
    subst hx
    exact plain_of hplain
  · intro a x ha hx p hmem
    cases parses_unique ha hp
    simp only [lib, h, Option.some.injEq] at hx
    subst hx
    exact ((C45_exact _ (plain_of hplain) p).1.1 (of_decide_eq_true (List.all_eq_true.1 href p hmem))).1

/-! ### The host -/

/-- What the host says. -/
def told : List (Path × Bytes) := [
  (["request".toList, "time".toList], signed64 (7 * 1000000000 + 5)),
  (["request".toList, "host".toList], utf8 "example.com".toList),
  (["request".toList, "method".toList], utf8 "GET".toList),
  (["request".toList, "scheme".toList], utf8 "http".toList),
  (["request".toList, "path".toList], utf8 "/p".toList),
  (["request".toList, "protocol".toList], utf8 "HTTP/1.1".toList),
  (["request".toList, "size".toList], signed64 42),
  (["request".toList, "remote".toList], utf8 "true".toList),
  (["request".toList, "local".toList], utf8 "false".toList),
  (["source".toList, "address".toList], utf8 "1.2.3.4".toList),
  (["source".toList, "port".toList], signed64 80),
  (["destination".toList, "address".toList], utf8 "5.6.7.8".toList),
  (["destination".toList, "port".toList], signed64 81)]

def abi : Abi Hosted.Proxy := { Hosted.abi with getProperty := fun _ p => .ok (told.lookup p) }

def world : World Hosted.Proxy := { Hosted.world with abi, lib }

/-- A header is there twice. -/
def start : Hosted.Proxy :=
  { request := [("a".toList, "1".toList), ("b".toList, "".toList), ("a".toList, "2".toList)] }

def facts : CheckFacts :=
  { WireRequestDemo.facts with
    host := "example.com".toList
    headers := [("a".toList, "1,2".toList), ("b".toList, "".toList)]
    metadata := [("io.kuadrant.d".toList,
      [("g".toList, .expression "auth.identity".toList), ("e".toList, .text "example.com".toList)])] }

def factory (a : ActionConfig) : Factory := (Factory.tryFrom world.oracle.parse (QueryDemo.config a)).getD {}

def log (a : ActionConfig) : List Effect := (world.session (factory a) start []).filter.log

/-- The configuration is accepted and the first action set is for the request. -/
def accepted {W : Type} (w : World W) (cfg : PluginConfig) (factory : Factory) (world : W) : Bool :=
  (Factory.tryFrom w.oracle.parse cfg).isSome &&
  match (factory.select w.oracle { host := { world } }).1 with
    | .found _ => true
    | _ => false

theorem accepted_served {W : Type} {w : World W} {cfg : PluginConfig} {factory : Factory} {world : W} {s : ActionSet}
    (h : accepted w cfg factory world = true) (hs : cfg.actionSets = [s]) (hd : devModeAction cfg = none)
    (hf : (Factory.tryFrom w.oracle.parse cfg).getD {} = factory) :
    ServedBy w.oracle w.oracle.parse cfg factory { world } s := by
  simp only [accepted, Bool.and_eq_true] at h
  obtain ⟨h1, h2⟩ := h
  obtain ⟨b, hb⟩ : ∃ b, (factory.select w.oracle { host := { world } }).1 = .found b := by
    split at h2
    · rename_i b hb; exact ⟨b, hb⟩
    · cases h2
  have hf : Factory.tryFrom w.oracle.parse cfg = some factory := by
    obtain ⟨f, hf'⟩ := Option.isSome_iff_exists.1 h1
    rw [hf'] at hf ⊢
    rw [← hf]
    rfl
  rcases servedBy_exists (o := w.oracle) hf hb with ⟨s', hs', h⟩ | ⟨a, ha, _⟩
  · rw [hs, List.mem_singleton] at hs'
    subst hs'
    exact h
  · rw [hd] at ha
    cases ha

/-- The third effect is the call of the action, and nothing is written. -/
def callIn (log : List Effect) (svc : Svc) (bytes : Bytes) : Bool :=
  (match (log[2]? : Option Effect) with
    | some (.dispatch i _ _ svc' bytes' _) => decide (i = natText 0) && decide (svc' = svc) && decide (bytes' = bytes)
    | _ => false) &&
  log.all fun
    | .headersSet .. => false
    | .attrSet .. => false
    | _ => true

def calls (a : ActionConfig) (svc : Svc) (bytes : Bytes) : Bool :=
  accepted world (QueryDemo.config a) (factory a) start && callIn (log a) svc bytes

theorem limit_calls : calls QueryDemo.limitConfig (Demo.svc "limit") (utf8 "other".toList) = true := by decide +kernel

theorem check_calls : calls WireRequestDemo.checkConfig (Demo.svc "auth") (utf8 "attributes".toList) = true := by
  decide +kernel

theorem served {a : ActionConfig} {svc : Svc} {bytes : Bytes} (h : calls a svc bytes = true) :
    ServedBy world.oracle world.oracle.parse (QueryDemo.config a) (factory a) { world := start } (QueryDemo.actionSet a) :=
  accepted_served (Bool.and_eq_true _ _ ▸ h).1 rfl rfl rfl

theorem callIn_quiet {log : List Effect} {svc : Svc} {bytes : Bytes} (h : callIn log svc bytes = true) (k : Text) :
    ∀ e ∈ log, ¬WritesKey k e := by
  simp only [callIn, Bool.and_eq_true, List.all_eq_true] at h
  intro e he hk
  have := h.2 e he
  cases e <;> simp_all [WritesKey]

theorem quiet {a : ActionConfig} {svc : Svc} {bytes : Bytes} (h : calls a svc bytes = true) (k : Text) :
    ∀ e ∈ log a, ¬WritesKey k e :=
  callIn_quiet (Bool.and_eq_true _ _ ▸ h).2 k

/-- The names under which the action keeps values. -/
def kept (a : ActionConfig) : List Text :=
  (QueryDemo.actionSet a).actions.flatMap fun b =>
    ((standsFor (QueryDemo.config a).services b).map VerdictHostDemo.storePaths).getD []

theorem limit_kept : kept QueryDemo.limitConfig = [] := by decide +kernel

theorem check_kept : kept WireRequestDemo.checkConfig = ["auth".toList] := by decide +kernel

theorem keeps {a : ActionConfig} (ha : a = QueryDemo.limitConfig ∨ a = WireRequestDemo.checkConfig) {p : Text}
    (h : KeepsAt (QueryDemo.config a).services (QueryDemo.actionSet a) p) : p = "auth".toList := by
  have h1 : p ∈ kept a := VerdictHostDemo.keeps_paths h
  have h2 : kept a = [] ∨ kept a = ["auth".toList] :=
    ha.imp (fun h => (congrArg kept h).trans limit_kept) (fun h => (congrArg kept h).trans check_kept)
  clear h ha
  generalize kept a = l at h1 h2
  rcases h2 with rfl | rfl
  · cases h1
  · exact List.mem_singleton.1 h1

/-! ### The facts -/

/-- An attribute that the host gives. -/
theorem given {root field : Text} {bytes : Bytes} {v : Val} (type : Option AttrType)
    (h : (decide (told.lookup [root, field] = some bytes) && decide (knownType [root, field] = type) &&
      decide ([root, field] ∉ derived) && field.all fun c => c ≠ '.' && c ≠ '\\') = true)
    (hv : BytesMean json type bytes v) : Given world.abi world.lib.json start ⟨root, field, v⟩ := by
  simp only [Bool.and_eq_true, decide_eq_true_eq, List.all_eq_true] at h
  obtain ⟨⟨⟨h1, rfl⟩, h2⟩, h3⟩ := h
  exact .property (fun c hc => by simpa using h3 c hc) h2 (fun _ => congrArg Except.ok h1) hv

theorem stands {a : ActionConfig} {svc : Svc} {bytes : Bytes} (h : calls a svc bytes = true)
    (ha : a = QueryDemo.limitConfig ∨ a = WireRequestDemo.checkConfig) {pre : List Effect} (hpre : ∀ e ∈ pre, e ∈ log a)
    {f : Fact} (hg : Given world.abi world.lib.json start f)
    (hf : (decide (f.root ∈ visibleRoots) && decide (f.path ≠ ["request".toList, "grpc".toList])) = true) :
    f.Stands world.abi world.lib.json start (QueryDemo.config a).services (QueryDemo.actionSet a) pre := by
  simp only [Bool.and_eq_true, decide_eq_true_eq] at hf
  refine ⟨hg, hf.1, hf.2, ?_, fun e he => quiet h _ e (hpre e he)⟩
  intro path hp
  cases keeps ha hp
  have hr : f.root ≠ "auth".toList := (visible_plain hf.1).2
  refine ⟨hr.symm, fun he => ?_⟩
  have : '.' ∈ "auth".toList := by rw [he]; simp
  exact absurd this (by decide)

theorem headers_given : Given world.abi world.lib.json start ⟨"request".toList, "headers".toList,
    .map (facts.headers.map fun h => (.str h.1, .str h.2))⟩ := by
  have h : start.request.toMap = facts.headers := by decide +kernel
  rw [← h]
  exact .headers rfl (by decide)

theorem time_given : Given world.abi world.lib.json start ⟨"request".toList, "time".toList, .timestamp 7 5⟩ :=
  given (some .timestamp) (by decide +kernel) (.time (by decide +kernel) (by decide +kernel) (by decide +kernel))

theorem text_given {root field t : Text} (h : (decide (told.lookup [root, field] = some (utf8 t)) &&
      decide (knownType [root, field] = some .string) &&
      decide ([root, field] ∉ derived) && field.all fun c => c ≠ '.' && c ≠ '\\') = true) :
    Given world.abi world.lib.json start ⟨root, field, .str t⟩ := given (some .string) h .string

theorem port_given {root field : Text} {n : Nat} (h : (decide (told.lookup [root, field] = some (signed64 n)) &&
      decide (knownType [root, field] = some .int) &&
      decide ([root, field] ∉ derived) && field.all fun c => c ≠ '.' && c ≠ '\\') = true) (hn : n < 65536) :
    Given world.abi world.lib.json start ⟨root, field, .int n⟩ :=
  given (some .int) h (.int (by omega) (by omega))

theorem attributes_given : ∀ f ∈ facts.attributes, Given world.abi world.lib.json start f := by
  unfold CheckFacts.attributes
  simp only [List.forall_mem_cons]
  refine ⟨time_given, text_given ?_, text_given ?_, text_given ?_, text_given ?_, text_given ?_, headers_given,
    text_given ?_, port_given ?_ (by decide), text_given ?_, port_given ?_ (by decide), by simp⟩ <;> decide +kernel

/-- It is `root.field`. -/
def isPath (root field : Text) : Ast → Bool
  | .select (.ident r) f => decide (r = root) && decide (f = field)
  | _ => false

/-- The expression is an attribute. -/
theorem attribute_value {env : Text → Option Val} {t root field : Text} {v : Val} (h : isPath root field (tree t) = true)
    (hs : Fact.Seen ⟨root, field, v⟩ env) : eval env (tree t) = some v := by
  generalize tree t = a at h
  unfold isPath at h
  split at h
  · simp only [Bool.and_eq_true, decide_eq_true_eq] at h
    rw [h.1, h.2]
    exact hs
  · cases h

/-- It is this number. -/
def isNum (n : Text) : Ast → Bool
  | .num m => decide (m = n)
  | _ => false

theorem number_value {env : Text → Option Val} {t n : Text} {v : Val} (h : isNum n (tree t) = true)
    (hv : numVal n = some v) : eval env (tree t) = some v := by
  generalize tree t = a at h
  unfold isNum at h
  split at h
  · rw [decide_eq_true_eq] at h
    rw [eval, h, hv]
  · cases h

/-- Whatever is sent to the authorization service tells what the host says. -/
example (pre post : List Effect) (guard : Bool) (token : Nat) (svc : Svc) (bytes : Bytes) (rid : Text)
    (h : log WireRequestDemo.checkConfig = pre ++ .dispatch (natText 0) guard token svc bytes rid :: post) :
    svc = Demo.svc "auth" ∧ ∃ p, bytes = WireRequestDemo.wire p ∧ facts.On p := by
  have hn : ((availableTo .auth WireRequestDemo.data).map Prod.fst).Nodup := by
    rw [WireRequestDemo.available]; decide +kernel
  have hs : ¬Demo.svc "auth" = Demo.svc "limit" := by decide +kernel
  have htree : treeOf (requestOf (translate QueryDemo.checkAction WireRequestDemo.data .auth)) = some checkTree := by
    unfold treeOf
    rw [if_neg (by decide +kernel)]
    exact if_pos rfl
  refine C81_check (P := tree) world (QueryDemo.config WireRequestDemo.checkConfig) _ start _ (served check_calls) 0
    QueryDemo.checkAction WireRequestDemo.data rfl (Demo.svc "auth") true rfl WireRequestDemo.proper_data hn
    (follows htree) (mirrors htree) [] pre post guard token svc bytes rid h facts [] ?_ (by simp) rfl ?_ ?_
    WireRequestDemo.good WireRequestDemo.requestDescs WireRequestDemo.wire (fun v => ?_)
  · intro f hf
    rw [List.append_nil] at hf
    refine stands (a := WireRequestDemo.checkConfig) check_calls (.inr rfl) (fun e he => by rw [h]; exact List.mem_append_left _ he)
      (attributes_given f hf) ?_
    simp only [CheckFacts.attributes, List.mem_cons, List.not_mem_nil, or_false] at hf
    rcases hf with rfl | rfl | rfl | rfl | rfl | rfl | rfl | rfl | rfl | rfl | rfl <;> decide +kernel
  · rw [WireRequestDemo.available]; exact WireRequestDemo.facts_true.domains
  · intro env henv d hd
    rw [WireRequestDemo.available]
    have hhost := henv ⟨"request".toList, "host".toList, .str "example.com".toList⟩
      (List.mem_append_left _ (List.mem_cons_of_mem _ (List.mem_cons_self ..)))
    simp only [facts, List.mem_cons, List.not_mem_nil, or_false] at hd
    subst hd
    exact .cons ⟨rfl, .expression (by decide +kernel)⟩
      (.cons ⟨rfl, .text (by decide +kernel) (attribute_value (by decide +kernel) hhost) (.str _)⟩ .nil)
  · show (toMessage _ v (if Demo.svc "auth" = Demo.svc "limit" then limitRequestName else checkRequestName)).map _ = _
    rw [if_neg hs]

/-- What the request to the rate limiter depends on. -/
def limitFacts : List Fact := [⟨"request".toList, "remote".toList, .bool true⟩, ⟨"request".toList, "local".toList, .bool false⟩,
  ⟨"request".toList, "path".toList, .str "/p".toList⟩, ⟨"request".toList, "size".toList, .int 42⟩]

theorem limit_given : ∀ f ∈ limitFacts, Given world.abi world.lib.json start f := by
  simp only [limitFacts, List.forall_mem_cons]
  exact ⟨given (bytes := utf8 "true".toList) none (by decide +kernel) (.json (j := .bool true) rfl .bool),
    given (bytes := utf8 "false".toList) none (by decide +kernel) (.json (j := .bool false) rfl .bool),
    text_given (by decide +kernel), port_given (n := 42) (by decide +kernel) (by decide), by simp⟩

theorem limit_queries (env : Text → Option Val) (h : ∀ f ∈ limitFacts, f.Seen env) :
    Queries (eval env) tree "scope".toList QueryDemo.blocks (QueryDemo.data.take 1) QueryDemo.query := by
  simp only [limitFacts, List.forall_mem_cons] at h
  obtain ⟨h1, h2, h3, h4, -⟩ := h
  have hremote := attribute_value (t := "request.remote".toList) (by decide +kernel) h1
  have hlocal := attribute_value (t := "request.local".toList) (by decide +kernel) h2
  have hpath := attribute_value (t := "request.path".toList) (by decide +kernel) h3
  have hsize := attribute_value (t := "request.size".toList) (by decide +kernel) h4
  have hthree : eval env (tree "3".toList) = some (.int (3 : Nat)) := number_value (n := "3".toList) (by decide +kernel)
    (QueryDemo.same_eq (by decide +kernel))
  exact {
    domain := rfl
    hits := ⟨_, hthree, .int 3⟩
    descriptors := by
      refine ⟨[[("k\"".toList, "/p".toList)], [], [("x".toList, "\"}".toList)]], [("f".toList, "42".toList)],
        ?_, ?_, rfl⟩
      · refine .cons (.all ?_ (.cons (.expression hpath (.str _)) .nil))
          (.cons (.none (p := "request.local".toList) (by simp) hlocal) (.cons (.all (by simp) (.cons (.static _ _) .nil)) .nil))
        intro p hp
        simp only [List.mem_cons, List.not_mem_nil, or_false] at hp
        rcases hp with rfl | rfl <;> exact hremote
      · exact .cons ⟨by decide +kernel, _, hsize, QueryDemo.size_text⟩ .nil }

/-- Whatever is sent to the rate limiter follows from what the host says. -/
example (pre post : List Effect) (guard : Bool) (token : Nat) (svc : Svc) (bytes : Bytes) (rid : Text)
    (h : log QueryDemo.limitConfig = pre ++ .dispatch (natText 0) guard token svc bytes rid :: post) :
    svc = Demo.svc "limit" ∧ ∃ p, bytes = WireRequestDemo.wire p ∧ limitOn QueryDemo.query p := by
  have htree : treeOf (requestOf (translate QueryDemo.action (QueryDemo.data.take 1) .rateLimit)) = some limitTree :=
    if_pos rfl
  refine C81_limit (P := tree) world (QueryDemo.config QueryDemo.limitConfig) _ start _ (served limit_calls) 0
    QueryDemo.action (QueryDemo.data.take 1) rfl .rateLimit (Demo.svc "limit") true rfl (.inl rfl) ?_
    (follows htree) (mirrors htree) [] pre post guard token svc bytes rid h limitFacts ?_ QueryDemo.query ?_
    WireRequestDemo.good WireRequestDemo.requestDescs WireRequestDemo.wire (fun v => ?_)
  · rw [QueryDemo.available_limit]; exact QueryDemo.properConfig
  · intro f hf
    have hg := limit_given f hf
    have hm : ∀ f ∈ limitFacts, f.path ∈ chains limitTree := by
      have : ∀ p ∈ limitFacts.map Fact.path, p ∈ chains limitTree := by decide +kernel
      exact fun f hf => this _ (List.mem_map_of_mem hf)
    refine ⟨stands (a := QueryDemo.limitConfig) limit_calls (.inl rfl) (fun e he => by rw [h]; exact List.mem_append_left _ he) hg ?_, ?_⟩
    · simp only [limitFacts, List.mem_cons, List.not_mem_nil, or_false] at hf
      rcases hf with rfl | rfl | rfl | rfl <;> decide +kernel
    · intro ast hast
      cases parses_unique hast (treeOf_parses htree)
      exact hm f hf
  · intro env henv
    rw [QueryDemo.available_limit]
    exact limit_queries env henv
  · show (toMessage _ v (if Demo.svc "limit" = Demo.svc "limit" then limitRequestName else checkRequestName)).map _ = _
    rw [if_pos rfl]

end Verif.Props.HostFactsDemo
