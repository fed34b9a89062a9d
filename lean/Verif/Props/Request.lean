import Verif.Lemmas.Request
import Verif.Lemmas.Evaluator
import Verif.Props.Cause
import Verif.Props.Legacy
/-!
C76: what translated actions ask the services for.
-/
namespace Verif.Props
open Verif Verif.Spec Verif.Legacy Verif.Cel

/-- C76: the request to a rate limit service asks for the configured domain, number of hits and descriptors. -/
theorem C76_limit (P : Text → Ast) (a : LegacyAction) (data : RequestData) (kind : SvcKind)
    (hk : kind = .rateLimit ∨ kind = .rateLimitCheck ∨ kind = .rateLimitReport)
    (hp : ProperConfig P a.conditionalData (availableTo kind data)) (E : Ast → Option Val) (hE : Evaluator E)
    (q : LimitQuery) (hq : Queries E P a.scope a.conditionalData (availableTo kind data) q) :
    ∃ ast, Parses (requestOf (translate a data kind)) ast ∧ E ast = some q.value :=
  ⟨_, C32_ratelimit_request P a data kind hk hp, value_ratelimit hE hq⟩

/-- C76: the request to an authorization service tells the attributes of the request and of the connection, the scope
and the request data by domain. -/
theorem C76_check (P : Text → Ast) (a : LegacyAction) (data : RequestData)
    (hp : ∀ d ∈ availableTo .auth data, Proper P d.2) (hn : ((availableTo .auth data).map Prod.fst).Nodup)
    (E : Ast → Option Val) (hE : Evaluator E) (q : CheckQuery) (hq : Checks E P a.scope (availableTo .auth data) q) :
    ∃ ast, Parses (requestOf (translate a data .auth)) ast ∧ E ast = some q.value := by
  obtain ⟨domains, hd, hw⟩ := C32_auth_request P a data hp
  exact ⟨_, hw, value_auth hE hn hd hq⟩

section
variable {H : Type} (o : Oracle H)

/-- Every call that is sent for an action carries the encoding of the value of its request. -/
theorem sent_value (parse : Text → Option Expr) (cfg : PluginConfig) (factory : Factory) (host : H)
    (s : ActionSet) (hs : ServedBy o parse cfg factory host s) (i : Nat) (a : LegacyAction) (data : RequestData)
    (hi : s.actions[i]? = some (a.config data)) (kind : SvcKind) (svc : Svc) (deny : Bool)
    (hsvc : cfg.services a.service = some (.call kind svc deny)) (hdyn : kind ≠ .dynamic)
    (events : List (Event H)) (pre post : List Effect) (guard : Bool) (token : Nat) (svc' : Svc) (bytes : Bytes)
    (rid : Text)
    (hlog : (Filter.run o factory host events).log = pre ++ .dispatch (natText i) guard token svc' bytes rid :: post)
    (E : Ast → Option Val) (w : Val)
    (hE : ValuedBy o (Acting o factory host events) parse pre (natText i) (predicateOf (translate a data kind))
      (requestOf (translate a data kind)) E)
    (hw : ∃ ast, Parses (requestOf (translate a data kind)) ast ∧ E ast = some w) :
    svc' = svc ∧ ∃ c, o.encode c svc w = some bytes := by
  have hat : At cfg.services s (natText i) (translate a data kind) :=
    .top hi (by simp [LegacyAction.config, standsFor, hsvc, hdyn])
  have hsv := (C59_legacy o parse cfg factory host s hs i a data hi kind svc deny hsvc hdyn events guard token svc' bytes
    rid (by rw [hlog]; simp)).1
  obtain ⟨head, service, var, message, replies, pred, msg, kind', deny', v, c, early, h1, h2, h3, h4, h5, h6, h7, h8⟩ :=
    C59_configured o parse cfg factory host s hs _ _ hat events pre post guard token svc' bytes rid hlog
  subst hsv
  obtain ⟨ast, hp, he⟩ := hw
  rw [h1] at hE hp
  cases hE pred msg v c ast w h4 h5 h7 hp he
  exact ⟨rfl, c, h8⟩

/-- C76: over a whole request, every call sent to a rate limit service for a translated action carries the encoding of
the configured query, evaluated at that moment. -/
theorem C76_limit_sent (parse : Text → Option Expr) (cfg : PluginConfig) (factory : Factory) (host : H)
    (s : ActionSet) (hs : ServedBy o parse cfg factory host s) (i : Nat) (a : LegacyAction) (data : RequestData)
    (hi : s.actions[i]? = some (a.config data)) (kind : SvcKind) (svc : Svc) (deny : Bool)
    (hsvc : cfg.services a.service = some (.call kind svc deny))
    (hk : kind = .rateLimit ∨ kind = .rateLimitCheck ∨ kind = .rateLimitReport)
    (P : Text → Ast) (hp : ProperConfig P a.conditionalData (availableTo kind data))
    (events : List (Event H)) (pre post : List Effect) (guard : Bool) (token : Nat) (svc' : Svc) (bytes : Bytes)
    (rid : Text)
    (hlog : (Filter.run o factory host events).log = pre ++ .dispatch (natText i) guard token svc' bytes rid :: post)
    (E : Ast → Option Val) (hE : Evaluator E)
    (hv : ValuedBy o (Acting o factory host events) parse pre (natText i) (predicateOf (translate a data kind))
      (requestOf (translate a data kind)) E)
    (q : LimitQuery) (hq : Queries E P a.scope a.conditionalData (availableTo kind data) q) :
    svc' = svc ∧ ∃ c, o.encode c svc q.value = some bytes :=
  sent_value o parse cfg factory host s hs i a data hi kind svc deny hsvc
    (by rcases hk with rfl | rfl | rfl <;> simp) events pre post guard token svc' bytes rid hlog E _ hv
    (C76_limit P a data kind hk hp E hE q hq)

/-- C76: over a whole request, every call sent to an authorization service for a translated action carries the encoding
of the attributes of the request at that moment, the scope and the request data. -/
theorem C76_check_sent (parse : Text → Option Expr) (cfg : PluginConfig) (factory : Factory) (host : H)
    (s : ActionSet) (hs : ServedBy o parse cfg factory host s) (i : Nat) (a : LegacyAction) (data : RequestData)
    (hi : s.actions[i]? = some (a.config data)) (svc : Svc) (deny : Bool)
    (hsvc : cfg.services a.service = some (.call .auth svc deny))
    (P : Text → Ast) (hp : ∀ d ∈ availableTo .auth data, Proper P d.2)
    (hn : ((availableTo .auth data).map Prod.fst).Nodup)
    (events : List (Event H)) (pre post : List Effect) (guard : Bool) (token : Nat) (svc' : Svc) (bytes : Bytes)
    (rid : Text)
    (hlog : (Filter.run o factory host events).log = pre ++ .dispatch (natText i) guard token svc' bytes rid :: post)
    (E : Ast → Option Val) (hE : Evaluator E)
    (hv : ValuedBy o (Acting o factory host events) parse pre (natText i) (predicateOf (translate a data .auth))
      (requestOf (translate a data .auth)) E)
    (q : CheckQuery) (hq : Checks E P a.scope (availableTo .auth data) q) :
    svc' = svc ∧ ∃ c, o.encode c svc q.value = some bytes :=
  sent_value o parse cfg factory host s hs i a data hi .auth svc deny hsvc (by simp) events pre post guard token svc'
    bytes rid hlog E _ hv (C76_check P a data hp hn E hE q hq)

end

/-! ### A request -/

namespace QueryDemo

/-- The attributes of a request. -/
def env (n : Text) : Option Val :=
  if n = "request".toList then some (.map [
    (.str "time".toList, .timestamp 7 0), (.str "host".toList, .str "h".toList), (.str "method".toList, .str "GET".toList),
    (.str "scheme".toList, .str "http".toList), (.str "path".toList, .str "/p".toList),
    (.str "protocol".toList, .str "HTTP/1.1".toList), (.str "headers".toList, .map []),
    (.str "size".toList, .int 42), (.str "local".toList, .bool false), (.str "remote".toList, .bool true)])
  else if n = "source".toList then some (.map [(.str "address".toList, .str "1.2.3.4".toList), (.str "port".toList, .int 80)])
  else if n = "destination".toList then
    some (.map [(.str "address".toList, .str "5.6.7.8".toList), (.str "port".toList, .int 81)])
  else if n = "true".toList then some (.bool true)
  else none

def tree : Text → Ast := LegacyDemo.tree

def blocks : List ConditionalData := [
  { predicates := ["request.remote".toList, "request.remote".toList],
    data := [.expression "k\"".toList "request.path".toList, .static "ratelimit.hits_addend".toList "3".toList] },
  { predicates := ["request.remote".toList, "request.local".toList],
    data := [.static "y".toList "1".toList, .static "ratelimit.domain".toList "other".toList] },
  { data := [.static "x".toList "\"}".toList] }]

def data : RequestData := [(("metrics.labels".toList, "f".toList), "request.size".toList),
  (("d".toList, "g".toList), "auth.identity".toList), (("d".toList, "e".toList), "request.host".toList)]

theorem proper {t : Text} (h : ((parse t).isSome && decide (¬EndsInComment t)) = true) : Proper tree t := by
  rw [Bool.and_eq_true] at h
  exact LegacyDemo.sound h.1 (of_decide_eq_true h.2)

theorem properConfig : ProperConfig tree blocks (data.take 1) := by
  have hall : ∀ t ∈ ["request.remote".toList, "request.local".toList, "request.path".toList, "3".toList,
      "request.size".toList], Proper tree t := by
    intro t ht
    refine proper ?_
    revert t
    decide +kernel
  constructor
  · intro cd hcd p hp
    simp only [blocks, List.mem_cons, List.not_mem_nil, or_false] at hcd
    rcases hcd with rfl | rfl | rfl
    · simp only [List.mem_cons, List.not_mem_nil, or_false] at hp
      rcases hp with rfl | rfl <;> exact hall _ (by simp)
    · simp only [List.mem_cons, List.not_mem_nil, or_false] at hp
      rcases hp with rfl | rfl <;> exact hall _ (by simp)
    · exact nomatch hp
  · intro cd hcd k v hv
    simp only [blocks, List.mem_cons, List.not_mem_nil, or_false] at hcd
    rcases hcd with rfl | rfl | rfl
    · simp only [List.mem_cons, List.not_mem_nil, or_false, DataItem.expression.injEq, reduceCtorEq] at hv
      obtain ⟨-, rfl⟩ := hv
      exact hall _ (by simp)
    · simp at hv
    · simp at hv
  · intro cd hcd v hv
    simp only [blocks, List.mem_cons, List.not_mem_nil, or_false] at hcd
    rcases hcd with rfl | rfl | rfl
    · simp only [List.mem_cons, List.not_mem_nil, or_false, DataItem.static.injEq, reduceCtorEq, false_or] at hv
      obtain ⟨-, rfl⟩ := hv
      exact hall _ (by simp)
    · simp only [List.mem_cons, List.not_mem_nil, or_false, DataItem.static.injEq] at hv
      rcases hv with ⟨h, -⟩ | ⟨h, -⟩ <;> exact absurd h (by decide +kernel)
    · simp only [List.mem_cons, List.not_mem_nil, or_false, DataItem.static.injEq] at hv
      exact absurd hv.1 (by decide +kernel)
  · intro d hd
    simp only [data, List.take, List.mem_cons, List.not_mem_nil, or_false] at hd
    subst hd
    exact hall _ (by simp)

def action : LegacyAction := { service := "limit".toList, scope := "scope".toList, conditionalData := blocks }

/-- A comparison of simple values. -/
def same : Option Val → Val → Bool
  | some (.bool a), .bool b => decide (a = b)
  | some (.int a), .int b => decide (a = b)
  | some (.uint a), .uint b => decide (a = b)
  | some (.str a), .str b => decide (a = b)
  | some (.timestamp a n), .timestamp b m => decide (a = b ∧ n = m)
  | some (.map []), .map [] => true
  | _, _ => false

theorem same_eq {a : Option Val} {b : Val} (h : same a b = true) : a = some b := by
  unfold same at h
  split at h <;> simp_all

/-- What the action of the demo asks for. -/
def query : LimitQuery where
  domain := "other".toList
  hits := 3
  descriptors := [[("k\"".toList, "/p".toList), ("x".toList, "\"}".toList)], [("f".toList, "42".toList)]]

theorem remote : eval env (tree "request.remote".toList) = some (.bool true) := same_eq (by decide +kernel)
theorem «local» : eval env (tree "request.local".toList) = some (.bool false) := same_eq (by decide +kernel)

theorem queries : Queries (eval env) tree "scope".toList blocks (data.take 1) query where
  domain := rfl
  hits := ⟨.int (3 : Nat), same_eq (by decide +kernel), .int 3⟩
  descriptors := by
    refine ⟨[[("k\"".toList, "/p".toList)], [], [("x".toList, "\"}".toList)]], [("f".toList, "42".toList)],
      ?_, ?_, rfl⟩
    · refine .cons (.all ?_ (.cons (.expression (same_eq (by decide +kernel)) (.str _)) .nil))
        (.cons (.none (p := "request.local".toList) (by simp) «local») (.cons (.all (by simp) (.cons (.static _ _) .nil)) .nil))
      intro p hp
      simp only [List.mem_cons, List.not_mem_nil, or_false] at hp
      rcases hp with rfl | rfl <;> exact remote
    · exact .cons ⟨by decide +kernel, .int 42, same_eq (by decide +kernel), by
        have := AsText.int 42
        rwa [show (toString (42 : Int)).toList = "42".toList by decide +kernel] at this⟩ .nil

/-- The scope of the second action is told to the authorization service. -/
def checkAction : LegacyAction := { service := "auth".toList, scope := "scope".toList }

def checkQuery : CheckQuery where
  time := .timestamp 7 0
  http := [("host", .str "h".toList), ("method", .str "GET".toList), ("scheme", .str "http".toList),
    ("path", .str "/p".toList), ("protocol", .str "HTTP/1.1".toList), ("headers", .map [])]
  destination := (.str "5.6.7.8".toList, 81)
  source := (.str "1.2.3.4".toList, 80)
  scope := "scope".toList
  metadata := [
    ("io.kuadrant.d".toList, [
      ("g".toList, messageOf "google.protobuf.Value" [("struct_value", structValue [("cel_expr".toList,
        messageOf "google.protobuf.Value" [("string_value", .str "auth.identity".toList)])])]),
      ("e".toList, messageOf "google.protobuf.Value" [("string_value", .str "h".toList)])]),
    ("io.kuadrant.metrics.labels".toList, [
      ("f".toList, messageOf "google.protobuf.Value" [("string_value", .str "42".toList)])])]

theorem size_text : AsText (.int 42) "42".toList := by
  have := AsText.int 42
  rwa [show (toString (42 : Int)).toList = "42".toList by decide +kernel] at this

theorem checks : Checks (eval env) tree "scope".toList data checkQuery where
  time := same_eq (by decide +kernel)
  http := .cons ⟨rfl, same_eq (by decide +kernel)⟩ (.cons ⟨rfl, same_eq (by decide +kernel)⟩
    (.cons ⟨rfl, same_eq (by decide +kernel)⟩ (.cons ⟨rfl, same_eq (by decide +kernel)⟩
      (.cons ⟨rfl, same_eq (by decide +kernel)⟩ (.cons ⟨rfl, same_eq (by decide +kernel)⟩ .nil)))))
  destination := ⟨same_eq (by decide +kernel), _, same_eq (b := .int (81 : Nat)) (by decide +kernel), .int 81⟩
  source := ⟨same_eq (by decide +kernel), _, same_eq (b := .int (80 : Nat)) (by decide +kernel), .int 80⟩
  scope := rfl
  domains := by
    constructor
    · simp only [checkQuery, List.map_cons, List.map_nil, List.pairwise_cons, List.mem_cons, List.not_mem_nil, or_false,
        forall_eq, false_imp_iff, implies_true, List.Pairwise.nil, and_true]
      decide +kernel
    · intro dom
      simp only [checkQuery, data, List.map_cons, List.map_nil, List.mem_cons, List.not_mem_nil, or_false,
        exists_eq_or_imp, exists_eq_left]
      rw [show domainName "metrics.labels".toList = "io.kuadrant.metrics.labels".toList by decide +kernel,
        show domainName "d".toList = "io.kuadrant.d".toList by decide +kernel]
      constructor
      · rintro (rfl | rfl)
        · exact .inr (.inl rfl)
        · exact .inl rfl
      · rintro (rfl | rfl | rfl)
        · exact .inr rfl
        · exact .inl rfl
        · exact .inl rfl
  metadata := by
    intro d hd
    simp only [checkQuery, List.mem_cons, List.not_mem_nil, or_false] at hd
    rcases hd with rfl | rfl
    · exact .cons ⟨rfl, .expression (by decide +kernel)⟩
        (.cons ⟨rfl, .value (by decide +kernel) (same_eq (by decide +kernel)) (.str _)⟩ .nil)
    · exact .cons ⟨rfl, .value (by decide +kernel) (same_eq (by decide +kernel)) size_text⟩ .nil

theorem proper_data : ∀ d ∈ availableTo .auth data, Proper tree d.2 := by
  intro d hd
  have hd := (List.mem_filter.1 hd).1
  simp only [data, List.mem_cons, List.not_mem_nil, or_false] at hd
  rcases hd with rfl | rfl | rfl <;> exact proper (by decide +kernel)

theorem available : availableTo .auth data = data := by
  unfold availableTo
  rw [if_neg (by decide), List.filter_eq_self]
  decide +kernel

theorem available_none : availableTo .auth [] = [] := by
  unfold availableTo
  rw [if_neg (by decide), List.filter_nil]

theorem available_limit : availableTo .rateLimit (data.take 1) = data.take 1 := by
  unfold availableTo
  rw [if_neg (by decide), List.filter_eq_self]
  decide +kernel

end QueryDemo

example : ∃ ast, Parses (requestOf (translate QueryDemo.action (QueryDemo.data.take 1) .rateLimit)) ast ∧
    eval QueryDemo.env ast = some QueryDemo.query.value :=
  C76_limit QueryDemo.tree QueryDemo.action (QueryDemo.data.take 1) .rateLimit (.inl rfl)
    (by rw [QueryDemo.available_limit]; exact QueryDemo.properConfig) _ (evaluator _) _
    (by rw [QueryDemo.available_limit]; exact QueryDemo.queries)

example : ∃ ast, Parses (requestOf (translate QueryDemo.checkAction QueryDemo.data .auth)) ast ∧
    eval QueryDemo.env ast = some QueryDemo.checkQuery.value :=
  C76_check QueryDemo.tree QueryDemo.checkAction QueryDemo.data QueryDemo.proper_data
    (by rw [QueryDemo.available]; decide +kernel) _ (evaluator _) _
    (by rw [QueryDemo.available]; exact QueryDemo.checks)

/-- Finding: the domain and the number of hits that a block gives are used although a predicate of the block is
false. -/
theorem C76_unconditional_deviation : ∃ (cd : ConditionalData) (p : Text), cd ∈ QueryDemo.blocks ∧
    p ∈ cd.predicates ∧ eval QueryDemo.env (QueryDemo.tree p) = some (.bool false) ∧
    DataItem.static "ratelimit.domain".toList "other".toList ∈ cd.data ∧
    (∀ b ∈ QueryDemo.blocks, b ≠ cd → ∀ i ∈ b.data, i.key ≠ "ratelimit.domain".toList) ∧
    ∃ ast, Parses (requestOf (translate QueryDemo.action (QueryDemo.data.take 1) .rateLimit)) ast ∧
      (eval QueryDemo.env ast).bind (field "domain".toList) = some (.str "other".toList) := by
  refine ⟨_, "request.local".toList, List.mem_cons_of_mem _ List.mem_cons_self, by simp, QueryDemo.local, by simp, ?_, ?_⟩
  · intro b hb hne i hi
    simp only [QueryDemo.blocks, List.mem_cons, List.not_mem_nil, or_false] at hb
    rcases hb with rfl | rfl | rfl
    · simp only [List.mem_cons, List.not_mem_nil, or_false] at hi
      rcases hi with rfl | rfl <;> decide +kernel
    · exact absurd rfl hne
    · simp only [List.mem_cons, List.not_mem_nil, or_false] at hi
      subst hi
      decide +kernel
  · obtain ⟨ast, h1, h2⟩ := C76_limit QueryDemo.tree QueryDemo.action (QueryDemo.data.take 1) .rateLimit (.inl rfl)
      (by rw [QueryDemo.available_limit]; exact QueryDemo.properConfig) _ (evaluator _) _
      (by rw [QueryDemo.available_limit]; exact QueryDemo.queries)
    exact ⟨ast, h1, by rw [h2]; rfl⟩

namespace QueryDemo

def limitText : Text := requestOf (translate action (data.take 1) .rateLimit)
def checkText : Text := requestOf (translate checkAction [] .auth)

/-- The requests have the values they should have, other expressions are true. Messages are encoded as the text of their
first field. -/
def world : Oracle Nat :=
  { Demo.world with
    parse := fun t => some { src := t }
    resolve := fun c _ e =>
      (some (if e.src = limitText then query.value else if e.src = checkText then { checkQuery with metadata := [] }.value else .bool true), c.host)
    encode := fun _ _ v => match v with
      | .struct _ ((_, .str t) :: _) => some (utf8 t)
      | .struct _ _ => some []
      | _ => none }

def services (t : Text) : Option SvcInst :=
  if t = "limit".toList then some (.call .rateLimit (Demo.svc "limit") true)
  else if t = "auth".toList then some (.call .auth (Demo.svc "auth") true)
  else none

def actionSet (a : ActionConfig) : ActionSet where
  name := "demo".toList
  hostnames := ["*.com".toList]
  predicates := []
  actions := [a]

def config (a : ActionConfig) : PluginConfig := { services, actionSets := [actionSet a] }

def factory (a : ActionConfig) : Factory := (Factory.tryFrom world.parse (config a)).getD {}

def limitConfig : ActionConfig := action.config (data.take 1)
def checkConfig : ActionConfig := checkAction.config []

def log (a : ActionConfig) : List Effect := (Filter.run world (factory a) 0 []).log

/-- The third effect is the call of the action. -/
def calls (a : ActionConfig) (svc : Svc) (bytes : Bytes) : Bool :=
  match ((log a)[2]? : Option Effect) with
  | some (.dispatch i _ _ svc' bytes' _) => decide (i = natText 0) && decide (svc' = svc) && decide (bytes' = bytes)
  | _ => false

def found (a : ActionConfig) : Bool :=
  (Factory.tryFrom world.parse (config a)).isSome &&
  match ((factory a).select world { host := 0 }).1 with
  | .found _ => true
  | _ => false

theorem served {a : ActionConfig} (h : found a = true) :
    ServedBy world world.parse (config a) (factory a) 0 (actionSet a) := by
  simp only [found, Bool.and_eq_true] at h
  obtain ⟨h1, h2⟩ := h
  obtain ⟨b, hb⟩ : ∃ b, ((factory a).select world { host := 0 }).1 = .found b := by
    split at h2
    · rename_i b hb; exact ⟨b, hb⟩
    · cases h2
  have hf : Factory.tryFrom world.parse (config a) = some (factory a) := by
    unfold factory
    cases hf : Factory.tryFrom world.parse (config a) <;> simp_all
  rcases servedBy_exists (o := world) (host := 0) hf hb with ⟨s, hs, h⟩ | ⟨a, ha, _⟩
  · simp only [config, List.mem_singleton] at hs
    subst hs
    exact h
  · simp [devModeAction, config] at ha

/-- The interpreter of this world gives every expression a fixed value. -/
theorem valuedBy {known : Ctx Nat → Prop} {pre : List Effect} {x predicate message : Text} {value : Val}
    (hr : (if message = limitText then query.value else if message = checkText then { checkQuery with metadata := [] }.value
      else .bool true) = value)
    (h : ∃ ast, Parses message ast ∧ eval env ast = some value) :
    ValuedBy world known world.parse pre x predicate message (eval env) := by
  intro pred msg v c ast w _ hm hv hp hw
  obtain ⟨ast', hp', hw'⟩ := h
  cases parses_unique hp hp'
  rw [hw'] at hw
  cases hw
  cases hm
  obtain ⟨c0, c1, -, -, -, -, hev⟩ := hv
  have : evalExpr world c1 x { src := message } = (.available value, c1.withHost c1.host) := by
    rw [← hr]; rfl
  rw [this] at hev
  injection hev with h1 h2
  injection h1 with h1
  exact h1.symm

end QueryDemo

example : QueryDemo.calls QueryDemo.limitConfig (Demo.svc "limit") (utf8 "other".toList) = true := by decide +kernel

/-- Whatever is sent for the action is the encoding of the query. -/
example (pre post : List Effect) (guard : Bool) (token : Nat) (svc : Svc) (bytes : Bytes) (rid : Text)
    (h : QueryDemo.log QueryDemo.limitConfig = pre ++ .dispatch (natText 0) guard token svc bytes rid :: post) :
    svc = Demo.svc "limit" ∧ ∃ c, QueryDemo.world.encode c (Demo.svc "limit") QueryDemo.query.value = some bytes := by
  have hq : Queries (eval QueryDemo.env) QueryDemo.tree QueryDemo.action.scope QueryDemo.action.conditionalData
    (availableTo .rateLimit (QueryDemo.data.take 1)) QueryDemo.query := by
      rw [QueryDemo.available_limit]; exact QueryDemo.queries
  have hp : ProperConfig QueryDemo.tree QueryDemo.action.conditionalData
    (availableTo .rateLimit (QueryDemo.data.take 1)) := by rw [QueryDemo.available_limit]; exact QueryDemo.properConfig
  exact C76_limit_sent QueryDemo.world _ _ _ 0 _ (QueryDemo.served (by decide +kernel)) 0 QueryDemo.action
    (QueryDemo.data.take 1) rfl .rateLimit
    (Demo.svc "limit") true rfl (.inl rfl) QueryDemo.tree hp [] _ _ guard token svc bytes rid h _ (evaluator _)
    (QueryDemo.valuedBy (value := QueryDemo.query.value) (if_pos rfl)
      (C76_limit QueryDemo.tree QueryDemo.action (QueryDemo.data.take 1) .rateLimit (.inl rfl) hp _ (evaluator _) _ hq))
    QueryDemo.query hq

example : QueryDemo.calls QueryDemo.checkConfig (Demo.svc "auth") [] = true := by decide +kernel

/-- The same for the call to the authorization service. -/
example (pre post : List Effect) (guard : Bool) (token : Nat) (svc : Svc) (bytes : Bytes) (rid : Text)
    (h : QueryDemo.log QueryDemo.checkConfig = pre ++ .dispatch (natText 0) guard token svc bytes rid :: post) :
    svc = Demo.svc "auth" ∧
      ∃ c, QueryDemo.world.encode c (Demo.svc "auth") { QueryDemo.checkQuery with metadata := [] }.value = some bytes := by
  have hq : Checks (eval QueryDemo.env) QueryDemo.tree "scope".toList (availableTo .auth [])
      { QueryDemo.checkQuery with metadata := [] } := by
    rw [QueryDemo.available_none]
    exact { QueryDemo.checks with
      domains := ⟨.nil, by simp⟩
      metadata := by simp }
  have hp : ∀ d ∈ availableTo .auth [], Proper QueryDemo.tree d.2 := by rw [QueryDemo.available_none]; simp
  have hn : ((availableTo .auth []).map Prod.fst).Nodup := by rw [QueryDemo.available_none]; exact .nil
  have hne : ¬requestOf (translate QueryDemo.checkAction [] .auth) = QueryDemo.limitText := by decide +kernel
  exact C76_check_sent QueryDemo.world _ _ _ 0 _ (QueryDemo.served (by decide +kernel)) 0 QueryDemo.checkAction [] rfl
    (Demo.svc "auth") true rfl QueryDemo.tree hp hn [] _ _ guard token svc bytes rid h _ (evaluator _)
    (QueryDemo.valuedBy (value := { QueryDemo.checkQuery with metadata := [] }.value)
      ((if_neg hne).trans (if_pos rfl))
      (C76_check QueryDemo.tree QueryDemo.checkAction [] hp hn _ (evaluator _) _ hq))
    { QueryDemo.checkQuery with metadata := [] } hq

end Verif.Props
