import Verif.Props.WireRequest
import Verif.Props.WireDemo
/-! Message types and requests that meet the hypotheses of C80. -/
namespace Verif.Props.WireRequestDemo
open Verif Verif.Spec Verif.Legacy Verif.Cel
open WireDemo (one sub many)

/-! ### The message types -/

def pick (n : String) (kind : ProtoKind) (oneof : String) : ProtoField :=
  { name := n.toList, kind, repeated := false, oneof := some oneof.toList, presence := true }
def desc (fields : List ProtoField) : ProtoDesc := { mapEntry := false, fields }
def entry (kind : ProtoKind) : ProtoDesc := { mapEntry := true, fields := [one "key" .string, one "value" kind] }

def extensionEntry : Text := "envoy.service.auth.v3.AttributeContext.ContextExtensionsEntry".toList
def headerEntry : Text := "envoy.service.auth.v3.AttributeContext.HttpRequest.HeadersEntry".toList
def metadataEntry : Text := "envoy.config.core.v3.Metadata.FilterMetadataEntry".toList

def limit : ProtoDesc :=
  desc [one "domain" .string, many "descriptors" (.message descriptorName), one "hits_addend" .uint32]
def descriptor : ProtoDesc := desc [many "entries" (.message entryName)]
def pair : ProtoDesc := desc [one "key" .string, one "value" .string]
def check : ProtoDesc := desc [sub "attributes" contextName]
def context : ProtoDesc :=
  desc [sub "source" peerName, sub "destination" peerName, sub "request" requestName,
    many "context_extensions" (.message extensionEntry), sub "metadata_context" metadataName]
def request : ProtoDesc := desc [sub "time" timestampName, sub "http" httpName]
def http : ProtoDesc :=
  desc [one "id" .string, one "method" .string, many "headers" (.message headerEntry), one "path" .string,
    one "host" .string, one "scheme" .string, one "query" .string, one "protocol" .string]
def peer : ProtoDesc := desc [sub "address" addressName, one "service" .string]
def address : ProtoDesc := desc [pick "socket_address" (.message socketName) "address"]
def socket : ProtoDesc :=
  desc [one "address" .string, pick "port_value" .uint32 "port_specifier", pick "named_port" .string "port_specifier"]
def metadata : ProtoDesc := desc [many "filter_metadata" (.message metadataEntry)]

def descs : List (Text × ProtoDesc) :=
  [(limitRequestName, limit), (descriptorName, descriptor), (entryName, pair), (checkRequestName, check),
   (contextName, context), (requestName, request), (httpName, http), (peerName, peer), (addressName, address),
   (socketName, socket), (metadataName, metadata), (extensionEntry, entry .string), (headerEntry, entry .string),
   (metadataEntry, entry (.message structName))]

def lib : ProtoLib :=
  { WireDemo.lib with desc := fun n => match descs.lookup n with
      | some d => d
      | none => WireDemo.lib.desc n }

theorem desc_ind (P : ProtoDesc → Prop) (h1 : ∀ d ∈ descs, P d.2) (h2 : ∀ n, P (WireDemo.lib.desc n)) (n : Text) :
    P (lib.desc n) := by
  show P (match descs.lookup n with
      | some d => d
      | none => WireDemo.lib.desc n)
  split
  · rename_i d hd
    obtain ⟨l, k, h4, _⟩ := List.lookup_eq_some_iff.1 hd
    exact h1 (n, d) (by rw [h4]; simp)
  · exact h2 n

theorem good : GoodDescs lib := by
  constructor
  · exact desc_ind (fun d => (d.fields.map ProtoField.name).Nodup) (by decide) WireDemo.good.names
  · refine desc_ind (fun d => ∀ f ∈ d.fields, (fieldType lib f).isSome) (by decide +kernel) fun n => ?_
    refine WireDemo.desc_ind (fun d => ∀ f ∈ d.fields, (fieldType lib f).isSome) (by decide +kernel) (fun n => ?_) n
    show ∀ f ∈ (if n = timestampName then AnswerDemo.time else ConvDemo.demoDesc n).fields, (fieldType lib f).isSome
    split
    · decide +kernel
    · apply ConvDemo.desc_cases (fun d => ∀ f ∈ d.fields, (fieldType lib f).isSome) <;> decide +kernel

theorem takes {type : Text} {name : String} {t : ProtoType} {alone : Bool} {d : ProtoDesc} (hd : lib.desc type = d)
    (i : Nat) {f : ProtoField} (hf : d.fields[i]? = some f) (hn : f.name = name.toList) (ht : fieldType lib f = some t)
    (ha : (!alone || decide (f.oneof = none)) = true) : Takes lib type name t alone :=
  ⟨f, by rw [hd]; exact List.mem_of_getElem? hf, hn, ht, fun h => by subst h; simpa using ha⟩

theorem dLimit : lib.desc limitRequestName = limit := by with_unfolding_all rfl
theorem dDescriptor : lib.desc descriptorName = descriptor := by with_unfolding_all rfl
theorem dPair : lib.desc entryName = pair := by with_unfolding_all rfl
theorem dCheck : lib.desc checkRequestName = check := by with_unfolding_all rfl
theorem dContext : lib.desc contextName = context := by with_unfolding_all rfl
theorem dRequest : lib.desc requestName = request := by with_unfolding_all rfl
theorem dHttp : lib.desc httpName = http := by with_unfolding_all rfl
theorem dPeer : lib.desc peerName = peer := by with_unfolding_all rfl
theorem dAddress : lib.desc addressName = address := by with_unfolding_all rfl
theorem dSocket : lib.desc socketName = socket := by with_unfolding_all rfl
theorem dMetadata : lib.desc metadataName = metadata := by with_unfolding_all rfl
theorem dStruct : lib.desc "google.protobuf.Struct".toList = ConvDemo.demoStruct := by with_unfolding_all rfl
theorem dValue : lib.desc "google.protobuf.Value".toList = ConvDemo.demoValue := by with_unfolding_all rfl

/-- The descriptors have the fields that C80 relies on. -/
theorem requestDescs : RequestDescs lib where
  domain := takes dLimit 0 rfl rfl (by with_unfolding_all rfl) rfl
  hits := takes dLimit 2 rfl rfl (by with_unfolding_all rfl) rfl
  descriptors := takes dLimit 1 rfl rfl (by with_unfolding_all rfl) rfl
  entries := takes dDescriptor 0 rfl rfl (by with_unfolding_all rfl) rfl
  key := takes dPair 0 rfl rfl (by with_unfolding_all rfl) rfl
  value := takes dPair 1 rfl rfl (by with_unfolding_all rfl) rfl
  attributes := takes dCheck 0 rfl rfl (by with_unfolding_all rfl) rfl
  source := takes dContext 0 rfl rfl (by with_unfolding_all rfl) rfl
  destination := takes dContext 1 rfl rfl (by with_unfolding_all rfl) rfl
  request := takes dContext 2 rfl rfl (by with_unfolding_all rfl) rfl
  extensions := takes dContext 3 rfl rfl (by with_unfolding_all rfl) rfl
  metadata := takes dContext 4 rfl rfl (by with_unfolding_all rfl) rfl
  time := takes dRequest 0 rfl rfl (by with_unfolding_all rfl) rfl
  http := takes dRequest 1 rfl rfl (by with_unfolding_all rfl) rfl
  host := takes dHttp 4 rfl rfl (by with_unfolding_all rfl) rfl
  method := takes dHttp 1 rfl rfl (by with_unfolding_all rfl) rfl
  scheme := takes dHttp 5 rfl rfl (by with_unfolding_all rfl) rfl
  path := takes dHttp 3 rfl rfl (by with_unfolding_all rfl) rfl
  protocol := takes dHttp 7 rfl rfl (by with_unfolding_all rfl) rfl
  headers := takes dHttp 2 rfl rfl (by with_unfolding_all rfl) rfl
  peer := takes dPeer 0 rfl rfl (by with_unfolding_all rfl) rfl
  socket := takes dAddress 0 rfl rfl (by with_unfolding_all rfl) rfl
  address := takes dSocket 0 rfl rfl (by with_unfolding_all rfl) rfl
  port := takes dSocket 1 rfl rfl (by with_unfolding_all rfl) rfl
  filterMetadata := takes dMetadata 0 rfl rfl (by with_unfolding_all rfl) rfl
  fields := takes dStruct 0 rfl rfl (by with_unfolding_all rfl) rfl
  text := takes dValue 2 rfl rfl (by with_unfolding_all rfl) rfl
  struct := takes dValue 4 rfl rfl (by with_unfolding_all rfl) rfl

/-! ### The facts -/

/-- The attributes of a request with headers. -/
def env (n : Text) : Option Val :=
  if n = "request".toList then some (.map [
    (.str "time".toList, .timestamp 7 5), (.str "host".toList, .str "h".toList), (.str "method".toList, .str "GET".toList),
    (.str "scheme".toList, .str "http".toList), (.str "path".toList, .str "/p".toList),
    (.str "protocol".toList, .str "HTTP/1.1".toList), (.str "headers".toList, .map [(.str "a".toList, .str "1".toList),
      (.str "b".toList, .str "".toList)]),
    (.str "size".toList, .int 42), (.str "local".toList, .bool false), (.str "remote".toList, .bool true)])
  else QueryDemo.env n

def facts : CheckFacts where
  seconds := 7
  nanos := 5
  host := "h".toList
  method := "GET".toList
  scheme := "http".toList
  path := "/p".toList
  protocol := "HTTP/1.1".toList
  headers := [("a".toList, "1".toList), ("b".toList, "".toList)]
  destination := ("5.6.7.8".toList, 81)
  source := ("1.2.3.4".toList, 80)
  scope := "scope".toList
  metadata := [
    ("io.kuadrant.d".toList, [("g".toList, .expression "auth.identity".toList), ("e".toList, .text "h".toList)])]

def data : RequestData := QueryDemo.data.drop 1

open QueryDemo (same_eq tree) in
theorem facts_true : TrueFacts (eval env) tree "scope".toList data facts where
  time := same_eq (by decide +kernel)
  nanos := by decide
  host := same_eq (by decide +kernel)
  method := same_eq (by decide +kernel)
  scheme := same_eq (by decide +kernel)
  path := same_eq (by decide +kernel)
  protocol := same_eq (by decide +kernel)
  headers := by with_unfolding_all rfl
  distinct := by decide
  destination := ⟨same_eq (by decide +kernel), _, same_eq (b := .int (81 : Nat)) (by decide +kernel), .int 81⟩
  source := ⟨same_eq (by decide +kernel), _, same_eq (b := .int (80 : Nat)) (by decide +kernel), .int 80⟩
  scope := rfl
  domains := by
    constructor
    · simp only [facts, List.map_cons, List.map_nil, List.pairwise_cons, List.not_mem_nil, false_imp_iff, implies_true,
        List.Pairwise.nil, and_true]
    · intro dom
      simp only [facts, data, QueryDemo.data, List.drop_succ_cons, List.drop_zero, List.map_cons, List.map_nil,
        List.mem_cons, List.not_mem_nil, or_false, exists_eq_or_imp, exists_eq_left]
      rw [show domainName "d".toList = "io.kuadrant.d".toList by decide +kernel]
      exact ⟨.inl ∘ Eq.symm, fun h => h.elim Eq.symm Eq.symm⟩
  metadata := by
    intro d hd
    simp only [facts, List.mem_cons, List.not_mem_nil, or_false] at hd
    subst hd
    exact .cons ⟨rfl, .expression (by decide +kernel)⟩
      (.cons ⟨rfl, .text (by decide +kernel) (same_eq (by decide +kernel)) (.str _)⟩ .nil)

theorem available : availableTo .auth data = data := by
  unfold availableTo
  rw [if_neg (by decide), List.filter_eq_self]
  decide +kernel

theorem proper_data : ∀ d ∈ availableTo .auth data, Proper QueryDemo.tree d.2 := by
  rw [available]
  intro d hd
  simp only [data, QueryDemo.data, List.drop_succ_cons, List.drop_zero, List.mem_cons, List.not_mem_nil, or_false] at hd
  rcases hd with rfl | rfl <;> exact QueryDemo.proper (by decide +kernel)

/-! ### The calls -/

/-- The text of a message's first field stands for its bytes. -/
def wire : ProtoVal → Bytes
  | .message _ ((_, .string t) :: _) => utf8 t
  | .message _ ((n, _) :: _) => utf8 n
  | _ => []

def checkText : Text := requestOf (translate QueryDemo.checkAction data .auth)

/-- The requests have the values they should have, other expressions are true. -/
def world : Oracle Nat :=
  { QueryDemo.world with
    resolve := fun c _ e => (some (if e.src = QueryDemo.limitText then QueryDemo.query.value
      else if e.src = checkText then (checkQuery facts).value else .bool true), c.host)
    encode := fun _ svc v => (toMessage lib v (if svc = Demo.svc "limit" then limitRequestName else checkRequestName)).map wire }

def checkConfig : ActionConfig := QueryDemo.checkAction.config data

def factory (a : ActionConfig) : Factory := (Factory.tryFrom world.parse (QueryDemo.config a)).getD {}

def log (a : ActionConfig) : List Effect := (Filter.run world (factory a) 0 []).log

/-- The third effect is the call of the action. -/
def calls (a : ActionConfig) (svc : Svc) (bytes : Bytes) : Bool :=
  match ((log a)[2]? : Option Effect) with
  | some (.dispatch i _ _ svc' bytes' _) => decide (i = natText 0) && decide (svc' = svc) && decide (bytes' = bytes)
  | _ => false

def found (a : ActionConfig) : Bool :=
  (Factory.tryFrom world.parse (QueryDemo.config a)).isSome &&
  match ((factory a).select world { host := 0 }).1 with
  | .found _ => true
  | _ => false

theorem served {a : ActionConfig} (h : found a = true) :
    ServedBy world world.parse (QueryDemo.config a) (factory a) 0 (QueryDemo.actionSet a) := by
  simp only [found, Bool.and_eq_true] at h
  obtain ⟨h1, h2⟩ := h
  obtain ⟨b, hb⟩ : ∃ b, ((factory a).select world { host := 0 }).1 = .found b := by
    split at h2
    · rename_i b hb; exact ⟨b, hb⟩
    · cases h2
  have hf : Factory.tryFrom world.parse (QueryDemo.config a) = some (factory a) := by
    unfold factory
    cases hf : Factory.tryFrom world.parse (QueryDemo.config a) <;> simp_all
  rcases servedBy_exists (o := world) (host := 0) hf hb with ⟨s, hs, h⟩ | ⟨a, ha, _⟩
  · simp only [QueryDemo.config, List.mem_singleton] at hs
    subst hs
    exact h
  · simp [devModeAction, QueryDemo.config] at ha

/-- The interpreter of this world gives every expression a fixed value. -/
theorem valuedBy {E : Ast → Option Val} {known : Ctx Nat → Prop} {pre : List Effect} {x predicate message : Text}
    {value : Val}
    (hr : (if message = QueryDemo.limitText then QueryDemo.query.value else if message = checkText then
      (checkQuery facts).value else .bool true) = value)
    (h : ∃ ast, Parses message ast ∧ E ast = some value) :
    ValuedBy world known world.parse pre x predicate message E := by
  intro pred msg v c ast w _ hm hv hp hw
  obtain ⟨ast', hp', hw'⟩ := h
  cases parses_unique hp hp'
  rw [hw'] at hw
  cases hw
  cases hm
  obtain ⟨c0, c1, -, -, -, -, hev⟩ := hv
  have : evalExpr world c1 x { src := message } = (.available value, c1.withHost c1.host) := by
    rw [← hr]; rfl
  rw [this] at hev
  injection hev with h1 h2
  injection h1 with h1
  exact h1.symm

/-- The rate limiter is called. -/
example : calls QueryDemo.limitConfig (Demo.svc "limit") (utf8 "other".toList) = true := by decide +kernel

/-- Whatever is sent for the action asks for the query. -/
example (pre post : List Effect) (guard : Bool) (token : Nat) (svc : Svc) (bytes : Bytes) (rid : Text)
    (h : log QueryDemo.limitConfig = pre ++ .dispatch (natText 0) guard token svc bytes rid :: post) :
    svc = Demo.svc "limit" ∧ ∃ p, bytes = wire p ∧ limitOn QueryDemo.query p := by
  have hq : Queries (eval QueryDemo.env) QueryDemo.tree QueryDemo.action.scope QueryDemo.action.conditionalData
    (availableTo .rateLimit (QueryDemo.data.take 1)) QueryDemo.query := by
      rw [QueryDemo.available_limit]; exact QueryDemo.queries
  have hp : ProperConfig QueryDemo.tree QueryDemo.action.conditionalData
    (availableTo .rateLimit (QueryDemo.data.take 1)) := by rw [QueryDemo.available_limit]; exact QueryDemo.properConfig
  exact C80_limit_sent world _ _ _ 0 _ (served (by decide +kernel)) 0 QueryDemo.action
    (QueryDemo.data.take 1) rfl .rateLimit
    (Demo.svc "limit") true rfl (.inl rfl) hp [] _ _ guard token svc bytes rid h (evaluator _)
    (valuedBy (value := QueryDemo.query.value) (if_pos rfl)
      (C76_limit QueryDemo.tree QueryDemo.action (QueryDemo.data.take 1) .rateLimit (.inl rfl) hp _ (evaluator _) _ hq))
    QueryDemo.query hq good requestDescs wire (fun _ _ => rfl)

/-- The authorization service is called. -/
example : calls checkConfig (Demo.svc "auth") (utf8 "attributes".toList) = true := by decide +kernel

/-- Whatever is sent for the action tells the facts. -/
example (pre post : List Effect) (guard : Bool) (token : Nat) (svc : Svc) (bytes : Bytes) (rid : Text)
    (h : log checkConfig = pre ++ .dispatch (natText 0) guard token svc bytes rid :: post) :
    svc = Demo.svc "auth" ∧ ∃ p, bytes = wire p ∧ facts.On p := by
  have hq : TrueFacts (eval env) QueryDemo.tree "scope".toList (availableTo .auth data) facts := by
    rw [available]; exact facts_true
  have hn : ((availableTo .auth data).map Prod.fst).Nodup := by rw [available]; decide +kernel
  have hne : ¬requestOf (translate QueryDemo.checkAction data .auth) = QueryDemo.limitText := by decide +kernel
  have hs : ¬Demo.svc "auth" = Demo.svc "limit" := by decide +kernel
  exact C80_check_sent world _ _ _ 0 _ (served (by decide +kernel)) 0 QueryDemo.checkAction data rfl
    (Demo.svc "auth") true rfl proper_data hn [] _ _ guard token svc bytes rid h (evaluator _)
    (valuedBy (value := (checkQuery facts).value) ((if_neg hne).trans (if_pos rfl))
      (C76_check QueryDemo.tree QueryDemo.checkAction data proper_data hn _ (evaluator _) _
        (facts_check hq)))
    facts hq good requestDescs wire (fun _ v => by
      show (toMessage lib v (if Demo.svc "auth" = Demo.svc "limit" then limitRequestName else checkRequestName)).map wire = _
      rw [if_neg hs])

end Verif.Props.WireRequestDemo

namespace Verif.Props
open Verif Verif.Spec Verif.Legacy WireRequestDemo

/-- Finding: a request for 2^32 hits is sent as one for no hits, which every limit allows. -/
theorem C80_hits_deviation :
    ∃ p, toMessage lib ({ QueryDemo.query with hits := 2 ^ 32 }).value limitRequestName = some p ∧
      limitOn { QueryDemo.query with hits := 0 } p := by
  obtain ⟨p, h1, h2⟩ := limit_made good requestDescs { QueryDemo.query with hits := 2 ^ 32 }
  exact ⟨p, h1, h2⟩

end Verif.Props
