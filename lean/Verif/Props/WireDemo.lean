import Verif.Props.Wire
import Verif.Props.VerdictHostDemo
/-! The message types of the services and messages that meet the hypotheses of C79. -/
namespace Verif.Props.WireDemo
open Verif Verif.Spec Verif.Legacy

/-! ### The message types -/

def one (n : String) (kind : ProtoKind) : ProtoField :=
  { name := n.toList, kind, repeated := false, oneof := none, presence := false }
def sub (n : String) (type : Text) : ProtoField :=
  { name := n.toList, kind := .message type, repeated := false, oneof := none, presence := true }
def many (n : String) (kind : ProtoKind) : ProtoField :=
  { name := n.toList, kind, repeated := true, oneof := none, presence := false }
def choice (n : String) (type : Text) : ProtoField :=
  { name := n.toList, kind := .message type, repeated := false, oneof := some "http_response".toList, presence := true }

def parameterName : Text := "envoy.config.core.v3.QueryParameter".toList

def option : ProtoDesc :=
  { mapEntry := false, fields := [sub "header" headerName, one "append_action" (.enum [0, 1, 2, 3]), one "keep_empty_value" .bool] }
def header : ProtoDesc :=
  { mapEntry := false, fields := [one "key" .string, one "value" .string, one "raw_value" .bytes] }
def limit : ProtoDesc :=
  { mapEntry := false, fields := [one "overall_code" (.enum [0, 1, 2]), many "response_headers_to_add" (.message optionName),
      many "request_headers_to_add" (.message optionName), one "raw_body" .bytes] }
def check : ProtoDesc :=
  { mapEntry := false, fields := [choice "denied_response" deniedName, choice "ok_response" okName,
      sub "dynamic_metadata" structName] }
def denied : ProtoDesc :=
  { mapEntry := false, fields := [sub "status" httpStatusName, many "headers" (.message optionName), one "body" .string] }
def ok : ProtoDesc :=
  { mapEntry := false, fields := [many "headers" (.message optionName), many "headers_to_remove" .string,
      sub "dynamic_metadata" structName, many "response_headers_to_add" (.message optionName),
      many "query_parameters_to_set" (.message parameterName), many "query_parameters_to_remove" .string] }
def httpStatus : ProtoDesc :=
  { mapEntry := false, fields := [one "code" (.enum [0, 200, 401, 403, 429, 500])] }
def parameter : ProtoDesc :=
  { mapEntry := false, fields := [one "key" .string, one "value" .string] }

def descs : List (Text × ProtoDesc) :=
  [(optionName, option), (headerName, header), (limitName, limit), (checkName, check), (deniedName, denied),
   (okName, ok), (httpStatusName, httpStatus), (parameterName, parameter)]

def lib : ProtoLib :=
  { AnswerDemo.lib with desc := fun n => match descs.lookup n with
      | some d => d
      | none => AnswerDemo.lib.desc n }

theorem desc_ind (P : ProtoDesc → Prop) (h1 : ∀ d ∈ descs, P d.2) (h2 : ∀ n, P (AnswerDemo.lib.desc n)) (n : Text) :
    P (lib.desc n) := by
  show P (match descs.lookup n with
      | some d => d
      | none => AnswerDemo.lib.desc n)
  split
  · rename_i d hd
    obtain ⟨l, k, h4, _⟩ := List.lookup_eq_some_iff.1 hd
    exact h1 (n, d) (by rw [h4]; simp)
  · exact h2 n

theorem good : GoodDescs lib := by
  constructor
  · exact desc_ind (fun d => (d.fields.map ProtoField.name).Nodup) (by decide) AnswerDemo.good.names
  · refine desc_ind (fun d => ∀ f ∈ d.fields, (fieldType lib f).isSome) (by decide +kernel) fun n => ?_
    show ∀ f ∈ (if n = timestampName then AnswerDemo.time else ConvDemo.demoDesc n).fields, (fieldType lib f).isSome
    split
    · decide +kernel
    · apply ConvDemo.desc_cases (fun d => ∀ f ∈ d.fields, (fieldType lib f).isSome) <;> decide +kernel

theorem known : KnownDescs lib where
  time := by decide +kernel
  struct := ⟨_, rfl, rfl, by with_unfolding_all rfl⟩
  list := ⟨_, rfl, rfl, by with_unfolding_all rfl⟩
  value := by decide +kernel
  null := by
    intro f hf hn
    have h : (lib.desc "google.protobuf.Value".toList).fields = ConvDemo.demoValue.fields := by with_unfolding_all rfl
    rw [h] at hf
    simp only [ConvDemo.demoValue, ConvDemo.member, List.mem_cons, List.not_mem_nil, or_false] at hf
    rcases hf with rfl | rfl | rfl | rfl | rfl | rfl
    · exact ⟨_, rfl⟩
    all_goals exact absurd hn (by decide)
  oneof := ⟨"kind".toList, by
    have h : (lib.desc "google.protobuf.Value".toList).fields = ConvDemo.demoValue.fields := by with_unfolding_all rfl
    rw [h]
    decide⟩

theorem has {type : Text} {d : ProtoDesc} (hd : lib.desc type = d) (i : Nat) {name : String} {kind : ProtoKind}
    {repeated presence : Bool} {f : ProtoField} (hf : d.fields[i]? = some f)
    (h : f.name = name.toList ∧ f.kind = kind ∧ f.repeated = repeated ∧ f.presence = presence) :
    HasKind lib type name kind repeated presence :=
  ⟨f, by rw [hd]; exact List.mem_of_getElem? hf, h⟩

theorem desc_option : lib.desc optionName = option := by with_unfolding_all rfl
theorem desc_header : lib.desc headerName = header := by with_unfolding_all rfl
theorem desc_limit : lib.desc limitName = limit := by with_unfolding_all rfl
theorem desc_check : lib.desc checkName = check := by with_unfolding_all rfl
theorem desc_denied : lib.desc deniedName = denied := by with_unfolding_all rfl
theorem desc_ok : lib.desc okName = ok := by with_unfolding_all rfl
theorem desc_status : lib.desc httpStatusName = httpStatus := by with_unfolding_all rfl
theorem desc_parameter : lib.desc parameterName = parameter := by with_unfolding_all rfl
theorem desc_struct : lib.desc structName = ConvDemo.demoStruct := by with_unfolding_all rfl
theorem desc_value : lib.desc valueName = ConvDemo.demoValue := by with_unfolding_all rfl

/-- The descriptors have the fields that C79 relies on. -/
theorem envoy : EnvoyDescs lib where
  header := has desc_option 0 rfl ⟨rfl, rfl, rfl, rfl⟩
  noKey := by rw [desc_option]; decide
  key := has desc_header 0 rfl ⟨rfl, rfl, rfl, rfl⟩
  value := has desc_header 1 rfl ⟨rfl, rfl, rfl, rfl⟩
  code := ⟨[1, 2], has desc_limit 0 rfl ⟨rfl, rfl, rfl, rfl⟩⟩
  limitHeaders := has desc_limit 1 rfl ⟨rfl, rfl, rfl, rfl⟩
  denied := has desc_check 0 rfl ⟨rfl, rfl, rfl, rfl⟩
  ok := has desc_check 1 rfl ⟨rfl, rfl, rfl, rfl⟩
  oneof := ⟨"http_response".toList, by rw [desc_check]; decide⟩
  metadata := has desc_check 2 rfl ⟨rfl, rfl, rfl, rfl⟩
  status := has desc_denied 0 rfl ⟨rfl, rfl, rfl, rfl⟩
  deniedHeaders := has desc_denied 1 rfl ⟨rfl, rfl, rfl, rfl⟩
  body := has desc_denied 2 rfl ⟨rfl, rfl, rfl, rfl⟩
  statusCode := ⟨[200, 401, 403, 429, 500], has desc_status 0 rfl ⟨rfl, rfl, rfl, rfl⟩⟩
  okHeaders := has desc_ok 0 rfl ⟨rfl, rfl, rfl, rfl⟩
  responseHeaders := has desc_ok 3 rfl ⟨rfl, rfl, rfl, rfl⟩
  removed := has desc_ok 1 rfl ⟨rfl, rfl, rfl, rfl⟩
  setParameters := ⟨parameterName, has desc_ok 4 rfl ⟨rfl, rfl, rfl, rfl⟩, by rw [desc_parameter]; rfl⟩
  removedParameters := has desc_ok 5 rfl ⟨rfl, rfl, rfl, rfl⟩
  noMaps := by rw [desc_option]; rfl

/-! ### The messages -/

/-- A `HeaderValueOption` for `x: 1`. -/
def asked : ProtoVal := .message optionName [("header".toList,
  .message headerName [("key".toList, .string "x".toList), ("value".toList, .string "1".toList)])]

/-- Over the limit, and a header for the reply. -/
def overLimit : List (Text × ProtoVal) :=
  [("overall_code".toList, .enum 2), ("response_headers_to_add".toList, .list [asked])]

/-- Denied with status 401, a header and a body. -/
def refusal : List (Text × ProtoVal) :=
  [("denied_response".toList, .message deniedName [("status".toList, .message httpStatusName [("code".toList, .enum 401)]),
    ("headers".toList, .list [asked]), ("body".toList, .string "no".toList)])]

/-- Denied without a status. -/
def bareRefusal : List (Text × ProtoVal) :=
  [("denied_response".toList, .message deniedName [("headers".toList, .list [asked])])]

/-- Approved with a header for the request and metadata. -/
def consent : List (Text × ProtoVal) :=
  [("ok_response".toList, .message okName [("headers".toList, .list [asked])]),
   ("dynamic_metadata".toList, .message structName [("fields".toList,
     .map [(.string "user".toList, .message valueName [("string_value".toList, .string "jo".toList)])])])]

/-- A message is well typed when its fields are. -/
theorem typed {name : Text} {fields : List (Text × ProtoVal)} {d : ProtoDesc} (hd : lib.desc name = d)
    (h1 : (names fields).Nodup) (h2 : ∀ f ∈ d.fields, ∀ g ∈ d.fields, f.name ∈ names fields → g.name ∈ names fields →
      f.oneof.isSome → g.oneof = f.oneof → f.name = g.name) (h3 : WellTypedFields lib fields d.fields) :
    WellTyped lib (.message name fields) (.one (.message name)) := by
  subst hd
  rw [WellTyped]
  exact ⟨rfl, h1, h3, h2⟩

theorem typed_field {fields : List ProtoField} (i : Nat) {f : ProtoField} {type : ProtoType} {n : Text} {p : ProtoVal}
    {l : List (Text × ProtoVal)} (hf : fields[i]? = some f) (hn : f.name = n) (ht : fieldType lib f = some type)
    (hp : WellTyped lib p type) (hl : WellTypedFields lib l fields) : WellTypedFields lib ((n, p) :: l) fields := by
  rw [WellTypedFields]
  exact ⟨⟨f, List.mem_of_getElem? hf, hn, type, ht, hp⟩, hl⟩

theorem typed_none {fields : List ProtoField} : WellTypedFields lib [] fields := by rw [WellTypedFields]; trivial

theorem typed_string (t : Text) : WellTyped lib (.string t) (.one .string) := by rw [WellTyped]
theorem typed_enum (i : Int) (ns : List Int) : WellTyped lib (.enum i) (.one (.enum ns)) := by rw [WellTyped]; exact ⟨_, rfl⟩
theorem typed_single {p : ProtoVal} {kind : ProtoKind} (h : WellTyped lib p (.one kind)) : WellTyped lib (.list [p]) (.list kind) := by
  rw [WellTyped, ]
  refine ⟨kind, rfl, ?_⟩
  rw [WellTypedItems, WellTypedItems]
  exact ⟨h, trivial⟩

theorem asked_typed : WellTyped lib asked (.one (.message optionName)) :=
  typed desc_option (by decide) (by decide) (typed_field 0 rfl rfl (by with_unfolding_all rfl)
    (typed desc_header (by decide) (by decide) (typed_field 0 rfl rfl (by with_unfolding_all rfl) (typed_string _)
      (typed_field 1 rfl rfl (by with_unfolding_all rfl) (typed_string _) typed_none))) typed_none)

theorem overLimit_typed : WellTyped lib (.message limitName overLimit) (.one (.message limitName)) :=
  typed desc_limit (by decide) (by decide) (typed_field 0 rfl rfl (by with_unfolding_all rfl) (typed_enum _ [0, 1, 2])
    (typed_field 1 rfl rfl (by with_unfolding_all rfl) (typed_single asked_typed) typed_none))

theorem refusal_typed : WellTyped lib (.message checkName refusal) (.one (.message checkName)) :=
  typed desc_check (by decide) (by decide) (typed_field 0 rfl rfl (by with_unfolding_all rfl)
    (typed desc_denied (by decide) (by decide) (typed_field 0 rfl rfl (by with_unfolding_all rfl)
        (typed desc_status (by decide) (by decide) (typed_field 0 rfl rfl (by with_unfolding_all rfl)
          (typed_enum _ [0, 200, 401, 403, 429, 500]) typed_none))
      (typed_field 1 rfl rfl (by with_unfolding_all rfl) (typed_single asked_typed)
        (typed_field 2 rfl rfl (by with_unfolding_all rfl) (typed_string _) typed_none)))) typed_none)

theorem bareRefusal_typed : WellTyped lib (.message checkName bareRefusal) (.one (.message checkName)) :=
  typed desc_check (by decide) (by decide) (typed_field 0 rfl rfl (by with_unfolding_all rfl)
    (typed desc_denied (by decide) (by decide) (typed_field 1 rfl rfl (by with_unfolding_all rfl) (typed_single asked_typed)
      typed_none)) typed_none)

theorem consent_typed : WellTyped lib (.message checkName consent) (.one (.message checkName)) := by
  refine typed desc_check (by decide) (by decide) (typed_field 1 rfl rfl (by with_unfolding_all rfl)
    (typed desc_ok (by decide) (by decide) (typed_field 0 rfl rfl (by with_unfolding_all rfl) (typed_single asked_typed)
      typed_none)) (typed_field 2 rfl rfl (by with_unfolding_all rfl) ?_ typed_none))
  refine typed desc_struct (by decide) (by decide) (typed_field (type := .map .string (.message valueName)) 0 rfl rfl
    (by with_unfolding_all rfl) ?_ typed_none)
  rw [WellTyped]
  refine ⟨_, _, rfl, by decide, ?_⟩
  rw [WellTypedEntries, WellTypedEntries]
  exact ⟨rfl, typed desc_value (by decide) (by decide) (typed_field 2 rfl rfl (by with_unfolding_all rfl) (typed_string _)
    typed_none), trivial⟩

/-! ### The values that the messages are read as -/

def overLimitVal : Val := (messageToCel lib limitName overLimit).getD .null
def refusalVal : Val := (messageToCel lib checkName refusal).getD .null
def bareRefusalVal : Val := (messageToCel lib checkName bareRefusal).getD .null
def consentVal : Val := (messageToCel lib checkName consent).getD .null

theorem overLimit_read : messageToCel lib limitName overLimit = some overLimitVal := by with_unfolding_all rfl
theorem refusal_read : messageToCel lib checkName refusal = some refusalVal := by with_unfolding_all rfl
theorem bareRefusal_read : messageToCel lib checkName bareRefusal = some bareRefusalVal := by with_unfolding_all rfl
theorem consent_read : messageToCel lib checkName consent = some consentVal := by with_unfolding_all rfl

theorem asked_timely : Timely lib asked := by
  rw [asked, Timely, if_neg (by decide), TimelyFields, Timely, if_neg (by decide)]
  simp [TimelyFields, Timely]

theorem overLimit_timely : TimelyFields lib overLimit := by
  simp [overLimit, TimelyFields, Timely, TimelyItems, asked_timely]

theorem refusal_timely : TimelyFields lib refusal := by
  rw [refusal, TimelyFields, Timely, if_neg (by decide)]
  simp only [TimelyFields, Timely, TimelyItems, asked_timely, and_true]
  rw [if_neg (by decide)]
  trivial

theorem bareRefusal_timely : TimelyFields lib bareRefusal := by
  rw [bareRefusal, TimelyFields, Timely, if_neg (by decide)]
  simp only [TimelyFields, Timely, TimelyItems, asked_timely, and_true]

theorem consent_timely : TimelyFields lib consent := by
  rw [consent, TimelyFields, Timely, if_neg (by decide)]
  simp only [TimelyFields, Timely, TimelyItems, TimelyEntries, asked_timely, and_true, true_and]
  rw [if_neg (by decide), if_neg (by decide)]
  trivial

open VerdictHostDemo in
/-- The hypotheses of `C79_limit` hold. The request is refused as the message says. -/
example : ∃ mine rest first es, session "limit" overLimitVal [.grpcResponse {} 0 0 7] =
      session "limit" overLimitVal [] ++ [.responded 0 0 7, .completed "0".toList] ++ mine ++ rest ∧
    mine = .applied first :: es ∧
    EndsWith 429 [("x".toList, "1".toList)] (some "Too Many Requests\n".toList) es := by
  have h : ready "limit" overLimitVal = true := by decide +kernel
  obtain ⟨mine, rest, h1, h2⟩ := C79_limit (L := lib) (world overLimitVal) obliging _ _ {} _ (ready_served h) "0".toList
    (VerdictDemo.action "limit") [] VerdictDemo.limit_at _ _ _ rfl (replies_follow _).1 (fun p hp => (limit_keeps hp).elim)
    (fun p hp => (limit_keeps hp).elim) [] {} 0 7 _ rfl (fun c _ p n hn => nomatch hn) _ rfl
    (ready_inFlight h).1 (ready_inFlight h).2 _ rfl good known envoy AnswerDemo.times overLimit overLimit_typed
    overLimit_timely overLimit_read.symm
  rw [show limitDecision overLimit = .refuse 429 [("x".toList, "1".toList)] "Too Many Requests\n".toList by
    with_unfolding_all rfl] at h2
  rcases h2 with ⟨first, es, h2, h3⟩ | ⟨_, h2, _⟩
  · exact ⟨mine, rest, first, es, h1, h2, h3⟩
  · cases h2

open VerdictHostDemo in
/-- The hypotheses of `C79_check` hold of a refusal. -/
example : ∃ mine rest first es, session "auth" refusalVal [.grpcResponse {} 0 0 7] =
      session "auth" refusalVal [] ++ [.responded 0 0 7, .completed "0".toList] ++ mine ++ rest ∧
    mine = .applied first :: es ∧ EndsWith 401 [("x".toList, "1".toList)] (some "no".toList) es := by
  have h : ready "auth" refusalVal = true := by decide +kernel
  obtain ⟨mine, rest, h1, h2, _⟩ := C79_check (L := lib) (world refusalVal) obliging _ _ {} _ (ready_served h) "0".toList
    (VerdictDemo.action "auth") [] VerdictDemo.auth_at _ _ _ rfl (replies_follow _).2
    (fun p hp => by cases auth_keeps hp; decide +kernel)
    (fun p hp => by cases auth_keeps hp; decide +kernel) [] {} 0 7 _ rfl (fun c _ p n hn => nomatch hn) _ rfl
    (ready_inFlight h).1 (ready_inFlight h).2 _ rfl
    [(":path".toList, "/".toList)] rfl (by decide) good known envoy AnswerDemo.times refusal refusal_typed
    refusal_timely refusal_read.symm
    (fun d hd => by
      have hd' : d = _ := (Option.some.inj hd).symm
      subst hd'
      exact ⟨_, rfl, by decide, by decide⟩)
    (fun p v hp => nomatch hp)
  rw [show checkDecision refusal = .refuse 401 [("x".toList, "1".toList)] "no".toList by with_unfolding_all rfl] at h2
  obtain ⟨first, es, h2, h3⟩ := h2
  exact ⟨mine, rest, first, es, h1, h2, h3⟩

open VerdictHostDemo in
/-- They hold of an approval with metadata. -/
example : ∃ mine rest v, session "auth" consentVal [.grpcResponse {} 0 0 7] =
      session "auth" consentVal [] ++ [.responded 0 0 7, .completed "0".toList] ++ mine ++ rest ∧
    Sets (world consentVal).oracle (Fetching (world consentVal).oracle (factory "auth" consentVal) { world := {} }
        ((world consentVal).trail (factory "auth" consentVal) {} [.grpcResponse {} 0 0 7])) .request
      [("x".toList, "1".toList)] (session "auth" consentVal [] ++ [.responded 0 0 7, .completed "0".toList]) mine ∧
    .stored "auth".toList v ∈ mine := by
  have h : ready "auth" consentVal = true := by decide +kernel
  obtain ⟨mine, rest, h1, h2, h3⟩ := C79_check (L := lib) (world consentVal) obliging _ _ {} _ (ready_served h) "0".toList
    (VerdictDemo.action "auth") [] VerdictDemo.auth_at _ _ _ rfl (replies_follow _).2
    (fun p hp => by cases auth_keeps hp; decide +kernel)
    (fun p hp => by cases auth_keeps hp; decide +kernel) [] {} 0 7 _ rfl (fun c _ p n hn => nomatch hn) _ rfl
    (ready_inFlight h).1 (ready_inFlight h).2 _ rfl
    [(":path".toList, "/".toList)] rfl (by decide) good known envoy AnswerDemo.times consent consent_typed
    consent_timely consent_read.symm (fun d hd => nomatch hd) (fun p v _ _ => ⟨[], rfl⟩)
  have hc : checkDecision consent = .proceed [("x".toList, "1".toList)] := by with_unfolding_all rfl
  obtain ⟨v, _, hv⟩ := h3 _ _ hc rfl
  rw [hc] at h2
  exact ⟨mine, rest, v, h1, h2, hv⟩

open VerdictHostDemo in
/-- The hypotheses of `C79_no_status_deviation` hold. -/
example : ∃ mine rest, session "auth" bareRefusalVal [.grpcResponse {} 0 0 7] =
      session "auth" bareRefusalVal [] ++ [.responded 0 0 7, .completed "0".toList] ++ mine ++ rest ∧
    started mine = replyIds "0".toList 5 ∧
    ∀ e ∈ mine, (∃ id, e = .applied id) ∨ (∃ id, e = .completed id) ∨ (∃ id, e = .failed id) := by
  have h : ready "auth" bareRefusalVal = true := by decide +kernel
  exact C79_no_status_deviation (L := lib) (world bareRefusalVal) _ _ {} _ (ready_served h) "0".toList
    (VerdictDemo.action "auth") [] VerdictDemo.auth_at _ _ _ rfl (auth_fail _)
    (fun p hp => by cases auth_keeps hp; decide +kernel) [] {} 0 7 _ rfl (fun c _ p n hn => nomatch hn) _ rfl
    (ready_inFlight h).1 (ready_inFlight h).2 _ rfl good known envoy AnswerDemo.times bareRefusal bareRefusal_typed
    bareRefusal_timely bareRefusal_read.symm _ rfl (fun st hst => nomatch hst)

/-- The request goes on although it was denied. -/
example : Demo.view (VerdictHostDemo.session "auth" bareRefusalVal [.grpcResponse {} 0 0 7]) =
    ["hits", "start 0", "call 0 guard token 0", "pause", "response 0 status 0", "completed 0", "start 0.0", "failed 0.0",
      "start 0.1", "completed 0.1", "start 0.2", "completed 0.2", "start 0.3", "completed 0.3", "start 0.4",
      "completed 0.4", "resume request"] := by
  decide +kernel

end Verif.Props.WireDemo
