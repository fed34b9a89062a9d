import Verif.Props.Verdict
/-!
A concrete world for C34 and C35: the expressions of the reply actions are evaluated as `Cel.eval` says, and every
call is answered with a given message.
-/
namespace Verif.Props.VerdictDemo
open Verif Verif.Spec Verif.Legacy Verif.Cel

/-- The expressions of the reply actions, the variable they refer to and what they mean. -/
def table : List (Text × (Text × Ast)) := [
  (rlName ++ lit ".overall_code == 2", rlName, .binary .eq rlCode (.num (lit "2"))),
  (rlName ++ lit ".overall_code == 1", rlName, .binary .eq rlCode (.num (lit "1"))),
  (rlName ++ lit ".overall_code != 1 && " ++ rlName ++ lit ".overall_code != 2", rlName,
    .binary .and (.binary .ne rlCode (.num (lit "1"))) (.binary .ne rlCode (.num (lit "2")))),
  (rlName ++ lit ".response_headers_to_add", rlName, rlHeaders),
  (lit "DenyResponse{status: 429u, headers: " ++ rlName ++
      lit ".response_headers_to_add, body: \"Too Many Requests\\n\"}", rlName, limitDeny),
  (lit "!has(report_response.overall_code)", reportName,
    .unary .not (.call (lit "has") [path reportName [lit "overall_code"]])),
  (lit "has(" ++ authName ++ lit ".denied_response)", authName, has [lit "denied_response"]),
  (lit "has(" ++ authName ++ lit ".ok_response)", authName, has [lit "ok_response"]),
  (lit "has(" ++ authName ++ lit ".ok_response) && has(" ++ authName ++ lit ".dynamic_metadata)", authName,
    .binary .and (has [lit "ok_response"]) (has [lit "dynamic_metadata"])),
  (lit "!has(" ++ authName ++ lit ".denied_response) && !has(" ++ authName ++ lit ".ok_response)", authName,
    .binary .and (.unary .not (has [lit "denied_response"])) (.unary .not (has [lit "ok_response"]))),
  (authName ++ lit ".dynamic_metadata", authName, path authName [lit "dynamic_metadata"]),
  (authName ++ lit ".ok_response.headers", authName, path authName [lit "ok_response", lit "headers"]),
  (lit "has(" ++ authName ++ lit ".ok_response) && (" ++
      authName ++ lit ".ok_response.response_headers_to_add.size() > 0 || " ++
      authName ++ lit ".ok_response.headers_to_remove.size() > 0 || " ++
      authName ++ lit ".ok_response.query_parameters_to_set.size() > 0 || " ++
      authName ++ lit ".ok_response.query_parameters_to_remove.size() > 0)", authName, unsupportedAst),
  (lit "DenyResponse{status: (" ++ authName ++ lit ".denied_response.status.code != 0) ? uint(" ++ authName ++
      lit ".denied_response.status.code) : 403u, headers: " ++ authName ++ lit ".denied_response.headers, body: " ++
      authName ++ lit ".denied_response.body}", authName, authDeny)]

/-- The table is right. -/
theorem table_parses : ∀ t ∈ table, Parses t.1 t.2.2 := by
  intro t ht
  simp only [table, List.mem_cons, List.not_mem_nil, or_false] at ht
  rcases ht with rfl | rfl | rfl | rfl | rfl | rfl | rfl | rfl | rfl | rfl | rfl | rfl | rfl | rfl
  · exact parses_over
  · exact parses_under
  · exact parses_unknown
  · exact parses_limitHeaders
  · exact parses_limitDeny
  · exact parses_report
  · exact parses_denied
  · exact parses_ok
  · exact parses_store
  · exact parses_neither
  · exact parses_metadata
  · exact parses_okHeaders
  · exact parses_unsupported
  · exact parses_authDeny

/-- Other expressions are constants. -/
def parse (t : Text) : Option Expr :=
  match table.lookup t with
  | some _ => some { src := t }
  | none => some (if t = "true".toList then Demo.const (.bool true) else Demo.const .null)

/-- Every call is answered with `v`. The response has headers from the moment 2 on. -/
def world (v : Val) : Oracle Nat :=
  { Demo.world with
    parse
    resolve := fun c vars e => ((table.lookup e.src).bind fun t => (vars.lookup t.1).bind fun w =>
      eval (bound t.1 w) t.2, c.host)
    response := fun c _ _ => (some v, c.host)
    getHeaders := fun c t => (match t with
      | .request => .available []
      | .response => if c.host < 2 then .pending else .available [("y".toList, "0".toList)], c.host) }

def services (t : Text) : Option SvcInst :=
  if t = "limit".toList then some (.call .rateLimit (Demo.svc "limit") true)
  else if t = "report".toList then some (.call .rateLimitReport (Demo.svc "report") true)
  else if t = "auth".toList then some (.call .auth (Demo.svc "auth") true)
  else none

def action (service : String) : LegacyAction := { service := service.toList, scope := "scope".toList }

def actionSet (service : String) : ActionSet where
  name := "demo".toList
  hostnames := ["*.com".toList]
  predicates := []
  actions := [(action service).config []]

def config (service : String) : PluginConfig := { services, actionSets := [actionSet service] }

def factory (service : String) : Factory := (Factory.tryFrom parse (config service)).getD {}

theorem served (service : String) (v : Val)
    (h1 : (Factory.tryFrom parse (config service)).isSome = true)
    (h2 : (match ((factory service).select (world v) { host := 0 }).1 with
      | .found _ => true
      | _ => false) = true) :
    ServedBy (world v) parse (config service) (factory service) 0 (actionSet service) := by
  obtain ⟨b, hb⟩ : ∃ b, ((factory service).select (world v) { host := 0 }).1 = .found b := by
    split at h2
    · rename_i b hb; exact ⟨b, hb⟩
    · cases h2
  have hf : Factory.tryFrom parse (config service) = some (factory service) := by
    unfold factory
    cases hf : Factory.tryFrom parse (config service) <;> simp_all
  rcases servedBy_exists (o := world v) (host := 0) hf hb with ⟨s, hs, h⟩ | ⟨a, ha, _⟩
  · simp only [config, List.mem_singleton] at hs
    subst hs
    exact h
  · simp [devModeAction, config] at ha

def request (service : String) (v : Val) (events : List (Event Nat)) : List Effect :=
  (Filter.run (world v) (factory service) 0 events).log

/-- The request is served by the action set and the call is in flight. -/
def ready (service : String) (v : Val) : Bool :=
  (Factory.tryFrom parse (config service)).isSome &&
  (match ((factory service).select (world v) { host := 0 }).1 with
    | .found _ => true
    | _ => false) &&
  (match ((request service v [])[2]? : Option Effect) with
    | some (.dispatch i _ t ..) => decide (i = "0".toList) && decide (t = 0)
    | _ => false) &&
  ((request service v []).drop (2 + 1)).all (fun e => decide (sentToken e ≠ some 0) && match e with
    | .responded t .. => decide (t ≠ 0)
    | _ => true) &&
  (request service v []).all (fun | .ended => false | _ => true)

theorem ready_served {service : String} {v : Val} (h : ready service v = true) :
    ServedBy (world v) parse (config service) (factory service) 0 (actionSet service) := by
  simp only [ready, Bool.and_eq_true] at h
  exact served service v h.1.1.1.1 h.1.1.1.2

theorem ready_inFlight {service : String} {v : Val} (h : ready service v = true) :
    InFlightFor (request service v []) 0 "0".toList := by
  simp only [ready, Bool.and_eq_true] at h
  exact inFlight_at _ 2 0 _ h.1.1.2 h.1.2

theorem ready_going {service : String} {v : Val} (h : ready service v = true) : ¬Ended (request service v []) := by
  simp only [ready, Bool.and_eq_true] at h
  exact not_ended _ h.2

def meaning (vars : List (Text × Val)) (t : Text) : Option Val :=
  (table.lookup t).bind fun e => (vars.lookup e.1).bind fun w => eval (bound e.1 w) e.2

theorem world_eval (v : Val) (c : Ctx Nat) (id t : Text) : (evalExpr (world v) c id { src := t }).1 =
    (match meaning (scopeVars c.bindings id) t with
      | some w => .available w
      | none => .err) := by
  have ha : (world v).attrs c { src := t } = (.available (), c.host) := rfl
  have hf : fieldsAvailable (c.withHost c.host) { src := t } = true := rfl
  have hr : (world v).resolve (c.withHost c.host) (scopeVars (c.withHost c.host).bindings id) { src := t } =
    (meaning (scopeVars c.bindings id) t, c.host) := rfl
  simp only [evalExpr, ha, hf, if_true, hr]
  cases meaning (scopeVars c.bindings id) t <;> rfl

/-- This world evaluates the reply actions as the language asks for. -/
theorem understands (v : Val) (K : Ctx Nat → Prop) (x : Text) (replies : List TypedAction) (var : Text) (log : List Effect)
    (h : replies.all (fun a => (exprTexts a).all fun t => match table.lookup t with
      | some e => decide (e.1 = var)
      | none => false) = true) :
    Understands (world v) K parse x replies var v log := by
  intro j r hj t ht a e ha he
  rw [List.all_eq_true] at h
  have h1 := h r (List.mem_of_getElem? hj)
  rw [List.all_eq_true] at h1
  have h2 := h1 t ht
  cases hl : table.lookup t with
  | none => rw [hl] at h2; cases h2
  | some w =>
    obtain ⟨n, b⟩ := w
    rw [hl] at h2
    have h3 : n = var := by simpa using h2
    subst h3
    have hmem : (t, n, b) ∈ table := by
      obtain ⟨l, k, h4, h5⟩ := List.lookup_eq_some_iff.1 hl
      rw [h4]
      simp
    have h4 : a = b := C33_unambiguous t a b ha (table_parses _ hmem)
    subst h4
    unfold parse at he
    rw [hl] at he
    cases he
    refine ⟨rfl, rfl, ?_⟩
    intro w hw c hc
    rw [world_eval]
    unfold meaning
    rw [hl]
    dsimp only [Option.bind]
    rw [hc.2.2]
    dsimp only
    rw [hw]

theorem rejects (v : Val) (K : Ctx Nat → Prop) (id : Text) (texts : List Text) (var : Text) (log : List Effect)
    (h : texts.all (fun t => match table.lookup t with
      | some e => decide (e.1 = var)
      | none => false) = true) :
    Rejects (world v) parse texts id (bound var v) (fun c => K c ∧ SeesValue log id var v c) := by
  intro t ht a e ha he hn c hc
  rw [List.all_eq_true] at h
  have h2 := h t ht
  cases hl : table.lookup t with
  | none => rw [hl] at h2; cases h2
  | some w =>
    obtain ⟨n, b⟩ := w
    rw [hl] at h2
    have h3 : n = var := by simpa using h2
    subst h3
    have hmem : (t, n, b) ∈ table := by
      obtain ⟨l, k, h4, h5⟩ := List.lookup_eq_some_iff.1 hl
      rw [h4]
      simp
    have h4 : a = b := C33_unambiguous t a b ha (table_parses _ hmem)
    subst h4
    unfold parse at he
    rw [hl] at he
    cases he
    rw [world_eval]
    unfold meaning
    rw [hl]
    dsimp only [Option.bind]
    rw [hc.2.2]
    dsimp only
    rw [hn]

theorem willing (v : Val) (K : Ctx Nat → Prop) : Willing (world v) K .request :=
  ⟨fun _ _ _ _ _ => rfl, fun _ _ => ⟨_, rfl⟩, fun _ _ _ => ⟨_, rfl⟩⟩

theorem offers (v : Val) (K : Ctx Nat → Prop) (t : Target) : Offers (world v) K t :=
  { reply := fun _ _ _ _ _ => rfl
    read := fun c _ h => by
      cases t with
      | request => cases h
      | response =>
        have h : (if c.host < 2 then Ans.pending else Ans.available [("y".toList, "0".toList)]) = Ans.err := h
        split at h <;> cases h
    write := fun _ _ _ _ _ _ => ⟨_, rfl⟩ }

/-! ### Messages -/

def header (k v : String) : Val := .struct "HeaderValueOption".toList [("header".toList,
  .struct "HeaderValue".toList [("key".toList, .str k.toList), ("value".toList, .str v.toList)])]

def limitReply (code : Int) : LimitReply := { code, headers := [header "x" "1"] }
def limitMessage (code : Int) : Val := .struct "RateLimitResponse".toList
  [("overall_code".toList, .int code), ("response_headers_to_add".toList, .list [header "x" "1"])]

theorem limit_is (code : Int) : (limitReply code).Is (limitMessage code) :=
  ⟨_, _, rfl, .here _ _ _, .later (by decide) (.here _ _ _)⟩


/-- The translated actions are in the configuration. -/
theorem limit_at : At (config "limit").services (actionSet "limit") "0".toList (translateRatelimit (action "limit") []) :=
  .top (i := 0) rfl rfl
theorem auth_at : At (config "auth").services (actionSet "auth") "0".toList (translateAuth (action "auth") []) :=
  .top (i := 0) rfl rfl
theorem report_at : At (config "report").services (actionSet "report") "0".toList (translateReport (action "report") []) :=
  .top (i := 0) rfl rfl

theorem limit_understands (v : Val) (K : Ctx Nat → Prop) (log : List Effect) : Understands (world v) K parse "0".toList
    (ratelimitOnReply (lit "ratelimit_response")) (lit "ratelimit_response") v log :=
  understands v K _ _ _ _ (by decide +kernel)
theorem auth_understands (v : Val) (K : Ctx Nat → Prop) (log : List Effect) : Understands (world v) K parse "0".toList
    (authOnReply (lit "auth_response")) (lit "auth_response") v log :=
  understands v K _ _ _ _ (by decide +kernel)

/-- The hypotheses of `C35_decided` hold. -/
example : ∃ mine rest, request "limit" (limitMessage 2) [.grpcResponse 1 0 0 7] =
      request "limit" (limitMessage 2) [] ++ [.responded 0 0 7, .completed "0".toList] ++ mine ++ rest ∧
    (limitReply 2).verdict.Undertaken (world (limitMessage 2))
      (Fetching (world (limitMessage 2)) (factory "limit") 0 [.grpcResponse 1 0 0 7]) .response "0.1".toList
      (request "limit" (limitMessage 2) [] ++ [.responded 0 0 7, .completed "0".toList]) mine := by
  have h : ready "limit" (limitMessage 2) = true := by decide +kernel
  refine C35_decided _ _ _ _ _ (ready_served h) "0".toList (action "limit") [] limit_at
    _ _ _ rfl [] 1 0 7 _ rfl (ready_inFlight h) (ready_going h) _ _ (limit_is 2) (fun _ _ _ => rfl) (limit_understands _ _ _) (offers _ _ _)

/-- Over the limit. -/
example : Demo.view (request "limit" (limitMessage 2) [.grpcResponse 1 0 0 7]) =
    ["hits", "start 0", "call 0 guard token 0", "pause", "response 0 status 0", "completed 0", "start 0.0", "denied",
      "reply 429", "ended"] := by
  decide +kernel

/-- Under the limit. The headers of the reply are set when those of the response have arrived. -/
example : Demo.view (request "limit" (limitMessage 1) [.grpcResponse 1 0 0 7, .responseHeaders 2]) =
    ["hits", "start 0", "call 0 guard token 0", "pause", "response 0 status 0", "completed 0", "start 0.0",
      "completed 0.0", "start 0.1", "start 0.2", "completed 0.2", "resume request", "allowed", "start 0.1",
      "headers y=0,x=1", "completed 0.1", "continue"] := by
  decide +kernel

/-- Unknown. -/
example : Demo.view (request "limit" (limitMessage 0) [.grpcResponse 1 0 0 7]) =
    ["hits", "start 0", "call 0 guard token 0", "pause", "response 0 status 0", "completed 0", "start 0.0",
      "completed 0.0", "start 0.1", "completed 0.1", "start 0.2", "errors", "denied", "reply 500", "ended"] := by
  decide +kernel

/-- The hypotheses of `C35_report` hold. -/
example : ∃ mine rest, request "report" (limitMessage 2) [.grpcResponse 1 0 0 7] =
      request "report" (limitMessage 2) [] ++ [.responded 0 0 7, .completed "0".toList] ++ mine ++ rest ∧
    (mine = [.applied "0.0".toList, .completed "0.0".toList] ∨ mine = [.applied "0.0".toList, .failed "0.0".toList] ∨
     mine = [.applied "0.0".toList]) :=
  have h : ready "report" (limitMessage 2) = true := by decide +kernel
  C35_report _ _ _ _ _ (ready_served h) "0".toList (action "report") [] report_at
    _ _ _ rfl [] 1 0 7 _ rfl (ready_inFlight h) (ready_going h) _ (fun _ _ _ => rfl)

/-- A report that is over the limit. -/
example : Demo.view (request "report" (limitMessage 2) [.grpcResponse 1 0 0 7]) =
    ["hits", "start 0", "call 0 token 0", "continue", "response 0 status 0", "completed 0", "start 0.0",
      "completed 0.0", "resume request"] := by
  decide +kernel

/-! ### Authorization -/

def denial (status : Option Int) : CheckReply :=
  { result := .denied status [header "x" "1"] "no".toList }
def deniedMessage (status : Option Int) : Val := .struct "CheckResponse".toList [("denied_response".toList,
  .struct "DeniedHttpResponse".toList ([("headers".toList, .list [header "x" "1"]), ("body".toList, .str "no".toList)] ++
    match status with
    | none => []
    | some code => [("status".toList, .struct "HttpStatus".toList [("code".toList, .int code)])]))]

theorem denial_is (status : Option Int) : (denial status).Is (deniedMessage status) := by
  refine ⟨_, _, rfl, ⟨?_, _, _, .here _ _ _, .here _ _ _, .later (by decide) (.here _ _ _), ?_⟩, ?_⟩
  · rintro v (_ | ⟨_, h⟩)
    cases h
  · cases status with
    | none =>
      rintro v (_ | ⟨_, _ | ⟨_, h⟩⟩)
      cases h
    | some code => exact ⟨_, _, .later (by decide) (.later (by decide) (.here _ _ _)), .here _ _ _⟩
  · rintro v (_ | ⟨_, h⟩)
    cases h

def approval (remove : List Val) : CheckReply :=
  { result := .ok { headers := [header "x" "1"], removedHeaders := remove }, metadata := some (.map []) }
def okMessage (remove : List Val) : Val := .struct "CheckResponse".toList [
  ("ok_response".toList, .struct "OkHttpResponse".toList [
    ("headers".toList, .list [header "x" "1"]), ("headers_to_remove".toList, .list remove),
    ("response_headers_to_add".toList, .list []), ("query_parameters_to_set".toList, .list []),
    ("query_parameters_to_remove".toList, .list [])]),
  ("dynamic_metadata".toList, .map [])]

theorem approval_is (remove : List Val) : (approval remove).Is (okMessage remove) := by
  refine ⟨_, _, rfl, ⟨?_, _, _, .here _ _ _, .here _ _ _, ?_, ?_, ?_, ?_⟩, ?_⟩
  · rintro v (_ | ⟨_, _ | ⟨_, h⟩⟩)
    cases h
  · exact .later (by decide) (.later (by decide) (.here _ _ _))
  · exact .later (by decide) (.here _ _ _)
  · exact .later (by decide) (.later (by decide) (.later (by decide) (.here _ _ _)))
  · exact .later (by decide) (.later (by decide) (.later (by decide) (.later (by decide) (.here _ _ _))))
  · exact .later (by decide) (.here _ _ _)

/-- The hypotheses of `C34_decided` hold of a denial. -/
example : ∃ mine rest, request "auth" (deniedMessage (some 401)) [.grpcResponse 1 0 0 7] =
      request "auth" (deniedMessage (some 401)) [] ++ [.responded 0 0 7, .completed "0".toList] ++ mine ++ rest ∧
    (denial (some 401)).verdict.Done (world (deniedMessage (some 401)))
      (Fetching (world (deniedMessage (some 401))) (factory "auth") 0 [.grpcResponse 1 0 0 7]) .request
      (request "auth" (deniedMessage (some 401)) [] ++ [.responded 0 0 7, .completed "0".toList]) mine ∧
    ∀ items m, (denial (some 401)).verdict = .proceed items → (denial (some 401)).metadata = some m →
      .stored "auth".toList m ∈ mine := by
  have h : ready "auth" (deniedMessage (some 401)) = true := by decide +kernel
  refine C34_decided _ _ _ _ _ (ready_served h) "0".toList (action "auth") [] auth_at
    _ _ _ rfl [] 1 0 7 _ rfl (ready_inFlight h) (ready_going h) _ _ (denial_is _) ?_ (fun _ _ _ => rfl) (auth_understands _ _ _) (willing _ _) ?_
  · intro st items body h
    cases h
    exact ⟨401, rfl, by decide, by decide⟩
  · intro m h
    cases h

/-- They hold of an approval with metadata. -/
example : ∃ mine rest, request "auth" (okMessage []) [.grpcResponse 1 0 0 7] =
      request "auth" (okMessage []) [] ++ [.responded 0 0 7, .completed "0".toList] ++ mine ++ rest ∧
    (approval []).verdict.Done (world (okMessage []))
      (Fetching (world (okMessage [])) (factory "auth") 0 [.grpcResponse 1 0 0 7]) .request
      (request "auth" (okMessage []) [] ++ [.responded 0 0 7, .completed "0".toList]) mine ∧
    ∀ items m, (approval []).verdict = .proceed items → (approval []).metadata = some m →
      .stored "auth".toList m ∈ mine := by
  have h : ready "auth" (okMessage []) = true := by decide +kernel
  refine C34_decided _ _ _ _ _ (ready_served h) "0".toList (action "auth") [] auth_at
    _ _ _ rfl [] 1 0 7 _ rfl (ready_inFlight h) (ready_going h) _ _ (approval_is _) ?_ (fun _ _ _ => rfl) (auth_understands _ _ _) (willing _ _) ?_
  · intro st items body h
    cases h
  · intro m _
    exact ⟨[], rfl, fun c _ h => by cases h⟩

/-- A denial. -/
example : Demo.view (request "auth" (deniedMessage (some 401)) [.grpcResponse 1 0 0 7]) =
    ["hits", "start 0", "call 0 guard token 0", "pause", "response 0 status 0", "completed 0", "start 0.0", "denied",
      "reply 401", "ended"] := by
  decide +kernel

/-- An approval. -/
example : Demo.view (request "auth" (okMessage []) [.grpcResponse 1 0 0 7]) =
    ["hits", "start 0", "call 0 guard token 0", "pause", "response 0 status 0", "completed 0",
      "start 0.0", "completed 0.0", "start 0.1", "completed 0.1", "start 0.2", "property auth", "stored auth",
      "completed 0.2", "start 0.3", "headers x=1", "completed 0.3", "start 0.4", "completed 0.4",
      "resume request"] := by
  decide +kernel

/-- An approval that asks for the removal of a header. -/
example : Demo.view (request "auth" (okMessage [.str "y".toList]) [.grpcResponse 1 0 0 7]) =
    ["hits", "start 0", "call 0 guard token 0", "pause", "response 0 status 0", "completed 0",
      "start 0.0", "completed 0.0", "start 0.1", "errors", "denied", "reply 500", "ended"] := by
  decide +kernel

/-- The hypotheses of `C34_no_status` hold. -/
example : ∃ mine rest, request "auth" (deniedMessage none) [.grpcResponse 1 0 0 7] =
      request "auth" (deniedMessage none) [] ++ [.responded 0 0 7, .completed "0".toList] ++ mine ++ rest ∧
    started mine = replyIds "0".toList 5 ∧
    ∀ e ∈ mine, (∃ id, e = .applied id) ∨ (∃ id, e = .completed id) ∨ (∃ id, e = .failed id) := by
  have h : ready "auth" (deniedMessage none) = true := by decide +kernel
  refine C34_no_status _ _ _ _ _ (ready_served h) "0".toList (action "auth") [] auth_at
    _ _ _ rfl [] 1 0 7 _ rfl (ready_inFlight h) (ready_going h) _ _ (denial_is none) none _ _ rfl (by intro c h; cases h) (fun _ _ _ => rfl)
    (auth_understands _ _ _) ?_
  intro t h
  cases h
  exact rejects _ _ _ _ _ _ (by decide +kernel)

/-- A denial without status: the request goes on. -/
theorem C34_denial_ignored : Demo.view (request "auth" (deniedMessage none) [.grpcResponse 1 0 0 7]) =
    ["hits", "start 0", "call 0 guard token 0", "pause", "response 0 status 0", "completed 0",
      "start 0.0", "failed 0.0", "start 0.1", "completed 0.1", "start 0.2", "completed 0.2", "start 0.3",
      "completed 0.3", "start 0.4", "completed 0.4", "resume request"] := by
  decide +kernel

end Verif.Props.VerdictDemo
