import Verif.Lemmas.ReplyTexts
/-! The expressions of the translated reply actions: what they evaluate to. -/
set_option linter.unusedSimpArgs false
namespace Verif.Legacy
open Verif Cel Spec

theorem hasField_lookup {fs : List (Text × Val)} {n : Text} {v : Val} : HasField fs n v ↔ fs.lookup n = some v := by
  induction fs with
  | nil => constructor <;> intro h <;> cases h
  | cons f fs ih =>
    obtain ⟨m, w⟩ := f
    rw [List.lookup_cons]
    by_cases h : n = m
    · subst h
      simp only [beq_self_eq_true]
      constructor
      · intro h; cases h with
        | here => rfl
        | later hne _ => exact absurd rfl hne
      · intro h; cases h; exact .here _ _ _
    · have hb : (n == m) = false := by simpa using h
      rw [hb]
      simp only
      rw [← ih]
      constructor
      · intro h'; cases h' with
        | here => exact absurd rfl h
        | later _ h' => exact h'
      · exact .later (fun e => h e.symm)

theorem noField_lookup {fs : List (Text × Val)} {n : Text} : NoField fs n ↔ fs.lookup n = none := by
  unfold NoField
  constructor
  · intro h
    cases hl : fs.lookup n with
    | none => rfl
    | some v => exact absurd (hasField_lookup.2 hl) (h v)
  · intro h v hv
    rw [hasField_lookup.1 hv] at h
    exact nomatch h

theorem bound_self (name : Text) (v : Val) : bound name v name = some v := by simp [bound]

/-- It is a name, not a constant. -/
class Nameable (name : Text) : Prop where
  name : constant name = none

section
variable {name tag : Text} {fields : List (Text × Val)} [hn : Nameable name]

theorem eval_field (f : Text) :
    eval (bound name (.struct tag fields)) (path name [f]) = fields.lookup f := by
  simp [path, eval, hn.name, bound_self, Cel.field]

theorem present_field (f : Text) :
    present (bound name (.struct tag fields)) (path name [f]) = some (fields.lookup f).isSome := by
  simp [path, eval, hn.name, present, bound_self, Cel.hasField]

theorem eval_field2 (f g inner : Text) (fs : List (Text × Val)) (h : fields.lookup f = some (.struct inner fs)) :
    eval (bound name (.struct tag fields)) (path name [f, g]) = fs.lookup g := by
  simp [path, eval, hn.name, bound_self, Cel.field, h]

end

instance : Nameable authName := ⟨by decide⟩
instance : Nameable rlName := ⟨by decide⟩
instance : Nameable reportName := ⟨by decide⟩

/-! ### Rate limiter -/

theorem numVal_one : numVal (lit "1") = some (.int 1) := by with_unfolding_all rfl
theorem numVal_two : numVal (lit "2") = some (.int 2) := by with_unfolding_all rfl
theorem numVal_zero : numVal (lit "0") = some (.int 0) := by with_unfolding_all rfl
theorem numVal_429 : numVal (lit "429u") = some (.uint 429) := by with_unfolding_all rfl
theorem numVal_403 : numVal (lit "403u") = some (.uint 403) := by with_unfolding_all rfl

section
variable {r : LimitReply} {v : Val}

theorem eval_code (h : r.Is v) : eval (bound rlName v) rlCode = some (.int r.code) := by
  obtain ⟨tag, fields, rfl, h1, h2⟩ := h
  unfold rlCode
  rw [eval_field]
  exact hasField_lookup.1 h1

theorem eval_over (h : r.Is v) :
    eval (bound rlName v) (.binary .eq rlCode (.num (lit "2"))) = some (.bool (r.code = 2)) := by
  simp [eval, eval_code h, numVal_two, binaryVal, Cel.compare, eqVal]

theorem eval_under (h : r.Is v) :
    eval (bound rlName v) (.binary .eq rlCode (.num (lit "1"))) = some (.bool (r.code = 1)) := by
  simp [eval, eval_code h, numVal_one, binaryVal, Cel.compare, eqVal]

theorem eval_unknown (h : r.Is v) :
    eval (bound rlName v) (.binary .and (.binary .ne rlCode (.num (lit "1"))) (.binary .ne rlCode (.num (lit "2")))) =
      some (.bool (r.code ≠ 1 ∧ r.code ≠ 2)) := by
  simp only [eval, eval_code h, numVal_one, numVal_two, binaryVal, Cel.compare, eqVal, notVal, Option.map_some]
  by_cases h1 : r.code = 1 <;> by_cases h2 : r.code = 2 <;> simp [h1, h2, andVal]

theorem eval_limitHeaders (h : r.Is v) : eval (bound rlName v) rlHeaders = some (.list r.headers) := by
  obtain ⟨tag, fields, rfl, h1, h2⟩ := h
  unfold rlHeaders
  rw [eval_field]
  exact hasField_lookup.1 h2

theorem eval_limitDeny (h : r.Is v) : eval (bound rlName v) limitDeny = some (.struct (lit "DenyResponse")
    [(lit "status", .uint 429), (lit "headers", .list r.headers), (lit "body", .str (lit "Too Many Requests\n"))]) := by
  simp [limitDeny, eval, evalFields, messageVal, typeNameOf, allFields, eval_limitHeaders h, numVal_429]

end

/-- The response to a report is always a message with the code. -/
theorem eval_report {v : Val} {tag : Text} {fields : List (Text × Val)} (hv : v = .struct tag fields) :
    eval (bound reportName v) (.unary .not (.call (lit "has") [path reportName [lit "overall_code"]])) =
      some (.bool !(fields.lookup (lit "overall_code")).isSome) := by
  subst hv
  have : (lit "has" : Text) = "has".toList := rfl
  simp [eval, evalArgs, callVal, present_field, notVal, this]

/-! ### Authorization -/

theorem eval_has {tag : Text} {fields : List (Text × Val)} (f : Text) :
    eval (bound authName (.struct tag fields)) (has [f]) = some (.bool (fields.lookup f).isSome) := by
  have : (lit "has" : Text) = "has".toList := rfl
  simp [has, eval, evalArgs, callVal, present_field, this]

/-- Which of the two messages the reply contains. -/
def isDenied : CheckResult → Bool
  | .denied .. => true
  | _ => false
def isOk : CheckResult → Bool
  | .ok _ => true
  | _ => false

theorem lookup_denied {fields : List (Text × Val)} {r : CheckResult} (h : r.Is fields) :
    (fields.lookup (lit "denied_response")).isSome = isDenied r ∧
    (fields.lookup (lit "ok_response")).isSome = isOk r := by
  cases r with
  | absent =>
    obtain ⟨h1, h2⟩ := h
    have h1 := noField_lookup.1 h1
    have h2 := noField_lookup.1 h2
    unfold lit
    rw [h1, h2]
    exact ⟨rfl, rfl⟩
  | denied s hs b =>
    obtain ⟨h1, n, fs, h2, _⟩ := h
    have h1 := noField_lookup.1 h1
    have h2 := hasField_lookup.1 h2
    unfold lit
    rw [h1, h2]
    exact ⟨rfl, rfl⟩
  | ok k =>
    obtain ⟨h1, n, fs, h2, _⟩ := h
    have h1 := noField_lookup.1 h1
    have h2 := hasField_lookup.1 h2
    unfold lit
    rw [h1, h2]
    exact ⟨rfl, rfl⟩

section
variable {r : CheckReply} {v : Val}

theorem eval_denied (h : r.Is v) : eval (bound authName v) (has [lit "denied_response"]) =
    some (.bool (isDenied r.result)) := by
  obtain ⟨tag, fields, rfl, h1, h2⟩ := h
  rw [eval_has, (lookup_denied h1).1]

theorem eval_ok (h : r.Is v) : eval (bound authName v) (has [lit "ok_response"]) =
    some (.bool (isOk r.result)) := by
  obtain ⟨tag, fields, rfl, h1, h2⟩ := h
  rw [eval_has, (lookup_denied h1).2]

theorem eval_hasMetadata (h : r.Is v) : eval (bound authName v) (has [lit "dynamic_metadata"]) =
    some (.bool r.metadata.isSome) := by
  obtain ⟨tag, fields, rfl, h1, h2⟩ := h
  rw [eval_has]
  cases hm : r.metadata with
  | none =>
    rw [hm] at h2
    have h2 := noField_lookup.1 h2
    unfold lit
    rw [h2]
    all_goals rfl
  | some m =>
    rw [hm] at h2
    have h2 := hasField_lookup.1 h2
    unfold lit
    rw [h2]
    all_goals rfl

theorem andVal_bool (a b : Bool) : andVal (some (.bool a)) (some (.bool b)) = some (.bool (a && b)) := by
  cases a <;> cases b <;> rfl

theorem orVal_bool (a b : Bool) : orVal (some (.bool a)) (some (.bool b)) = some (.bool (a || b)) := by
  cases a <;> cases b <;> rfl

theorem eval_store (h : r.Is v) : eval (bound authName v)
    (.binary .and (has [lit "ok_response"]) (has [lit "dynamic_metadata"])) =
      some (.bool (isOk r.result && r.metadata.isSome)) := by
  rw [eval, eval_ok h, eval_hasMetadata h, binaryVal, andVal_bool]

theorem eval_neither (h : r.Is v) : eval (bound authName v)
    (.binary .and (.unary .not (has [lit "denied_response"])) (.unary .not (has [lit "ok_response"]))) =
      some (.bool (!isDenied r.result && !isOk r.result)) := by
  rw [eval, eval, eval, eval_ok h, eval_denied h, binaryVal, notVal, notVal, andVal_bool]

theorem eval_metadata (h : r.Is v) : eval (bound authName v) (path authName [lit "dynamic_metadata"]) =
    r.metadata := by
  obtain ⟨tag, fields, rfl, h1, h2⟩ := h
  rw [eval_field]
  cases hm : r.metadata with
  | none =>
    rw [hm] at h2
    exact noField_lookup.1 h2
  | some m =>
    rw [hm] at h2
    exact hasField_lookup.1 h2

theorem eval_okHeaders {k : OkReply} (hk : r.result = .ok k) (h : r.Is v) :
    eval (bound authName v) (path authName [lit "ok_response", lit "headers"]) = some (.list k.headers) := by
  obtain ⟨tag, fields, rfl, h1, h2⟩ := h
  rw [hk] at h1
  obtain ⟨_, n, fs, h3, h4, _⟩ := h1
  have h3 : fields.lookup (lit "ok_response") = _ := hasField_lookup.1 h3
  rw [eval_field2 (inner := n) (fs := fs) _ _ (h := h3)]
  exact hasField_lookup.1 h4

theorem eval_nonEmpty {tag inner : Text} {fields fs : List (Text × Val)} {items : List Val} {f : Text}
    (h : fields.lookup (lit "ok_response") = some (.struct inner fs)) (hf : fs.lookup f = some (.list items)) :
    eval (bound authName (.struct tag fields)) (nonEmpty f) = some (.bool !items.isEmpty) := by
  have h0 : eval (bound authName (.struct tag fields)) (path authName [lit "ok_response", f]) =
      some (.list items) := by
    rw [eval_field2 (inner := inner) (fs := fs) _ _ (h := h), hf]
  have hs : (lit "size" : Text) = "size".toList := rfl
  simp only [nonEmpty, eval, h0, numVal_zero, hs]
  cases items <;> simp [binaryVal, Cel.compare, sizeVal, gtVal] <;> omega

theorem eval_missing {tag : Text} {fields : List (Text × Val)} {f : Text}
    (h : fields.lookup (lit "ok_response") = none) :
    eval (bound authName (.struct tag fields)) (path authName [lit "ok_response", f]) = none := by
  simp [path, eval, show constant authName = none by decide, bound_self, Cel.field, h]

/-- Does the reply ask for something the filter cannot do? -/
def asksMore : CheckResult → Bool
  | .ok k => k.unsupported
  | _ => false

theorem eval_unsupported (h : r.Is v) : eval (bound authName v) unsupportedAst =
    some (.bool (asksMore r.result)) := by
  have h0 := eval_ok h
  rw [unsupportedAst, eval, h0]
  obtain ⟨tag, fields, rfl, h1, h2⟩ := h
  cases hr : r.result with
  | absent => rfl
  | denied => rfl
  | ok k =>
    rw [hr] at h1
    obtain ⟨_, n, fs, h3, _, h4, h5, h6, h7⟩ := h1
    have h3 : fields.lookup (lit "ok_response") = _ := hasField_lookup.1 h3
    have h4 : fs.lookup (lit "response_headers_to_add") = _ := hasField_lookup.1 h4
    have h5 : fs.lookup (lit "headers_to_remove") = _ := hasField_lookup.1 h5
    have h6 : fs.lookup (lit "query_parameters_to_set") = _ := hasField_lookup.1 h6
    have h7 : fs.lookup (lit "query_parameters_to_remove") = _ := hasField_lookup.1 h7
    rw [eval, eval, eval, eval_nonEmpty h3 h4, eval_nonEmpty h3 h5, eval_nonEmpty h3 h6, eval_nonEmpty h3 h7]
    simp only [binaryVal, orVal_bool, andVal_bool, isOk, asksMore, OkReply.unsupported, Bool.true_and,
      Bool.not_and]

/-- The status of a denial. -/
def denyStatus (code : Int) : Nat := if code = 0 then 403 else code.toNat

theorem eval_authDeny {code : Int} {headers : List Val} {body : Text} (hr : r.result = .denied (some code) headers body)
    (hc : 0 ≤ code) (h : r.Is v) : eval (bound authName v) authDeny = some (.struct (lit "DenyResponse")
    [(lit "status", .uint (denyStatus code)), (lit "headers", .list headers), (lit "body", .str body)]) := by
  obtain ⟨tag, fields, rfl, h1, h2⟩ := h
  rw [hr] at h1
  obtain ⟨_, n, fs, h3, h4, h5, m, s, h6, h7⟩ := h1
  have h3 : fields.lookup (lit "denied_response") = _ := hasField_lookup.1 h3
  have h4 := hasField_lookup.1 h4
  have h5 := hasField_lookup.1 h5
  have h6 := hasField_lookup.1 h6
  have h7 := hasField_lookup.1 h7
  have e1 : eval (bound authName (.struct tag fields)) statusCode = some (.int code) := by
    show ((((bound authName (.struct tag fields) authName).bind (Cel.field (lit "denied_response"))).bind
      (Cel.field (lit "status"))).bind (Cel.field (lit "code"))) = _
    rw [bound_self]
    show ((((fields.lookup (lit "denied_response"))).bind
      (Cel.field (lit "status"))).bind (Cel.field (lit "code"))) = _
    rw [show fields.lookup (lit "denied_response") = _ from h3]
    show ((((fs.lookup (lit "status")))).bind (Cel.field (lit "code"))) = _
    rw [show fs.lookup (lit "status") = _ from h6]
    exact h7
  have e2 : eval (bound authName (.struct tag fields)) (path authName [lit "denied_response", lit "headers"]) =
      some (.list headers) := by
    rw [eval_field2 (inner := n) (fs := fs) _ _ (h := h3)]
    exact h4
  have e3 : eval (bound authName (.struct tag fields)) (path authName [lit "denied_response", lit "body"]) =
      some (.str body) := by
    rw [eval_field2 (inner := n) (fs := fs) _ _ (h := h3)]
    exact h5
  have hu : (lit "uint" : Text) = "uint".toList := rfl
  have hn : "uint".toList ≠ "has".toList := by decide
  have e4 : eval (bound authName (.struct tag fields)) (.cond (.binary .ne statusCode (.num (lit "0")))
      (.call (lit "uint") [statusCode]) (.num (lit "403u"))) = some (.uint (denyStatus code)) := by
    rw [eval, eval, eval, eval, eval, evalArgs, evalArgs, e1, numVal_zero, numVal_403, hu]
    unfold denyStatus
    by_cases hz : code = 0
    · subst hz; rfl
    · simp [condVal, binaryVal, Cel.compare, eqVal, notVal, hz, callVal, toUint, hc]
  rw [authDeny, eval, evalFields, evalFields, evalFields, evalFields, e4, e2, e3]
  rfl

/-- A denial without status cannot be evaluated. -/
theorem eval_authDeny_none {headers : List Val} {body : Text} (hr : r.result = .denied none headers body)
    (h : r.Is v) : eval (bound authName v) authDeny = none := by
  obtain ⟨tag, fields, rfl, h1, h2⟩ := h
  rw [hr] at h1
  obtain ⟨_, n, fs, h3, h4, h5, h6⟩ := h1
  have h3 : fields.lookup (lit "denied_response") = _ := hasField_lookup.1 h3
  have h6 := noField_lookup.1 h6
  have e1 : eval (bound authName (.struct tag fields)) statusCode = none := by
    show ((((bound authName (.struct tag fields) authName).bind (Cel.field (lit "denied_response"))).bind
      (Cel.field (lit "status"))).bind (Cel.field (lit "code"))) = _
    rw [bound_self]
    show ((((fields.lookup (lit "denied_response"))).bind
      (Cel.field (lit "status"))).bind (Cel.field (lit "code"))) = _
    rw [show fields.lookup (lit "denied_response") = _ from h3]
    show ((((fs.lookup (lit "status")))).bind (Cel.field (lit "code"))) = _
    rw [show fs.lookup (lit "status") = _ from h6]
    rfl
  have e2 : eval (bound authName (.struct tag fields)) (.cond (.binary .ne statusCode (.num (lit "0")))
      (.call (lit "uint") [statusCode]) (.num (lit "403u"))) = none := by
    simp only [eval, e1]
    rfl
  rw [authDeny, eval, evalFields, e2]
  rfl

/-- Neither can one with a negative status. -/
theorem eval_authDeny_negative {code : Int} {headers : List Val} {body : Text}
    (hr : r.result = .denied (some code) headers body) (hc : code < 0) (h : r.Is v) :
    eval (bound authName v) authDeny = none := by
  obtain ⟨tag, fields, rfl, h1, h2⟩ := h
  rw [hr] at h1
  obtain ⟨_, n, fs, h3, h4, h5, m, s, h6, h7⟩ := h1
  have h3 : fields.lookup (lit "denied_response") = _ := hasField_lookup.1 h3
  have h6 := hasField_lookup.1 h6
  have h7 := hasField_lookup.1 h7
  have e1 : eval (bound authName (.struct tag fields)) statusCode = some (.int code) := by
    show ((((bound authName (.struct tag fields) authName).bind (Cel.field (lit "denied_response"))).bind
      (Cel.field (lit "status"))).bind (Cel.field (lit "code"))) = _
    rw [bound_self]
    show ((((fields.lookup (lit "denied_response"))).bind
      (Cel.field (lit "status"))).bind (Cel.field (lit "code"))) = _
    rw [show fields.lookup (lit "denied_response") = _ from h3]
    show ((((fs.lookup (lit "status")))).bind (Cel.field (lit "code"))) = _
    rw [show fs.lookup (lit "status") = _ from h6]
    exact h7
  have hu : (lit "uint" : Text) = "uint".toList := rfl
  have e2 : eval (bound authName (.struct tag fields)) (.cond (.binary .ne statusCode (.num (lit "0")))
      (.call (lit "uint") [statusCode]) (.num (lit "403u"))) = none := by
    rw [eval, eval, eval, eval, eval, evalArgs, evalArgs, e1, numVal_zero, numVal_403, hu]
    have hz : code ≠ 0 := by omega
    have hn : ¬0 ≤ code := by omega
    simp [condVal, binaryVal, Cel.compare, eqVal, notVal, hz, callVal, toUint, hn]
  rw [authDeny, eval, evalFields, e2]
  rfl

end

end Verif.Legacy
