import Verif.Model.Legacy
import Verif.Spec.Verdict
/-! The expressions of the translated reply actions: how they are read. -/
set_option linter.unusedSimpArgs false
namespace Verif.Legacy
open Verif Cel

/-- The name of the response of the rate limiter. -/
abbrev rlName : Text := lit "ratelimit_response"
/-- The name of the response of the authorization service. -/
abbrev authName : Text := lit "auth_response"
/-- The name of the response to a report. -/
abbrev reportName : Text := lit "report_response"

/-- The tokens of a path. -/
def pathToks (first : Text) (names : List Text) : List Token :=
  .ident first :: names.flatMap fun n => [.sym .dot, .ident n]

def rlCode : Ast := path rlName [lit "overall_code"]
def rlHeaders : Ast := path rlName [lit "response_headers_to_add"]

theorem parses_over : Parses (rlName ++ lit ".overall_code == 2") (.binary .eq rlCode (.num (lit "2"))) :=
  ⟨pathToks rlName [lit "overall_code"] ++ [.sym .eq, .num (lit "2")], 6, by decide +kernel, by with_unfolding_all rfl⟩

theorem parses_under : Parses (rlName ++ lit ".overall_code == 1") (.binary .eq rlCode (.num (lit "1"))) :=
  ⟨pathToks rlName [lit "overall_code"] ++ [.sym .eq, .num (lit "1")], 6, by decide +kernel, by with_unfolding_all rfl⟩

theorem parses_unknown : Parses (rlName ++ lit ".overall_code != 1 && " ++ rlName ++ lit ".overall_code != 2")
    (.binary .and (.binary .ne rlCode (.num (lit "1"))) (.binary .ne rlCode (.num (lit "2")))) :=
  ⟨pathToks rlName [lit "overall_code"] ++ [.sym .ne, .num (lit "1"), .sym .and] ++
    pathToks rlName [lit "overall_code"] ++ [.sym .ne, .num (lit "2")], 6, by decide +kernel,
    by with_unfolding_all rfl⟩

theorem parses_limitHeaders : Parses (rlName ++ lit ".response_headers_to_add") rlHeaders :=
  ⟨pathToks rlName [lit "response_headers_to_add"], 6, by decide +kernel, by with_unfolding_all rfl⟩

def limitDeny : Ast := .message (.ident (lit "DenyResponse")) [(lit "status", .num (lit "429u")),
  (lit "headers", rlHeaders), (lit "body", .str false (lit "Too Many Requests\n"))]

theorem parses_limitDeny : Parses (lit "DenyResponse{status: 429u, headers: " ++ rlName ++
      lit ".response_headers_to_add, body: \"Too Many Requests\\n\"}") limitDeny :=
  ⟨[.ident (lit "DenyResponse"), .sym .lbrace, .ident (lit "status"), .sym .colon, .num (lit "429u"), .sym .comma,
    .ident (lit "headers"), .sym .colon] ++ pathToks rlName [lit "response_headers_to_add"] ++
    [.sym .comma, .ident (lit "body"), .sym .colon, .str false (lit "Too Many Requests\n"), .sym .rbrace], 10,
    by decide +kernel, by with_unfolding_all rfl⟩

theorem parses_report : Parses (lit "!has(report_response.overall_code)")
    (.unary .not (.call (lit "has") [path reportName [lit "overall_code"]])) :=
  ⟨[.sym .not, .ident (lit "has"), .sym .lpar] ++ pathToks reportName [lit "overall_code"] ++ [.sym .rpar], 8,
    by decide +kernel, by with_unfolding_all rfl⟩

/-! ### Authorization -/

def has (names : List Text) : Ast := .call (lit "has") [path authName names]
def hasToks (names : List Text) : List Token :=
  [.ident (lit "has"), .sym .lpar] ++ pathToks authName names ++ [.sym .rpar]

theorem parses_denied : Parses (lit "has(" ++ authName ++ lit ".denied_response)") (has [lit "denied_response"]) :=
  ⟨hasToks [lit "denied_response"], 8, by decide +kernel, by with_unfolding_all rfl⟩

theorem parses_ok : Parses (lit "has(" ++ authName ++ lit ".ok_response)") (has [lit "ok_response"]) :=
  ⟨hasToks [lit "ok_response"], 8, by decide +kernel, by with_unfolding_all rfl⟩

theorem parses_store : Parses (lit "has(" ++ authName ++ lit ".ok_response) && has(" ++ authName ++
      lit ".dynamic_metadata)") (.binary .and (has [lit "ok_response"]) (has [lit "dynamic_metadata"])) :=
  ⟨hasToks [lit "ok_response"] ++ .sym .and :: hasToks [lit "dynamic_metadata"], 8, by decide +kernel,
    by with_unfolding_all rfl⟩

theorem parses_neither : Parses (lit "!has(" ++ authName ++ lit ".denied_response) && !has(" ++ authName ++
      lit ".ok_response)")
    (.binary .and (.unary .not (has [lit "denied_response"])) (.unary .not (has [lit "ok_response"]))) :=
  ⟨.sym .not :: hasToks [lit "denied_response"] ++ [.sym .and, .sym .not] ++ hasToks [lit "ok_response"], 8,
    by decide +kernel, by with_unfolding_all rfl⟩

theorem parses_metadata : Parses (authName ++ lit ".dynamic_metadata") (path authName [lit "dynamic_metadata"]) :=
  ⟨pathToks authName [lit "dynamic_metadata"], 6, by decide +kernel, by with_unfolding_all rfl⟩

theorem parses_okHeaders : Parses (authName ++ lit ".ok_response.headers")
    (path authName [lit "ok_response", lit "headers"]) :=
  ⟨pathToks authName [lit "ok_response", lit "headers"], 6, by decide +kernel, by with_unfolding_all rfl⟩

/-- `….size() > 0` -/
def nonEmpty (name : Text) : Ast :=
  .binary .gt (.method (path authName [lit "ok_response", name]) (lit "size") []) (.num (lit "0"))
def nonEmptyToks (name : Text) : List Token :=
  pathToks authName [lit "ok_response", name] ++
    [.sym .dot, .ident (lit "size"), .sym .lpar, .sym .rpar, .sym .gt, .num (lit "0")]

def unsupportedAst : Ast := .binary .and (has [lit "ok_response"])
  (.binary .or (.binary .or (.binary .or (nonEmpty (lit "response_headers_to_add")) (nonEmpty (lit "headers_to_remove")))
    (nonEmpty (lit "query_parameters_to_set"))) (nonEmpty (lit "query_parameters_to_remove")))

theorem parses_unsupported : Parses (lit "has(" ++ authName ++ lit ".ok_response) && (" ++
      authName ++ lit ".ok_response.response_headers_to_add.size() > 0 || " ++
      authName ++ lit ".ok_response.headers_to_remove.size() > 0 || " ++
      authName ++ lit ".ok_response.query_parameters_to_set.size() > 0 || " ++
      authName ++ lit ".ok_response.query_parameters_to_remove.size() > 0)") unsupportedAst :=
  ⟨hasToks [lit "ok_response"] ++ [.sym .and, .sym .lpar] ++ nonEmptyToks (lit "response_headers_to_add") ++
    [.sym .or] ++ nonEmptyToks (lit "headers_to_remove") ++ [.sym .or] ++
    nonEmptyToks (lit "query_parameters_to_set") ++ [.sym .or] ++ nonEmptyToks (lit "query_parameters_to_remove") ++
    [.sym .rpar], 12, by decide +kernel, by with_unfolding_all rfl⟩

def statusCode : Ast := path authName [lit "denied_response", lit "status", lit "code"]
def statusToks : List Token := pathToks authName [lit "denied_response", lit "status", lit "code"]

def authDeny : Ast := .message (.ident (lit "DenyResponse")) [
  (lit "status", .cond (.binary .ne statusCode (.num (lit "0"))) (.call (lit "uint") [statusCode]) (.num (lit "403u"))),
  (lit "headers", path authName [lit "denied_response", lit "headers"]),
  (lit "body", path authName [lit "denied_response", lit "body"])]

theorem parses_authDeny : Parses (lit "DenyResponse{status: (" ++ authName ++
      lit ".denied_response.status.code != 0) ? uint(" ++ authName ++
      lit ".denied_response.status.code) : 403u, headers: " ++ authName ++ lit ".denied_response.headers, body: " ++
      authName ++ lit ".denied_response.body}") authDeny :=
  ⟨[.ident (lit "DenyResponse"), .sym .lbrace, .ident (lit "status"), .sym .colon, .sym .lpar] ++ statusToks ++
    [.sym .ne, .num (lit "0"), .sym .rpar, .sym .quest, .ident (lit "uint"), .sym .lpar] ++ statusToks ++
    [.sym .rpar, .sym .colon, .num (lit "403u"), .sym .comma, .ident (lit "headers"), .sym .colon] ++
    pathToks authName [lit "denied_response", lit "headers"] ++ [.sym .comma, .ident (lit "body"), .sym .colon] ++
    pathToks authName [lit "denied_response", lit "body"] ++ [.sym .rbrace], 14,
    by decide +kernel, by with_unfolding_all rfl⟩

end Verif.Legacy
