import Verif.Props.Demo
import Verif.Spec.Session
/-!
A small host for the examples beside the theorems: header maps, properties that the host may change, and a record of
the calls it gets. Expressions are the constants of `Demo`, `request.path`, `request.grpc.service` and one more header list.
-/
namespace Verif.Props.Hosted
open Spec

/-- The state of the host. -/
structure Proxy where
  request : Headers := [(":path".toList, "/".toList)]
  response : Headers := []
  path : Text := "/a".toList
  calls : List HostCall := []
  token : Nat := 0

def Proxy.map (x : Proxy) : Target → Headers
  | .request => x.request
  | .response => x.response

def Proxy.setMap (x : Proxy) (hs : Headers) : Target → Proxy
  | .request => { x with request := hs }
  | .response => { x with response := hs }

/-- Writing a response header map fails if there is no response yet; replies are always accepted. -/
def abi : Abi Proxy where
  getProperty x p :=
    if p = ["request".toList, "host".toList] then .ok (some (utf8 "example.com".toList))
    else if p = ["request".toList, "path".toList] then .ok (some (utf8 x.path))
    else if p = ["request".toList, "url_path".toList] then .ok (some (utf8 "/shop.Cart/Add".toList))
    else if p.head? = some "response".toList then .error .badArgument
    else .ok none
  getMap x t := .ok (x.map t)
  getMapValue x t key := .ok (Headers.get (x.map t) key)
  getBuffer _ _ _ size := .ok (some (List.replicate size 0))
  setProperty x p v := (.ok (), { x with calls := x.calls ++ [.setProperty p v (.ok ())] })
  setMap x t hs :=
    if x.map t = [] then (.error .badArgument, { x with calls := x.calls ++ [.setMap t hs (.error .badArgument)] })
    else (.ok (), { x.setMap hs t with calls := x.calls ++ [.setMap t hs (.ok ())] })
  dispatch x call := (.ok x.token, { x with token := x.token + 1, calls := x.calls ++ [.grpc call (.ok x.token)] })
  reply x s hs b := (.ok (), { x with calls := x.calls ++ [.reply s hs b (.ok ())] })

def cel (t : Text) : Option CelExpr :=
  if t = "request.path".toList then some (.select (.ident "request".toList) "path".toList)
  else if t = "request.grpc.service".toList then
    some (.select (.select (.ident "request".toList) "grpc".toList) "service".toList)
  else some (.string t)

/-- The constants. -/
def constant (t : Text) : Option Val :=
  if t = "more".toList then some (.list [.list [.str "y".toList, .str "2".toList]])
  else match Demo.parse t with
    | some e => e.lit
    | none => none

def field (v : Option Val) (t : Text) : Option Val :=
  match v with
  | some (.map m) => keyGet m t
  | _ => none

def exec (text : Text) (vars : List (Text × Val)) : Option Val :=
  match cel text with
  | some (.string t) => constant t
  | some (.select (.select _ t) u) => field (field (mapGet vars "request".toList) t) u
  | some (.select _ t) => field (mapGet vars "request".toList) t
  | _ => none

def lib : Lib where
  cel := cel
  exec := exec
  encode _ _ := some []
  decode _ _ := some .null
  toBytes
    | .str t => some (utf8 t)
    | _ => some []
  json := Demo.json

def world : World Proxy where
  abi := abi
  lib := lib
  reserved _ := []
  traceHeaders _ := []
  spans _ := some []
  tracingTimeout _ := 20000000
  uuid _ := "id".toList

def factory (actions : List ActionConfig) : Factory :=
  (Factory.tryFrom world.oracle.parse (Demo.config actions)).getD {}

def headers (value : String) (target : Target := .request) : ActionConfig :=
  .typed (.headers { predicate := "true".toList } target value.toList)

def store (path value : String) (exported : Bool := false) : ActionConfig :=
  .typed (.store { predicate := "true".toList } path.toList value.toList exported)

/-- The first action stores a value; the second is a call whose answer makes the filter write it to the host. -/
def twice (value : String) : List ActionConfig :=
  [store "a" value,
    Demo.grpc "deny" [.store { predicate := "true".toList } "b".toList value.toList true]]

/-- What the session wrote to the host as properties. -/
def properties (log : List Effect) : List (Text × Bytes) :=
  log.filterMap fun
    | .attrSet p v true => some (p, v)
    | _ => none

theorem keepsMaps : KeepsMaps abi where
  dispatch x call t := by cases t <;> rfl
  reply x s hs b t := by cases t <;> rfl
  property x p v t := by cases t <;> rfl
  other x t t' hs ht := by
    simp only [abi]
    split
    · cases t' <;> rfl
    · cases t <;> cases t' <;> first | rfl | exact absurd rfl ht
  refused x t hs e h := by
    simp only [abi] at h ⊢
    split at h
    · rename_i hm; rw [if_pos hm]; cases t <;> rfl
    · cases h

theorem takesMaps : TakesMaps abi := by
  intro x t hs h
  simp only [abi] at h ⊢
  split at h
  · cases h
  · rename_i hm; rw [if_neg hm]; cases t <;> rfl

theorem records : Records abi Proxy.calls where
  grpc _ _ := rfl
  reply _ _ _ _ := rfl
  setMap x t hs := by simp only [abi]; split <;> rfl
  setProperty _ _ _ := rfl

end Verif.Props.Hosted
