import Verif.Props.VerdictHost
import Verif.Props.Hosted
/-! A concrete host and CEL library for C34 and C35 on the composed model. -/
set_option linter.unusedSimpArgs false
namespace Verif.Props.VerdictHostDemo
open Verif Verif.Spec Verif.Legacy Verif.Cel

/-! ### The library -/

mutual

/-- A syntax tree of the library for an expression. -/
def celOf : Ast → CelExpr
  | .ident n => .ident n
  | .root n => .ident n
  | .num _ => .literal
  | .str false t => .string t
  | .str true _ => .literal
  | .select e f => .select (celOf e) f
  | .index e i => .call (lit "_[_]") [celOf e, celOf i]
  | .call f args => .call f (celsOf args)
  | .method e f args => .method (celOf e) f (celsOf args)
  | .list es => .list (celsOf es)
  | .map es => .map (celsOfEntries es)
  | .message _ fs => .struct (lit "message") (celsOfFields fs)
  | .unary _ e => .call (lit "!_") [celOf e]
  | .binary _ l r => .call (lit "_op_") [celOf l, celOf r]
  | .cond c a b => .call (lit "_?_:_") [celOf c, celOf a, celOf b]

def celsOf : List Ast → List CelExpr
  | [] => []
  | a :: as => celOf a :: celsOf as

def celsOfEntries : List (Ast × Ast) → List CelExpr
  | [] => []
  | (k, a) :: es => celOf k :: celOf a :: celsOfEntries es

def celsOfFields : List (Text × Ast) → List CelExpr
  | [] => []
  | (_, a) :: fs => celOf a :: celsOfFields fs

end

mutual

/-- The identifiers and called functions of a syntax tree. -/
def mentions : CelExpr → List (Bool × Text)
  | .call f args => (true, f) :: mentionsOf args
  | .method e _ args => mentions e ++ mentionsOf args
  | .select e _ => mentions e
  | .ident n => [(false, n)]
  | .list es => mentionsOf es
  | .map es => mentionsOf es
  | .struct _ es => mentionsOf es
  | .comprehension a b c d e => mentions a ++ mentions b ++ mentions c ++ mentions d ++ mentions e
  | .string _ => []
  | .literal => []
  | .unspecified => []

def mentionsOf : List CelExpr → List (Bool × Text)
  | [] => []
  | e :: es => mentions e ++ mentionsOf es

end

theorem mentionsOf_mem {es : List CelExpr} {q : CelExpr} (h : q ∈ es) {m : Bool × Text} (hm : m ∈ mentions q) :
    m ∈ mentionsOf es := by
  induction es with
  | nil => cases h
  | cons e es ih =>
    rw [mentionsOf, List.mem_append]
    rcases List.mem_cons.1 h with rfl | h
    · exact .inl hm
    · exact .inr (ih h)

theorem mentions_parts {e q : CelExpr} (h : q ∈ parts e) {m : Bool × Text} (hm : m ∈ mentions q) : m ∈ mentions e := by
  cases e with
  | call f args => rw [mentions]; exact List.mem_cons_of_mem _ (mentionsOf_mem h hm)
  | method t f args =>
    rw [mentions, List.mem_append]
    rcases List.mem_cons.1 h with rfl | h
    · exact .inl hm
    · exact .inr (mentionsOf_mem h hm)
  | select t f =>
    rw [mentions]
    cases List.mem_singleton.1 h
    exact hm
  | ident n => cases h
  | list es => rw [mentions]; exact mentionsOf_mem h hm
  | map es => rw [mentions]; exact mentionsOf_mem h hm
  | struct n es => rw [mentions]; exact mentionsOf_mem h hm
  | comprehension a b c d e =>
    simp only [parts, List.mem_cons, List.not_mem_nil, or_false] at h
    simp only [mentions, List.mem_append]
    rcases h with rfl | rfl | rfl | rfl | rfl <;> simp [hm]
  | string t => cases h
  | literal => cases h
  | unspecified => cases h

theorem part_mentions {x p : CelExpr} (h : Part x p) : ∀ m ∈ mentions p, m ∈ mentions x := by
  induction h with
  | self => exact fun m h => h
  | inside hq _ ih => exact fun m h => mentions_parts hq (ih m h)

/-- The library reads the texts of the table as they are meant; the other texts are constants. -/
def lib (v : Val) : Lib where
  cel t := match VerdictDemo.table.lookup t with
    | some e => some (celOf e.2)
    | none => some .literal
  exec t vars := match VerdictDemo.table.lookup t with
    | some e => eval (mapGet vars) e.2
    | none => some (if t = "true".toList then .bool true else .null)
  encode _ _ := some []
  decode _ _ := some v
  toBytes _ := some []
  json := Demo.json

theorem table_mentions : ∀ t ∈ VerdictDemo.table, ∀ m ∈ mentions (celOf t.2.2),
    if m.1 then m.2 ∈ bodyFunctions → m.2 ∈ functions t.2.2 else m.2 ∈ variables t.2.2 := by
  decide +kernel

theorem follows (v : Val) {t : Text} {e : Text × Ast} (h : VerdictDemo.table.lookup t = some e) :
    Cel.Follows (lib v) t := by
  have hmem : (t, e) ∈ VerdictDemo.table := by
    obtain ⟨l, k, h4, h5⟩ := List.lookup_eq_some_iff.1 h
    rw [h4]
    simp
  have hp := VerdictDemo.table_parses _ hmem
  have hm := table_mentions _ hmem
  refine ⟨?_, ?_, ?_⟩
  · intro a x ha hx n hn
    cases parses_unique ha hp
    simp only [lib, h, Option.some.injEq] at hx
    subst hx
    exact hm (false, n) (part_mentions hn _ (by simp [mentions]))
  · intro a x ha hx f hf args hn
    cases parses_unique ha hp
    simp only [lib, h, Option.some.injEq] at hx
    subst hx
    exact hm (true, f) (part_mentions hn _ (by simp [mentions])) hf
  · intro a vars u ha hu
    cases parses_unique ha hp
    simp only [lib, h]
    exact hu

theorem replies_follow (v : Val) : (∀ r ∈ ratelimitOnReply rlName, ∀ u ∈ exprTexts r, Cel.Follows (lib v) u) ∧
    ∀ r ∈ authOnReply authName, ∀ u ∈ exprTexts r, Cel.Follows (lib v) u := by
  have h1 : ∀ r ∈ ratelimitOnReply rlName, ∀ u ∈ exprTexts r, (VerdictDemo.table.lookup u).isSome = true := by
    decide +kernel
  have h2 : ∀ r ∈ authOnReply authName, ∀ u ∈ exprTexts r, (VerdictDemo.table.lookup u).isSome = true := by
    decide +kernel
  refine ⟨fun r hr u hu => ?_, fun r hr u hu => ?_⟩
  · obtain ⟨e, he⟩ := Option.isSome_iff_exists.1 (h1 r hr u hu)
    exact follows v he
  · obtain ⟨e, he⟩ := Option.isSome_iff_exists.1 (h2 r hr u hu)
    exact follows v he

/-! ### The host -/

def abi : Abi Hosted.Proxy :=
  { Hosted.abi with
    setMap := fun x t hs => (.ok (), { x.setMap hs t with calls := x.calls ++ [.setMap t hs (.ok ())] }) }

theorem obliging : Obliging abi :=
  ⟨fun _ _ _ _ => rfl, fun _ => ⟨_, rfl⟩, fun _ _ _ => rfl, fun _ _ _ => rfl⟩

def world (v : Val) : World Hosted.Proxy := { Hosted.world with abi, lib := lib v }

def factory (service : String) (v : Val) : Factory :=
  (Factory.tryFrom (world v).oracle.parse (VerdictDemo.config service)).getD {}

def session (service : String) (v : Val) (events : List (Event Hosted.Proxy)) : List Effect :=
  ((world v).session (factory service v) {} events).filter.log

/-! ### The store actions -/

mutual

/-- The names under which an action and its reply actions keep values. -/
def storePaths : TypedAction → List Text
  | .grpc _ _ _ _ replies => storePathsOf replies
  | .store _ path _ _ => [path]
  | _ => []

def storePathsOf : List TypedAction → List Text
  | [] => []
  | a :: as => storePaths a ++ storePathsOf as

end

theorem storePathsOf_mem {as : List TypedAction} {a : TypedAction} (h : a ∈ as) {p : Text} (hp : p ∈ storePaths a) :
    p ∈ storePathsOf as := by
  induction as with
  | nil => cases h
  | cons b as ih =>
    rw [storePathsOf, List.mem_append]
    rcases List.mem_cons.1 h with rfl | h
    · exact .inl hp
    · exact .inr (ih h)

theorem at_paths {services : Text → Option SvcInst} {s : ActionSet} {id : Text} {t : TypedAction}
    (h : At services s id t) {p : Text} (hp : p ∈ storePaths t) :
    p ∈ s.actions.flatMap fun a => ((standsFor services a).map storePaths).getD [] := by
  induction h with
  | top h hs =>
    rw [List.mem_flatMap]
    exact ⟨_, List.mem_of_getElem? h, by rw [hs]; exact hp⟩
  | reply _ hj ih => exact ih (by rw [storePaths]; exact storePathsOf_mem (List.mem_of_getElem? hj) hp)

theorem keeps_paths {services : Text → Option SvcInst} {s : ActionSet} {p : Text} (h : KeepsAt services s p) :
    p ∈ s.actions.flatMap fun a => ((standsFor services a).map storePaths).getD [] := by
  obtain ⟨_, _, _, _, h⟩ := h
  exact at_paths h (by simp [storePaths])

theorem limit_keeps {p : Text} (h : KeepsAt (VerdictDemo.config "limit").services (VerdictDemo.actionSet "limit") p) :
    False := by
  have h1 := keeps_paths h
  rw [show ((VerdictDemo.actionSet "limit").actions.flatMap fun a =>
    ((standsFor (VerdictDemo.config "limit").services a).map storePaths).getD []) = [] by decide +kernel] at h1
  cases h1

theorem auth_keeps {p : Text} (h : KeepsAt (VerdictDemo.config "auth").services (VerdictDemo.actionSet "auth") p) :
    p = "auth".toList := by
  have h1 := keeps_paths h
  rw [show ((VerdictDemo.actionSet "auth").actions.flatMap fun a =>
    ((standsFor (VerdictDemo.config "auth").services a).map storePaths).getD []) = ["auth".toList] by decide +kernel] at h1
  exact List.mem_singleton.1 h1

/-! ### The requests -/

/-- The log shows a call with token 0 that is still in flight. -/
def flying (log : List Effect) : Bool :=
  (match (log[2]? : Option Effect) with
    | some (.dispatch i _ t ..) => decide (i = "0".toList) && decide (t = 0)
    | _ => false) &&
  (log.drop (2 + 1)).all (fun e => decide (sentToken e ≠ some 0) && match e with
    | .responded t .. => decide (t ≠ 0)
    | _ => true) &&
  log.all (fun | .ended => false | _ => true)

theorem flying_inFlight {log : List Effect} (h : flying log = true) : InFlightFor log 0 "0".toList ∧ ¬Ended log := by
  simp only [flying, Bool.and_eq_true] at h
  exact ⟨inFlight_at _ 2 0 _ h.1.1 h.1.2, not_ended _ h.2⟩

/-- The request is served by the action set and the call is in flight. -/
def ready (service : String) (v : Val) : Bool :=
  (Factory.tryFrom (world v).oracle.parse (VerdictDemo.config service)).isSome &&
  (match ((factory service v).select (world v).oracle { host := { world := {} } }).1 with
    | .found _ => true
    | _ => false) &&
  flying (session service v [])

theorem ready_served {service : String} {v : Val} (h : ready service v = true) :
    ServedBy (world v).oracle (world v).oracle.parse (VerdictDemo.config service) (factory service v) { world := {} }
      (VerdictDemo.actionSet service) := by
  simp only [ready, Bool.and_eq_true] at h
  have h2 := h.1.2
  obtain ⟨b, hb⟩ : ∃ b, ((factory service v).select (world v).oracle { host := { world := {} } }).1 = .found b := by
    split at h2
    · rename_i b hb; exact ⟨b, hb⟩
    · cases h2
  have hf : Factory.tryFrom (world v).oracle.parse (VerdictDemo.config service) = some (factory service v) := by
    obtain ⟨f, hf⟩ := Option.isSome_iff_exists.1 h.1.1
    unfold factory
    rw [hf]
    rfl
  rcases servedBy_exists (o := (world v).oracle) hf hb with ⟨s, hs, h⟩ | ⟨a, ha, _⟩
  · simp only [VerdictDemo.config, List.mem_singleton] at hs
    subst hs
    exact h
  · simp [devModeAction, VerdictDemo.config] at ha

theorem ready_inFlight {service : String} {v : Val} (h : ready service v = true) :
    InFlightFor (session service v []) 0 "0".toList ∧ ¬Ended (session service v []) := by
  rw [ready, Bool.and_eq_true] at h
  exact flying_inFlight h.2

/-- The hypotheses of `C35_on_host` hold, here for a reply that denies the request. -/
example : ∃ mine rest, session "limit" (VerdictDemo.limitMessage 2) [.grpcResponse {} 0 0 7] =
      session "limit" (VerdictDemo.limitMessage 2) [] ++ [.responded 0 0 7, .completed "0".toList] ++ mine ++ rest ∧
    (VerdictDemo.limitReply 2).verdict.Undertaken (world (VerdictDemo.limitMessage 2)).oracle
      (Fetching (world (VerdictDemo.limitMessage 2)).oracle (factory "limit" (VerdictDemo.limitMessage 2)) { world := {} }
        ((world (VerdictDemo.limitMessage 2)).trail (factory "limit" (VerdictDemo.limitMessage 2)) {}
          [.grpcResponse {} 0 0 7])) .response "0.1".toList
      (session "limit" (VerdictDemo.limitMessage 2) [] ++ [.responded 0 0 7, .completed "0".toList]) mine := by
  have h : ready "limit" (VerdictDemo.limitMessage 2) = true := by decide +kernel
  exact C35_on_host (world _) obliging _ _ {} _ (ready_served h) "0".toList (VerdictDemo.action "limit") []
    VerdictDemo.limit_at _ _ _ rfl (replies_follow _).1 (fun p hp => (limit_keeps hp).elim)
    (fun p hp => (limit_keeps hp).elim) [] {} 0 7 _ rfl (fun c _ p n hn => nomatch hn) _ rfl
    (ready_inFlight h).1 (ready_inFlight h).2 _ _ _ rfl rfl (VerdictDemo.limit_is 2)

/-- The hypotheses of `C34_on_host` hold, here for a reply that denies the request. -/
example : ∃ mine rest, session "auth" (VerdictDemo.deniedMessage (some 401)) [.grpcResponse {} 0 0 7] =
      session "auth" (VerdictDemo.deniedMessage (some 401)) [] ++ [.responded 0 0 7, .completed "0".toList] ++ mine ++ rest ∧
    (VerdictDemo.denial (some 401)).verdict.Done (world (VerdictDemo.deniedMessage (some 401))).oracle
      (Fetching (world (VerdictDemo.deniedMessage (some 401))).oracle
        (factory "auth" (VerdictDemo.deniedMessage (some 401))) { world := {} }
        ((world (VerdictDemo.deniedMessage (some 401))).trail (factory "auth" (VerdictDemo.deniedMessage (some 401))) {}
          [.grpcResponse {} 0 0 7])) .request
      (session "auth" (VerdictDemo.deniedMessage (some 401)) [] ++ [.responded 0 0 7, .completed "0".toList]) mine ∧
    ∀ items m, (VerdictDemo.denial (some 401)).verdict = .proceed items → (VerdictDemo.denial (some 401)).metadata = some m →
      .stored "auth".toList m ∈ mine := by
  have h : ready "auth" (VerdictDemo.deniedMessage (some 401)) = true := by decide +kernel
  refine C34_on_host (world _) obliging _ _ {} _ (ready_served h) "0".toList (VerdictDemo.action "auth") []
    VerdictDemo.auth_at _ _ _ rfl (replies_follow _).2 (fun p hp => ?_)
    (fun p hp => ?_) [] {} 0 7 _ rfl (fun c _ p n hn => nomatch hn) _ rfl
    (ready_inFlight h).1 (ready_inFlight h).2 _ _ _ rfl rfl (VerdictDemo.denial_is (some 401)) ?_
    [(":path".toList, "/".toList)] rfl (by decide) ?_
  · cases auth_keeps hp
    decide +kernel
  · cases auth_keeps hp
    decide +kernel
  · intro status items body h
    cases h
    exact ⟨401, rfl, by decide, by decide⟩
  · intro m hm
    cases hm

/-- The library has no value for a text of the table that has none. -/
theorem fails (v : Val) {t : Text} {e : Text × Ast} (h : VerdictDemo.table.lookup t = some e) : Cel.Fails (lib v) t := by
  intro a vars ha hu
  have hmem : (t, e) ∈ VerdictDemo.table := by
    obtain ⟨l, k, h4, h5⟩ := List.lookup_eq_some_iff.1 h
    rw [h4]
    simp
  cases parses_unique ha (VerdictDemo.table_parses _ hmem)
  simp only [lib, h]
  exact hu

theorem auth_fail (v : Val) : ∀ r ∈ authOnReply authName, ∀ u ∈ exprTexts r, Cel.Follows (lib v) u ∧ Cel.Fails (lib v) u := by
  have h2 : ∀ r ∈ authOnReply authName, ∀ u ∈ exprTexts r, (VerdictDemo.table.lookup u).isSome = true := by
    decide +kernel
  intro r hr u hu
  obtain ⟨e, he⟩ := Option.isSome_iff_exists.1 (h2 r hr u hu)
  exact ⟨follows v he, fails v he⟩

/-- The hypotheses of `C34_no_status_on_host` hold. -/
example : ∃ mine rest, session "auth" (VerdictDemo.deniedMessage none) [.grpcResponse {} 0 0 7] =
      session "auth" (VerdictDemo.deniedMessage none) [] ++ [.responded 0 0 7, .completed "0".toList] ++ mine ++ rest ∧
    started mine = replyIds "0".toList 5 ∧
    ∀ e ∈ mine, (∃ id, e = .applied id) ∨ (∃ id, e = .completed id) ∨ (∃ id, e = .failed id) := by
  have h : ready "auth" (VerdictDemo.deniedMessage none) = true := by decide +kernel
  refine C34_no_status_on_host (world _) _ _ {} _ (ready_served h) "0".toList (VerdictDemo.action "auth") []
    VerdictDemo.auth_at _ _ _ rfl (auth_fail _) (fun p hp => ?_) [] {} 0 7 _ rfl (fun c _ p n hn => nomatch hn) _ rfl
    (ready_inFlight h).1 (ready_inFlight h).2 _ _ _ rfl rfl (VerdictDemo.denial_is none) none _ _ rfl (by simp)
  cases auth_keeps hp
  decide +kernel

/-- The log of a request that is resumed after the response to its call. -/
theorem resumed {l0 l more : List Effect} (hl : l = l0 ++ more) (n : Nat) (hn : 4 < n) (h1 : l0.length = 4)
    (h2 : (match (l[n]? : Option Effect) with
      | some .resumeRequest => true
      | _ => false) = true)
    (h3 : (match (l[4]? : Option Effect) with
      | some (.responded t' s' z') => decide (t' = 0) && decide (s' = 0) && decide (z' = 7)
      | _ => false) = true)
    (h4 : (l.take n).all (fun | .ended => false | _ => true) = true) :
    ∃ pre after post, l = pre ++ .resumeRequest :: post ∧ pre = l0 ++ .responded 0 0 7 :: after ∧ ¬Ended pre := by
  obtain ⟨l13, h13⟩ := List.getElem?_eq_some_iff.1 (at_resume _ _ h2)
  obtain ⟨l4, h4'⟩ := List.getElem?_eq_some_iff.1 (at_responded _ _ _ _ _ h3)
  obtain ⟨hap, hpre⟩ := apart _ 4 n hn l13
  rw [h13] at hap
  rw [h4'] at hpre
  rw [show l.take 4 = l0 by rw [hl]; exact List.take_left' h1] at hpre
  exact ⟨_, _, _, hap, hpre, not_ended _ h4⟩

theorem session_more {W : Type} (w : World W) (f : Factory) (x : W) (events : List (Event W)) :
    ∃ more, (w.session f x events).filter.log = (w.session f x []).filter.log ++ more := by
  rw [(session_trail w f x events).2.1, (session_trail w f x []).2.1]
  exact run_more (o := w.oracle) f _ [] _

/-- The hypotheses of `C68_within_limit_on_host` hold of a request that is resumed. -/
example : (VerdictDemo.limitReply 1).code = 1 := by
  have h : ready "limit" (VerdictDemo.limitMessage 1) = true := by decide +kernel
  obtain ⟨more, hmore⟩ := session_more (world (VerdictDemo.limitMessage 1)) (factory "limit" (VerdictDemo.limitMessage 1)) {}
    [.grpcResponse {} 0 0 7]
  obtain ⟨pre, after, post, h1, h2, h3⟩ := resumed hmore 11 (by omega) (by decide +kernel)
    (by decide +kernel) (by decide +kernel) (by decide +kernel)
  exact (C68_within_limit_on_host (world (VerdictDemo.limitMessage 1)) obliging _ _ {} _ (ready_served h) "0".toList
    (VerdictDemo.action "limit") [] VerdictDemo.limit_at _ _ _ rfl (replies_follow _).1 (fun p hp => (limit_keeps hp).elim)
    (fun p hp => (limit_keeps hp).elim) [.grpcResponse {} 0 0 7] (fun c _ p n hn => nomatch hn)
    _ _ _ h1 (.inl rfl) h3 _ _ 0 7 h2 (ready_inFlight h).1 _ _ (VerdictDemo.limit_is 1)
    (fun _ _ => ⟨_, rfl, rfl⟩)).1

/-- The hypotheses of `C68_authorized_on_host` hold of a request that is resumed. -/
example : ∃ items, (VerdictDemo.approval []).verdict = .proceed items := by
  have h : ready "auth" (VerdictDemo.okMessage []) = true := by decide +kernel
  obtain ⟨more, hmore⟩ := session_more (world (VerdictDemo.okMessage [])) (factory "auth" (VerdictDemo.okMessage [])) {}
    [.grpcResponse {} 0 0 7]
  obtain ⟨pre, after, post, h1, h2, h3⟩ := resumed hmore 19 (by omega) (by decide +kernel)
    (by decide +kernel) (by decide +kernel) (by decide +kernel)
  obtain ⟨items, _, _, hi, _⟩ := C68_authorized_on_host (world (VerdictDemo.okMessage [])) obliging _ _ {} _ (ready_served h)
    "0".toList (VerdictDemo.action "auth") [] VerdictDemo.auth_at _ _ _ rfl (replies_follow _).2
    (fun p hp => by cases auth_keeps hp; decide +kernel) (fun p hp => by cases auth_keeps hp; decide +kernel)
    [.grpcResponse {} 0 0 7] (fun c _ p n hn => nomatch hn) _ _ _ h1 (.inl rfl) h3 _ _ 0 7 h2 (ready_inFlight h).1 _ _
    (VerdictDemo.approval_is []) (fun _ _ => ⟨_, rfl, rfl⟩) (by intro _ _ _ hd; cases hd)
    [(":path".toList, "/".toList)] rfl (by decide) (fun m _ => ⟨[], rfl⟩)
  exact ⟨items, hi⟩

/-- Over the limit. -/
example : Demo.view (session "limit" (VerdictDemo.limitMessage 2) [.grpcResponse {} 0 0 7]) =
    ["hits", "start 0", "call 0 guard token 0", "pause", "response 0 status 0", "completed 0", "start 0.0", "denied",
      "reply 429", "ended"] := by
  decide +kernel

/-- Under the limit. The headers of the reply are set when those of the response have arrived. -/
example : Demo.view (session "limit" (VerdictDemo.limitMessage 1)
      [.grpcResponse {} 0 0 7, .responseHeaders { response := [("a".toList, "b".toList)] }]) =
    ["hits", "start 0", "call 0 guard token 0", "pause", "response 0 status 0", "completed 0", "start 0.0",
      "completed 0.0", "start 0.1", "start 0.2", "completed 0.2", "resume request", "allowed", "start 0.1",
      "headers a=b,x=1", "completed 0.1", "continue"] := by
  decide +kernel

/-- Denied by the authorization service. -/
example : Demo.view (session "auth" (VerdictDemo.deniedMessage (some 401)) [.grpcResponse {} 0 0 7]) =
    ["hits", "start 0", "call 0 guard token 0", "pause", "response 0 status 0", "completed 0", "start 0.0", "denied",
      "reply 401", "ended"] := by
  decide +kernel

end Verif.Props.VerdictHostDemo
