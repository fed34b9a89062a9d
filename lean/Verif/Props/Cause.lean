import Verif.Lemmas.Truth
import Verif.Lemmas.Cause
import Verif.Props.Attributes
import Verif.Props.Demo
import Verif.Props.Order
import Verif.Model.Legacy
/-! C59, C60: calls are the configured ones, and nothing happens that is not configured. -/
set_option linter.unusedSimpArgs false
namespace Verif.Props
open Spec

variable {H : Type} (o : Oracle H)

/-- C60: whatever a request sends, changes or keeps is caused by an action of the set that serves it, by developer
mode, or is the error reply. The action was evaluated in a context of the request. -/
theorem C60_caused (parse : Text → Option Expr) (cfg : PluginConfig) (factory : Factory) (host : H) (s : ActionSet)
    (hs : ServedBy o parse cfg factory host s) (events : List (Event H)) (pre post : List Effect) (e : Effect)
    (hlog : (Filter.run o factory host events).log = pre ++ e :: post) (he : e.acts = true) :
    CausedIn o (Acting o factory host events) (Fetching o factory host events) parse cfg s pre e := by
  by_cases hb : ∃ p, factory.build o { host := host } = .pipeline p
  · obtain ⟨p, hb⟩ := hb
    obtain ⟨b, hbuilt, hfs⟩ := servedBy_fromSet hs hb
    have hbeg := servedBy_begun hs hb
    refine ((justified_inv parse cfg s setAll_replaced (trivial_joint o)
      (V := Acting o factory host events) (F := Fetching o factory host events) (fun _ _ _ h => h)
      (fun c id _ _ _ _ _ st _ c1 _ _ h hr => ⟨_, h, Asked.none.body hr⟩)).run factory host events p hb
      (fun t ht => Core.All.imp (fun _ h => ⟨h, trivial⟩) (fromSet_known hbuilt hfs hbeg t ht)) ⟨?_, trivial⟩
      (fun e _ c h => ⟨justified_enters e h.1, trivial⟩)).log
      (Q := fun log => log = pre ++ e :: post → CausedIn o _ _ parse cfg s pre e)
      (fun q hq h => hq.ctx.1.cause pre e post h he) hlog
    refine ⟨?_, hbeg.tracker, ?_⟩
    · show p.ctx.values = storedIn (p.ctx.log ++ [.hits])
      rw [hbeg.log]
      exact hbuilt.quiet.values
    · show ∀ pre e post, p.ctx.log ++ [.hits] = _ → _
      rw [hbeg.log]
      exact split_quiet (log := []) (fun pre e post h => by simp at h) (by simp [Effect.acts])
  · obtain ⟨w, es, hl, hes, hw⟩ := run_idle_log (o := o) factory host events (fun p hp => hb ⟨p, hp⟩)
    rw [hl] at hlog
    refine split_cause (Q := CausedIn o _ _ parse cfg s) ?_ ?_ pre e post hlog he
    · rcases hw with rfl | ⟨acc, rfl⟩ | rfl
      · exact split_quiet (log := []) (fun pre e post h => by simp at h) (by simp [Effect.acts])
      · exact split_two (Q := CausedIn o _ _ parse cfg s) (log := []) (by simp [Effect.acts]) .broken
      · intro pre e post h; simp at h
    · intro pre e post h ha
      have := hes e (by rw [h]; simp)
      cases e <;> simp_all [Effect.isIdle, Effect.acts]

/-- C59: a call sent for a configured action goes to the service that the action names, carries the encoding of what
its message expression gave, its predicate being true, and holds the request exactly if the action is a guard. -/
theorem C59_configured (parse : Text → Option Expr) (cfg : PluginConfig) (factory : Factory) (host : H)
    (s : ActionSet) (hs : ServedBy o parse cfg factory host s) (x : Text) (t : TypedAction)
    (hat : At cfg.services s x t) (events : List (Event H)) (pre post : List Effect) (guard : Bool) (token : Nat)
    (svc : Svc) (bytes : Bytes) (rid : Text)
    (hlog : (Filter.run o factory host events).log = pre ++ .dispatch x guard token svc bytes rid :: post) :
    ∃ head service var message replies pred msg kind deny v c early,
      t = .grpc head service var message replies ∧ guard = head.guard ∧
      cfg.services service = some (.call kind svc deny) ∧
      parse head.predicate = some pred ∧ parse message = some msg ∧ pre = early ++ [.applied x] ∧
      EvaluatedIn o (Acting o factory host events) pre x pred msg v c ∧ o.encode c svc v = some bytes := by
  have h := C60_caused o parse cfg factory host s hs events pre post _ hlog rfl
  cases h with
  | call hat' hp hm hsv hv hb =>
    cases At.unique hat hat'
    exact ⟨_, _, _, _, _, _, _, _, _, _, _, _, rfl, rfl, hsv, hp, hm, rfl, hv, hb⟩
  | devCall =>
    have := At.chars hat (c := 'k') (show 'k' ∈ devModeId by decide)
    simp at this

/-- C59: the call is sent at once when the action is evaluated, its predicate is true, its message can be computed and
encoded and the host accepts it. -/
theorem C59_sent (parse : Text → Option Expr) (cfg : PluginConfig) (factory : Factory) (host : H)
    (s : ActionSet) (hs : ServedBy o parse cfg factory host s) (x : Text) (head : TypedHead)
    (service var message : Text) (replies : List TypedAction)
    (hat : At cfg.services s x (.grpc head service var message replies)) (kind : SvcKind) (svc : Svc) (deny : Bool)
    (hsvc : cfg.services service = some (.call kind svc deny))
    (pred msg : Expr) (hp : parse head.predicate = some pred) (hm : parse message = some msg)
    (events : List (Event H)) (pre post : List Effect)
    (hlog : (Filter.run o factory host events).log = pre ++ .applied x :: post) (bytes : Bytes) (token : Nat)
    (hd : ∀ c : Ctx H, Acting o factory host events c → c.log = pre ++ [.applied x] → ∃ c' c'' v,
      tests o c x pred = (.available true, c') ∧ evalExpr o c' x msg = (.available v, c'') ∧
      o.encode c'' svc v = some bytes ∧
      ∀ (d : Ctx H) (rid : Text), d.log = c.log → (o.dispatch d svc bytes rid).1 = some token) :
    ∃ rid rest, post = .dispatch x head.guard token svc bytes rid :: rest := by
  by_cases hb : ∃ p, factory.build o { host := host } = .pipeline p
  · obtain ⟨p, hb⟩ := hb
    obtain ⟨b, hbuilt, hfs⟩ := servedBy_fromSet hs hb
    have htasks : Tasks (fun k => k.id = x → k.waits = false → ∃ deps r,
        k = .grpc x deps head.guard pred msg var svc r) p [] := by
      refine fromSet_tasks hbuilt hfs hat (fun k hk h => absurd h hk) ?_
      intro y deps k hco hm' hid hw
      cases hco with
      | grpc _ _ _ _ _ _ _ _ _ _ _ _ hp' hs' hmm =>
        rw [hp] at hp'; cases hp'
        rw [hm] at hmm; cases hmm
        rw [hsvc] at hs'; cases hs'
        cases hm'
        exact ⟨_, _, rfl⟩
    have hinv : CtxInv o (fun k => k.id = x → k.waits = false → ∃ deps r,
        k = .grpc x deps head.guard pred msg var svc r) (fun _ => True) := by
      refine ⟨⟨?_, by simp [Core.waits], by simp [Core.waits]⟩, fun _ _ _ _ _ _ => trivial,
        fun _ _ _ _ _ _ _ _ => trivial, fun _ _ => trivial, fun _ _ _ _ => trivial⟩
      intro k k' h ha
      cases ha with
      | same => exact h
      | store => intro hid _; obtain ⟨_, _, h⟩ := h hid rfl; cases h
      | tokenUsage => intro hid _; obtain ⟨_, _, h⟩ := h hid rfl; cases h
    refine hinv.after_run (x := x)
      (Q := fun pre post => (∀ c : Ctx H, Acting o factory host events c → c.log = pre ++ [.applied x] → ∃ c' c'' v,
        tests o c x pred = (.available true, c') ∧ evalExpr o c' x msg = (.available v, c'') ∧
        o.encode c'' svc v = some bytes ∧
        ∀ (d : Ctx H) (rid : Text), d.log = c.log → (o.dispatch d svc bytes rid).1 = some token) →
        ∃ rid rest, post = .dispatch x head.guard token svc bytes rid :: rest)
      ?_ ?_ hb htasks trivial pre post hlog hd
    · intro pre post es h hd
      obtain ⟨rid, rest, h1⟩ := h hd
      exact ⟨rid, rest ++ es, by rw [h1]; rfl⟩
    · intro k c es hk hid hw _ hS hl hd
      obtain ⟨deps, r, rfl⟩ := hk hid hw
      obtain ⟨c', c'', v, h1, h2, h3, h4⟩ := hd (c.push (.applied x)) hS rfl
      rw [← testPred_tests] at h1
      have hl2 : c''.log = c.log ++ [.applied x] := (Gave.log (o := o) ⟨c', h1, h2⟩)
      have hlr : (requestId o c'').2.log = c''.log := by simpa using (requestId_ext o c'').log
      have h5 := h4 (requestId o c'').2 (requestId o c'').1 (hlr.trans hl2)
      simp only [Core.apply, applyGrpc, h1, h2, dispatchValue, h3] at hl
      generalize hq : o.dispatch (requestId o c'').2 svc bytes (requestId o c'').1 = q at h5 hl
      obtain ⟨a, hh⟩ := q
      dsimp only at h5
      subst h5
      dsimp only at hl
      refine ⟨(requestId o c'').1, [], ?_⟩
      have hlog' : (requestId o c'').2.log ++ [.dispatch x head.guard token svc bytes (requestId o c'').1] =
          c.log ++ [.applied x] ++ es := by
        split at hl <;> exact hl
      rw [hlr, hl2] at hlog'
      exact (List.append_cancel_left hlog').symm
  · exfalso
    have := unrelated_run_idle (o := o) factory host events (fun p hp => hb ⟨p, hp⟩) (.applied x) (by rw [hlog]; simp)
    simp [Effect.unrelated] at this

open Legacy in
/-- C59: the calls of legacy actions go to their service; authorization, rate limit and check calls hold the request,
reports do not. -/
theorem C59_legacy (parse : Text → Option Expr) (cfg : PluginConfig) (factory : Factory) (host : H)
    (s : ActionSet) (hs : ServedBy o parse cfg factory host s) (i : Nat) (a : LegacyAction) (data : RequestData)
    (ha : s.actions[i]? = some (a.config data)) (kind : SvcKind) (svc : Svc) (deny : Bool)
    (hk : cfg.services a.service = some (.call kind svc deny)) (hdyn : kind ≠ .dynamic) (events : List (Event H))
    (guard : Bool) (token : Nat) (svc' : Svc) (bytes : Bytes) (rid : Text)
    (hlog : .dispatch (natText i) guard token svc' bytes rid ∈ (Filter.run o factory host events).log) :
    svc' = svc ∧ (guard = true ↔ kind = .auth ∨ kind = .rateLimit ∨ kind = .rateLimitCheck) := by
  obtain ⟨pre, post, hlog⟩ := List.append_of_mem hlog
  have hat : At cfg.services s (natText i) (translate a data kind) :=
    .top ha (by simp [LegacyAction.config, standsFor, hk, hdyn])
  obtain ⟨head, service, var, message, replies, pred, msg, kind', deny', v, c, early, h1, h2, h3, -⟩ :=
    C59_configured o parse cfg factory host s hs _ _ hat events pre post guard token svc' bytes rid hlog
  have : service = a.service ∧ (head.guard = true ↔ kind = .auth ∨ kind = .rateLimit ∨ kind = .rateLimitCheck) := by
    cases kind with
    | dynamic => exact absurd rfl hdyn
    | _ => cases h1; simp
  obtain ⟨rfl, h4⟩ := this
  rw [hk] at h3
  cases h3
  exact ⟨rfl, by rw [h2]; exact h4⟩

/-! ### Examples -/

/-- A guard with a header action as reply, and a call that is no guard. -/
def causing : List ActionConfig := [Demo.grpc "deny" [Demo.headers], Demo.grpc "allow" (guard := false)]

def causingLog : List Effect := Demo.request causing [.grpcResponse 5 0 0 1]

theorem causing_at (n : Nat) (e : Effect) (h : causingLog.drop n = e :: causingLog.drop (n + 1)) :
    causingLog = causingLog.take n ++ e :: causingLog.drop (n + 1) := by
  rw [← h, List.take_append_drop]

example : Demo.view causingLog = ["hits", "start 0", "call 0 guard token 0", "start 1", "call 1 token 1", "pause",
    "response 0 status 0", "completed 0", "start 0.0", "headers x=1", "completed 0.0", "resume request"] := by
  decide +kernel

/-- The change of the headers comes from the reply action. -/
example : CausedIn Demo.world
    (Acting Demo.world (Demo.factory (Demo.config causing)) 0 [.grpcResponse 5 0 0 1])
    (Fetching Demo.world (Demo.factory (Demo.config causing)) 0 [.grpcResponse 5 0 0 1]) Demo.parse (Demo.config causing)
    { name := "demo".toList
      hostnames := ["*.com".toList, "Example.com".toList]
      predicates := ["true".toList]
      actions := causing }
    (causingLog.take 9) (.headersSet .request [("x".toList, "1".toList)]) :=
  C60_caused Demo.world Demo.parse _ _ 0 _ (demo_served causing (by decide +kernel) ⟨_, rfl⟩) [.grpcResponse 5 0 0 1]
    _ _ _ (causing_at 9 _ (by with_unfolding_all rfl)) rfl

/-- The second call is no guard. -/
example : ∀ guard token svc bytes rid,
    causingLog = causingLog.take 4 ++ .dispatch (natText 1) guard token svc bytes rid :: causingLog.drop 5 →
    guard = false := by
  intro guard token svc bytes rid h
  obtain ⟨_, _, _, _, _, _, _, _, _, _, _, _, h1, h2, -⟩ := C59_configured Demo.world Demo.parse _ _ 0 _
    (demo_served causing (by decide +kernel) ⟨_, rfl⟩) _ _ (.top (i := 1) rfl rfl) [.grpcResponse 5 0 0 1] _ _
    guard token svc bytes rid h
  cases h1
  exact h2

example : ∃ guard token svc bytes rid,
    causingLog = causingLog.take 4 ++ .dispatch (natText 1) guard token svc bytes rid :: causingLog.drop 5 :=
  ⟨_, _, _, _, _, causing_at 4 _ (by with_unfolding_all rfl)⟩

/-- A host that gives all calls the same token. -/
def sameToken : Oracle Nat := { Demo.world with dispatch := fun c _ _ _ => (some 0, c.host + 1) }

/-- The first call is sent as soon as its action starts. -/
example : ∃ rid rest, (Filter.run sameToken (Demo.factory (Demo.config causing)) 0 []).log.drop 2 =
    .dispatch (natText 0) true 0 (Demo.svc "deny") [] rid :: rest := by
  refine C59_sent sameToken Demo.parse _ _ 0 _
    (demo_served_by _ causing (by decide +kernel) ⟨_, rfl⟩) (natText 0) _ _ _ _ _ (.top (i := 0) rfl rfl) _ _ _ rfl
    _ _ rfl rfl [] [.hits] _ (by with_unfolding_all rfl) [] 0 ?_
  intro c _ _
  exact ⟨c, c, .null, rfl, rfl, rfl, fun _ _ _ => rfl⟩

/-- Every text is an expression that is true. -/
def anything (_ : Text) : Option Expr := some (Demo.const (.bool true))

def legacyAction : Legacy.LegacyAction := { service := "auth".toList, scope := "s".toList }

def legacyFactory : Factory := (Factory.tryFrom anything (Demo.config [legacyAction.config []])).getD {}

example : Demo.view (Filter.run Demo.world legacyFactory 0 []).log =
    ["hits", "start 0", "call 0 guard token 0", "pause"] := by decide +kernel

/-- The call of a legacy authorization action holds the request. -/
example : ∀ guard token svc bytes rid, .dispatch (natText 0) guard token svc bytes rid ∈
      (Filter.run Demo.world legacyFactory 0 []).log → svc = Demo.svc "auth" ∧ guard = true := by
  intro guard token svc bytes rid h
  obtain ⟨h1, h2⟩ := C59_legacy Demo.world anything (Demo.config [legacyAction.config []]) legacyFactory 0
    { name := "demo".toList, hostnames := ["*.com".toList, "Example.com".toList],
      predicates := ["true".toList], actions := [legacyAction.config []] } ⟨_, _, rfl, rfl, rfl⟩ 0 legacyAction []
    rfl .auth (Demo.svc "auth") true rfl (by decide) [] guard token svc bytes rid h
  exact ⟨h1, h2.2 (.inl rfl)⟩

end Verif.Props
