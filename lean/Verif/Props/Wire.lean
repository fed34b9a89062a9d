import Verif.Lemmas.Wire
import Verif.Props.VerdictHost
/-!
C79: what the services say in the messages they send is what happens to the request.
-/
namespace Verif.Props
open Verif Verif.Spec Verif.Legacy

variable {W : Type} {L : ProtoLib}

theorem pairs_unique {items : List Val} {a b : Headers} (h : Pairs items a) (h' : Pairs items b) : a = b :=
  ((C40_list items a).2 h).symm.trans ((C40_list items b).2 h')

/-- What the verdict asks for is what was decided. -/
def Agrees : Verdict → Decision → Prop
  | .refuse status items body, .refuse status' headers body' => status = status' ∧ Pairs items headers ∧ body = body'
  | .fail, .fail => True
  | .proceed items, .proceed headers => Pairs items headers
  | _, _ => False

variable {H : Type} {o : Oracle H} {known : Ctx H → Prop} {target : Target} {id : Text} {before mine : List Effect}

theorem carried_of {v : Verdict} {d : Decision} (hv : Agrees v d) (h : v.Done o known target before mine) :
    d.Carried o known target before mine := by
  match v, d, hv with
  | .refuse _ _ _, .refuse _ _ _, hv =>
    obtain ⟨rfl, hp, rfl⟩ := hv
    obtain ⟨first, pairs, es, h1, h2, h3⟩ := h
    cases pairs_unique h2 hp
    exact ⟨first, es, h1, h3⟩
  | .fail, .fail, _ => exact h
  | .proceed _, .proceed _, hv =>
    obtain ⟨pairs, h1, h2⟩ := h
    cases pairs_unique h1 hv
    exact h2

theorem undertaken_of {v : Verdict} {d : Decision} (hv : Agrees v d) (h : v.Undertaken o known target id before mine) :
    d.Undertaken o known target id before mine := by
  rcases h with h | ⟨items, pairs, rfl, h2, h3, h4⟩
  · exact .inl (carried_of hv h)
  · match d, hv with
    | .proceed headers, hv =>
      cases pairs_unique h2 hv
      exact .inr ⟨_, rfl, h3, h4⟩

/-- C79: the decision of the rate limiter, as its message says it, is carried out. -/
theorem C79_limit (w : World W) (hh : Obliging w.abi) (cfg : PluginConfig) (factory : Factory) (world : W)
    (s : ActionSet) (hs : ServedBy w.oracle w.oracle.parse cfg factory { world } s) (x : Text) (a : LegacyAction)
    (data : RequestData) (hat : At cfg.services s x (translateRatelimit a data))
    (kind : SvcKind) (svc : Svc) (deny : Bool) (hsvc : cfg.services a.service = some (.call kind svc deny))
    (hlib : ∀ r ∈ ratelimitOnReply (lit "ratelimit_response"), ∀ t ∈ exprTexts r, Cel.Follows w.lib t)
    (hfree : Spared cfg.services s (lit "ratelimit_response"))
    (hmap : ∀ path, KeepsAt cfg.services s path → Path.parse path ≠ headersPath .response)
    (events : List (Event W)) (world' : W) (token size : Nat) (callbacks : List (Event W))
    (hcb : callbacks = events ++ [.grpcResponse world' token 0 size])
    (hres : ∀ c, Fetching w.oracle factory { world } (w.trail factory world callbacks) c →
      ∀ path n, (path, n) ∈ w.reserved c → KeepsAt cfg.services s path)
    (before : List Effect) (hbefore : (w.session factory world events).filter.log = before)
    (hcall : InFlightFor before token x) (hend : ¬Ended before) (bytes : Bytes)
    (hbytes : w.abi.grpcResponse world' size = some bytes)
    (hG : GoodDescs L) (hK : KnownDescs L) (hE : EnvoyDescs L) (hv : ∀ s n, L.validTime s n = true → n < 2000000000)
    (fields : List (Text × ProtoVal)) (htyped : WellTyped L (.message limitName fields) (.one (.message limitName)))
    (htime : TimelyFields L fields) (hdec : w.lib.decode svc bytes = messageToCel L limitName fields) :
    ∃ mine rest, (w.session factory world callbacks).filter.log =
        before ++ [.responded token 0 size, .completed x] ++ mine ++ rest ∧
      (limitDecision fields).Undertaken w.oracle (Fetching w.oracle factory { world } (w.trail factory world callbacks))
        .response (x ++ ".1".toList) (before ++ [.responded token 0 size, .completed x]) mine := by
  obtain ⟨out, h1, h2, h3⟩ := (C78_reply hG hK hv limitName fields htyped).1 htime
  obtain ⟨items, h4, h5⟩ := limit_shown hG hE ⟨htyped, h2, h3⟩
  obtain ⟨mine, rest, h6, h7⟩ := C35_on_host w hh cfg factory world s hs x a data hat kind svc deny hsvc hlib hfree hmap
    events world' token size callbacks hcb hres before hbefore hcall hend bytes _ _ hbytes (hdec.trans h1) h4
  refine ⟨mine, rest, h6, undertaken_of ?_ h7⟩
  unfold limitDecision LimitReply.verdict
  dsimp only
  split
  · exact ⟨rfl, h5, rfl⟩
  · split
    · exact h5
    · trivial

/-- C79: the decision of the authorization service, as its message says it, is carried out. A denial must have a
status; C34_no_status is about one that has none. Metadata are kept. -/
theorem C79_check (w : World W) (hh : Obliging w.abi) (cfg : PluginConfig) (factory : Factory) (world : W)
    (s : ActionSet) (hs : ServedBy w.oracle w.oracle.parse cfg factory { world } s) (x : Text) (a : LegacyAction)
    (data : RequestData) (hat : At cfg.services s x (translateAuth a data))
    (kind : SvcKind) (svc : Svc) (deny : Bool) (hsvc : cfg.services a.service = some (.call kind svc deny))
    (hlib : ∀ r ∈ authOnReply (lit "auth_response"), ∀ t ∈ exprTexts r, Cel.Follows w.lib t)
    (hfree : Spared cfg.services s (lit "auth_response"))
    (hmap : ∀ path, KeepsAt cfg.services s path → Path.parse path ≠ headersPath .request)
    (events : List (Event W)) (world' : W) (token size : Nat) (callbacks : List (Event W))
    (hcb : callbacks = events ++ [.grpcResponse world' token 0 size])
    (hres : ∀ c, Fetching w.oracle factory { world } (w.trail factory world callbacks) c →
      ∀ path n, (path, n) ∈ w.reserved c → KeepsAt cfg.services s path)
    (before : List Effect) (hbefore : (w.session factory world events).filter.log = before)
    (hcall : InFlightFor before token x) (hend : ¬Ended before) (bytes : Bytes)
    (hbytes : w.abi.grpcResponse world' size = some bytes)
    (m : Headers) (hm : w.abi.getMap world .request = .ok m) (hne : m ≠ [])
    (hG : GoodDescs L) (hK : KnownDescs L) (hE : EnvoyDescs L) (hv : ∀ s n, L.validTime s n = true → n < 2000000000)
    (fields : List (Text × ProtoVal)) (htyped : WellTyped L (.message checkName fields) (.one (.message checkName)))
    (htime : TimelyFields L fields) (hdec : w.lib.decode svc bytes = messageToCel L checkName fields)
    (hstatus : ∀ d, messageIn fields "denied_response" = some d →
      ∃ st, messageIn d "status" = some st ∧ 0 ≤ numberIn st "code" ∧ numberIn st "code" < 2 ^ 32)
    (hmeta : ∀ p v, mapGet fields "dynamic_metadata".toList = some p → Says L p v → ∃ bytes, w.lib.toBytes v = some bytes) :
    ∃ mine rest, (w.session factory world callbacks).filter.log =
        before ++ [.responded token 0 size, .completed x] ++ mine ++ rest ∧
      (checkDecision fields).Carried w.oracle (Fetching w.oracle factory { world } (w.trail factory world callbacks))
        .request (before ++ [.responded token 0 size, .completed x]) mine ∧
      ∀ hs p, checkDecision fields = .proceed hs → mapGet fields "dynamic_metadata".toList = some p →
        ∃ v, Says L p v ∧ .stored "auth".toList v ∈ mine := by
  obtain ⟨out, h1, h2, h3⟩ := (C78_reply hG hK hv checkName fields htyped).1 htime
  obtain ⟨r, h4, hm1, hm2, h5⟩ := check_shown hG hE ⟨htyped, h2, h3⟩
  have hst : ∀ status items body, r.result = .denied status items body →
      ∃ code, status = some code ∧ 0 ≤ code ∧ code < 2 ^ 32 := by
    intro status items body hr
    rcases h5 with ⟨d, hd, st, its, _, hr', hst⟩ | ⟨_, k, _, ok, hr', _⟩ | ⟨_, _, hr'⟩
    · rw [hr] at hr'
      cases hr'
      obtain ⟨sf, h6, h7, h8⟩ := hstatus d hd
      rw [h6] at hst
      exact ⟨_, hst, h7, h8⟩
    · rw [hr] at hr'; cases hr'
    · rw [hr] at hr'; cases hr'
  have hmb : ∀ m, r.metadata = some m → ∃ bytes, w.lib.toBytes m = some bytes := by
    intro v hr
    cases hg : mapGet fields "dynamic_metadata".toList with
    | none => rw [hm2 hg] at hr; cases hr
    | some p =>
      obtain ⟨u, h6, h7⟩ := hm1 p hg
      rw [h6] at hr
      cases hr
      exact hmeta p _ hg h7
  obtain ⟨mine, rest, h6, h7, h8⟩ := C34_on_host w hh cfg factory world s hs x a data hat kind svc deny hsvc hlib hfree hmap
    events world' token size callbacks hcb hres before hbefore hcall hend bytes _ _ hbytes (hdec.trans h1) h4 hst m hm hne hmb
  have hstored : ∀ items, r.verdict = .proceed items → ∀ p, mapGet fields "dynamic_metadata".toList = some p →
      ∃ v, Says L p v ∧ .stored "auth".toList v ∈ mine := by
    intro items hi p hp
    obtain ⟨u, h9, h10⟩ := hm1 p hp
    exact ⟨u, h10, h8 items u hi h9⟩
  refine ⟨mine, rest, h6, ?_⟩
  rcases h5 with ⟨d, hd, st, its, hpairs, hr, hst'⟩ | ⟨hd, k, hk, ok, hr, hpairs, e1, e2, e3, e4⟩ | ⟨hd, hk, hr⟩
  · obtain ⟨sf, h9, _, _⟩ := hstatus d hd
    have hdec' : checkDecision fields = .refuse (if numberIn sf "code" = 0 then 403 else (numberIn sf "code").toNat)
        (headersIn d "headers") (textIn d "body") := by
      simp only [checkDecision, hd, h9, Option.getD_some]
    have hv' : r.verdict = .refuse (if numberIn sf "code" = 0 then 403 else (numberIn sf "code").toNat) its
        (textIn d "body") := by
      rw [hst', h9] at hr
      simp only [CheckReply.verdict, hr, Option.map_some]
    rw [hdec']
    exact ⟨carried_of (by rw [hv']; exact ⟨rfl, hpairs, rfl⟩) h7, fun hs p hx => (by cases hx)⟩
  · have hun : ok.unsupported = !((entriesIn k "response_headers_to_add").isEmpty && (entriesIn k "headers_to_remove").isEmpty &&
        (entriesIn k "query_parameters_to_set").isEmpty && (entriesIn k "query_parameters_to_remove").isEmpty) := by
      rw [OkReply.unsupported, e1, e2, e3, e4]
    have hv' : r.verdict = if ok.unsupported then .fail else .proceed ok.headers := by
      simp only [CheckReply.verdict, hr]
    simp only [checkDecision, hd, hk]
    rw [hun] at hv'
    split
    · rename_i hc
      rw [hc] at hv'
      exact ⟨carried_of (by rw [hv']; exact hpairs) h7, fun hs p _ hp => hstored _ hv' p hp⟩
    · rename_i hc
      rw [Bool.not_eq_true] at hc
      rw [hc] at hv'
      exact ⟨carried_of (by rw [hv']; trivial) h7, fun hs p hx => (by cases hx)⟩
  · have hv' : r.verdict = .fail := by simp only [CheckReply.verdict, hr]
    simp only [checkDecision, hd, hk]
    exact ⟨carried_of (by rw [hv']; trivial) h7, fun hs p hx => (by cases hx)⟩

/-- A denial that has no status, or a negative one, is not carried out: the request goes on. -/
theorem C79_no_status_deviation (w : World W) (cfg : PluginConfig) (factory : Factory) (world : W)
    (s : ActionSet) (hs : ServedBy w.oracle w.oracle.parse cfg factory { world } s) (x : Text) (a : LegacyAction)
    (data : RequestData) (hat : At cfg.services s x (translateAuth a data))
    (kind : SvcKind) (svc : Svc) (deny : Bool) (hsvc : cfg.services a.service = some (.call kind svc deny))
    (hlib : ∀ r ∈ authOnReply (lit "auth_response"), ∀ t ∈ exprTexts r, Cel.Follows w.lib t ∧ Cel.Fails w.lib t)
    (hfree : Spared cfg.services s (lit "auth_response"))
    (events : List (Event W)) (world' : W) (token size : Nat) (callbacks : List (Event W))
    (hcb : callbacks = events ++ [.grpcResponse world' token 0 size])
    (hres : ∀ c, Fetching w.oracle factory { world } (w.trail factory world callbacks) c →
      ∀ path n, (path, n) ∈ w.reserved c → KeepsAt cfg.services s path)
    (before : List Effect) (hbefore : (w.session factory world events).filter.log = before)
    (hcall : InFlightFor before token x) (hend : ¬Ended before) (bytes : Bytes)
    (hbytes : w.abi.grpcResponse world' size = some bytes)
    (hG : GoodDescs L) (hK : KnownDescs L) (hE : EnvoyDescs L) (hv : ∀ s n, L.validTime s n = true → n < 2000000000)
    (fields : List (Text × ProtoVal)) (htyped : WellTyped L (.message checkName fields) (.one (.message checkName)))
    (htime : TimelyFields L fields) (hdec : w.lib.decode svc bytes = messageToCel L checkName fields)
    (d : List (Text × ProtoVal)) (hd : messageIn fields "denied_response" = some d)
    (hstatus : ∀ st, messageIn d "status" = some st → numberIn st "code" < 0) :
    ∃ mine rest, (w.session factory world callbacks).filter.log =
        before ++ [.responded token 0 size, .completed x] ++ mine ++ rest ∧
      started mine = replyIds x 5 ∧
      ∀ e ∈ mine, (∃ id, e = .applied id) ∨ (∃ id, e = .completed id) ∨ (∃ id, e = .failed id) := by
  obtain ⟨out, h1, h2, h3⟩ := (C78_reply hG hK hv checkName fields htyped).1 htime
  obtain ⟨r, h4, _, _, h5⟩ := check_shown hG hE ⟨htyped, h2, h3⟩
  obtain ⟨st, its, hr, hst⟩ : ∃ st its, r.result = .denied st its (textIn d "body") ∧
      st = (messageIn d "status").map fun s => numberIn s "code" := by
    rcases h5 with ⟨d', hd', st, its, _, hr, hst⟩ | ⟨hd', _⟩ | ⟨hd', _⟩
    · rw [hd] at hd'
      cases hd'
      exact ⟨st, its, hr, hst⟩
    · rw [hd] at hd'; cases hd'
    · rw [hd] at hd'; cases hd'
  refine C34_no_status_on_host w cfg factory world s hs x a data hat kind svc deny hsvc hlib hfree
    events world' token size callbacks hcb hres before hbefore hcall hend bytes _ r hbytes (hdec.trans h1) h4 st its _ hr
    fun code hc => ?_
  rw [hst] at hc
  cases hm : messageIn d "status" with
  | none => rw [hm] at hc; cases hc
  | some sf =>
    rw [hm] at hc
    cases hc
    exact hstatus sf hm

end Verif.Props
