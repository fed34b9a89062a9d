import Verif.Lemmas.VerdictRun
import Verif.Props.ReplyActions
import Verif.Props.Legacy
/-!
C34, C35: what the filter does about the replies of the authorization service and of the rate limiter.
-/
set_option linter.unusedSimpArgs false
namespace Verif.Props
open Verif Verif.Spec Verif.Legacy

variable {H : Type} {o : Oracle H}

/-- The callback goes on with the reply actions: from what they do to the history of the request. -/
theorem answered_run {parse : Text → Option Expr} {cfg : PluginConfig} {factory : Factory} {host : H}
    {s : ActionSet} (hs : ServedBy o parse cfg factory host s) {x : Text} {head : TypedHead}
    {service var message : Text} {replies : List TypedAction}
    (hat : At cfg.services s x (.grpc head service var message replies)) {kind : SvcKind} {svc : Svc} {deny : Bool}
    (hsvc : cfg.services service = some (.call kind svc deny)) (hne : replies ≠ [])
    (events : List (Event H)) (host' : H) (token size : Nat) (before : List Effect)
    (hbefore : (Filter.run o factory host events).log = before)
    (hcall : InFlightFor before token x) (hend : ¬Ended before) (v : Val)
    (hgood : ∀ c : Ctx H, Hearing o factory host (events ++ [.grpcResponse host' token 0 size]) token 0 size c →
      c.log = before ++ [.responded token 0 size] → (o.response c svc size).1 = some v)
    (Q : List Effect → Prop)
    (hrun : ∀ (p : Pipe H) ts more, p.ctx.log = before ++ [.responded token 0 size, .completed x] →
      (∀ j < replies.length, (scopeVars p.ctx.bindings (x ++ '.' :: natText j)).lookup var = some v) →
      KidsOf parse cfg.services x replies (ts.map PTask.strip) → (∀ t ∈ ts, Traced t.strip t) →
      (∀ m ∈ Pipe.turns o p (ts ++ more),
        Fetching o factory host (events ++ [.grpcResponse host' token 0 size]) m.1) →
      ∃ es, Q es ∧ ∃ rest, (Pipe.processTasks o p (ts ++ more)).1.ctx.log = p.ctx.log ++ es ++ rest) :
    ∃ mine rest, (Filter.run o factory host (events ++ [.grpcResponse host' token 0 size])).log =
      before ++ [.responded token 0 size, .completed x] ++ mine ++ rest ∧ Q mine := by
  subst hbefore
  obtain ⟨p, ts, more, w, tail, hans, hlog, _⟩ :=
    answer_step hs hat hsvc hne events host' token size hcall hend (fun c hR hc => by rw [hgood c hR hc]; rfl)
  have hw : w = v := by
    obtain ⟨c, hR, h1, h2⟩ := hans.value
    rw [hgood c hR h1] at h2
    exact (Option.some.inj h2).symm
  subst hw
  obtain ⟨es, h1, rest, h3⟩ := hrun p ts more hans.log hans.scope hans.kids hans.traced
    (fun m hm => ⟨_, hans.acts m hm, .none⟩)
  refine ⟨es, rest ++ tail, ?_, h1⟩
  rw [hlog, h3, hans.log]
  simp

theorem Understands.fine {K : Ctx H → Prop} {parse : Text → Option Expr} {x : Text} {replies : List TypedAction}
    {var : Text} {v : Val} {log : List Effect} (h : Understands o K parse x replies var v log)
    {bs : List (Text × (Text × Val))}
    (hscope : ∀ j < replies.length, (scopeVars bs (x ++ '.' :: natText j)).lookup var = some v) (j : Nat)
    (t : TypedAction) (hj : replies[j]? = some t) :
    Cel.Interprets o parse (exprTexts t) (x ++ '.' :: natText j) (Cel.bound var v) (Fine K log bs) := by
  intro text ht a e ha he
  obtain ⟨h1, h2, h3⟩ := h j t hj text ht a e ha he
  refine ⟨h1, h2, fun w hw c hc => h3 w hw c ⟨hc.1, hc.2.log, ?_⟩⟩
  rw [hc.2.bindings]
  exact hscope j (List.getElem?_eq_some_iff.1 hj).1

theorem fetching_asked {factory : Factory} {host : H} {events : List (Event H)} (a c : Ctx H)
    (h : Fetching o factory host events a) (ha : Asked o a c) : Fetching o factory host events c := by
  obtain ⟨b, h1, h2⟩ := h
  exact ⟨b, h1, h2.trans ha⟩

/-- C35: what is done about the reply of the rate limiter is what the reply asks for. With the code `OVER_LIMIT` the
request is ended with status 429 and the headers of the reply. With `OK` the headers of the reply are set in the
response, or this waits for the headers of the response, and nothing else happens. With any other code the request is
ended with an internal error. -/
theorem C35_decided (parse : Text → Option Expr) (cfg : PluginConfig) (factory : Factory) (host : H)
    (s : ActionSet) (hs : ServedBy o parse cfg factory host s) (x : Text) (a : LegacyAction) (data : RequestData)
    (hat : At cfg.services s x (translateRatelimit a data))
    (kind : SvcKind) (svc : Svc) (deny : Bool) (hsvc : cfg.services a.service = some (.call kind svc deny))
    (events : List (Event H)) (host' : H) (token size : Nat) (before : List Effect)
    (hbefore : (Filter.run o factory host events).log = before)
    (hcall : InFlightFor before token x) (hend : ¬Ended before) (v : Val) (r : LimitReply) (hr : r.Is v)
    (hgood : ∀ c : Ctx H, Hearing o factory host (events ++ [.grpcResponse host' token 0 size]) token 0 size c →
      c.log = before ++ [.responded token 0 size] → (o.response c svc size).1 = some v)
    (hcel : Understands o (Fetching o factory host (events ++ [.grpcResponse host' token 0 size]))
      parse x (ratelimitOnReply (lit "ratelimit_response")) (lit "ratelimit_response") v
      (before ++ [.responded token 0 size]))
    (hw : Offers o (Fetching o factory host (events ++ [.grpcResponse host' token 0 size])) .response) :
    ∃ mine rest, (Filter.run o factory host (events ++ [.grpcResponse host' token 0 size])).log =
        before ++ [.responded token 0 size, .completed x] ++ mine ++ rest ∧
      r.verdict.Undertaken o (Fetching o factory host (events ++ [.grpcResponse host' token 0 size]))
        .response (x ++ ".1".toList) (before ++ [.responded token 0 size, .completed x]) mine := by
  refine answered_run hs hat hsvc (by simp [ratelimitOnReply]) events host' token size before hbefore hcall hend v hgood
    _ ?_
  intro p ts more hlog hscope hk ht hacts
  have hg : Good (before ++ [.responded token 0 size]) p.ctx.bindings p.ctx :=
    ⟨⟨[.completed x], by rw [hlog]; simp⟩, rfl⟩
  obtain ⟨es, h1, h2⟩ := limit_run hr fetching_asked hw hk ht ⟨hg, hacts⟩
    (fun j t hj => Understands.fine hcel hscope j t hj)
  rw [hlog] at h2
  exact ⟨es, h2, h1.log more⟩

/-- C34: what is done about the reply of the authorization service is what the reply asks for. A denial ends the
request with the status of the reply, 403 if it is zero, its headers and its body. A reply that is neither ok nor
denied, or that asks for something unsupported, ends it with an internal error. Otherwise the headers of the reply are
set in the request, the metadata are stored as `auth`, and nothing else happens. -/
theorem C34_decided (parse : Text → Option Expr) (cfg : PluginConfig) (factory : Factory) (host : H)
    (s : ActionSet) (hs : ServedBy o parse cfg factory host s) (x : Text) (a : LegacyAction) (data : RequestData)
    (hat : At cfg.services s x (translateAuth a data))
    (kind : SvcKind) (svc : Svc) (deny : Bool) (hsvc : cfg.services a.service = some (.call kind svc deny))
    (events : List (Event H)) (host' : H) (token size : Nat) (before : List Effect)
    (hbefore : (Filter.run o factory host events).log = before)
    (hcall : InFlightFor before token x) (hend : ¬Ended before) (v : Val) (r : CheckReply) (hr : r.Is v)
    (hstatus : ∀ status items body, r.result = .denied status items body →
      ∃ code, status = some code ∧ 0 ≤ code ∧ code < 2 ^ 32)
    (hgood : ∀ c : Ctx H, Hearing o factory host (events ++ [.grpcResponse host' token 0 size]) token 0 size c →
      c.log = before ++ [.responded token 0 size] → (o.response c svc size).1 = some v)
    (hcel : Understands o (Fetching o factory host (events ++ [.grpcResponse host' token 0 size]))
      parse x (authOnReply (lit "auth_response")) (lit "auth_response") v
      (before ++ [.responded token 0 size]))
    (hw : Willing o (Fetching o factory host (events ++ [.grpcResponse host' token 0 size])) .request)
    (hmeta : ∀ m, r.metadata = some m → ∃ bytes, o.toBytes m = some bytes ∧
      ∀ c : Ctx H, Fetching o factory host (events ++ [.grpcResponse host' token 0 size]) c →
        (o.setAttr c "auth".toList bytes).1 ≠ .err) :
    ∃ mine rest, (Filter.run o factory host (events ++ [.grpcResponse host' token 0 size])).log =
        before ++ [.responded token 0 size, .completed x] ++ mine ++ rest ∧
      r.verdict.Done o (Fetching o factory host (events ++ [.grpcResponse host' token 0 size]))
        .request (before ++ [.responded token 0 size, .completed x]) mine ∧
      ∀ items m, r.verdict = .proceed items → r.metadata = some m → .stored "auth".toList m ∈ mine := by
  refine answered_run hs hat hsvc (by simp [authOnReply]) events host' token size before hbefore hcall hend v hgood
    (fun mine => r.verdict.Done o (Fetching o factory host (events ++ [.grpcResponse host' token 0 size]))
        .request (before ++ [.responded token 0 size, .completed x]) mine ∧
      ∀ items m, r.verdict = .proceed items → r.metadata = some m → .stored "auth".toList m ∈ mine) ?_
  intro p ts more hlog hscope hk ht hacts
  have hg : Good (before ++ [.responded token 0 size]) p.ctx.bindings p.ctx :=
    ⟨⟨[.completed x], by rw [hlog]; simp⟩, rfl⟩
  obtain ⟨es, h1, h2, h3⟩ := auth_run hr fetching_asked hw hstatus hmeta hk ht ⟨hg, hacts⟩
    (fun j t hj => Understands.fine hcel hscope j t hj)
  rw [hlog] at h2
  exact ⟨es, ⟨h2, h3⟩, h1.log more⟩

/-- C35: whatever the reply to a report is, it does not end the request: the only reply action is started and
is then completed, has failed, or has to wait. -/
theorem C35_report (parse : Text → Option Expr) (cfg : PluginConfig) (factory : Factory) (host : H)
    (s : ActionSet) (hs : ServedBy o parse cfg factory host s) (x : Text) (a : LegacyAction) (data : RequestData)
    (hat : At cfg.services s x (translateReport a data))
    (kind : SvcKind) (svc : Svc) (deny : Bool) (hsvc : cfg.services a.service = some (.call kind svc deny))
    (events : List (Event H)) (host' : H) (token size : Nat) (before : List Effect)
    (hbefore : (Filter.run o factory host events).log = before)
    (hcall : InFlightFor before token x) (hend : ¬Ended before) (v : Val)
    (hgood : ∀ c : Ctx H, Hearing o factory host (events ++ [.grpcResponse host' token 0 size]) token 0 size c →
      c.log = before ++ [.responded token 0 size] → (o.response c svc size).1 = some v) :
    ∃ mine rest, (Filter.run o factory host (events ++ [.grpcResponse host' token 0 size])).log =
        before ++ [.responded token 0 size, .completed x] ++ mine ++ rest ∧
      (mine = [.applied (x ++ ".0".toList), .completed (x ++ ".0".toList)] ∨
       mine = [.applied (x ++ ".0".toList), .failed (x ++ ".0".toList)] ∨
       mine = [.applied (x ++ ".0".toList)]) := by
  refine answered_run hs hat hsvc (by simp) events host' token size before hbefore hcall hend v hgood
    (fun mine => mine = [.applied (x ++ ".0".toList), .completed (x ++ ".0".toList)] ∨
       mine = [.applied (x ++ ".0".toList), .failed (x ++ ".0".toList)] ∨
       mine = [.applied (x ++ ".0".toList)]) ?_
  intro p ts more hlog hscope hk ht hacts
  obtain ⟨t, rfl⟩ : ∃ t, ts = [t] := by
    have := hk.len
    simp only [List.length_map, List.length_cons, List.length_nil] at this
    match ts, this with
    | [t], _ => exact ⟨t, rfl⟩
  obtain ⟨pred, hp, k⟩ := kid_fail hk ht (i := 0) rfl rfl
  have hid : x ++ '.' :: natText 0 = x ++ ".0".toList := rfl
  rw [hid] at k
  have hq := testPred_quiet o (p.ctx.push (.applied (x ++ ".0".toList))) (x ++ ".0".toList) pred
  have hap : Core.apply o (p.ctx.push (.applied (x ++ ".0".toList))) (.fail (x ++ ".0".toList) pred false) =
    applyFail o (p.ctx.push (.applied (x ++ ".0".toList))) (x ++ ".0".toList) pred false := rfl
  unfold applyFail at hap
  generalize hr : testPred o (p.ctx.push (.applied (x ++ ".0".toList))) (x ++ ".0".toList) pred = r at hq hap
  obtain ⟨ans, c'⟩ := r
  have done : Core.apply o (p.ctx.push (.applied (x ++ ".0".toList))) (.fail (x ++ ".0".toList) pred false) =
      (.done, c') → ∃ es, (es = [.applied (x ++ ".0".toList), .completed (x ++ ".0".toList)] ∨
       es = [.applied (x ++ ".0".toList), .failed (x ++ ".0".toList)] ∨
       es = [.applied (x ++ ".0".toList)]) ∧
      ∃ rest, (Pipe.processTasks o p ([t] ++ more)).1.ctx.log = p.ctx.log ++ es ++ rest := by
    intro h
    have g := goes_done (es := []) k rfl h (by rw [hq.log]; exact (List.append_nil _).symm) hq.bindings
    exact ⟨_, .inl rfl, Ran.log (.inr ⟨_, g⟩) more⟩
  have fail : Core.apply o (p.ctx.push (.applied (x ++ ".0".toList))) (.fail (x ++ ".0".toList) pred false) =
      (.failed, c') → ∃ es, (es = [.applied (x ++ ".0".toList), .completed (x ++ ".0".toList)] ∨
       es = [.applied (x ++ ".0".toList), .failed (x ++ ".0".toList)] ∨
       es = [.applied (x ++ ".0".toList)]) ∧
      ∃ rest, (Pipe.processTasks o p ([t] ++ more)).1.ctx.log = p.ctx.log ++ es ++ rest := by
    intro h
    exact ⟨_, .inr (.inl rfl), Ran.log (.inr ⟨_, goes_failed k rfl h hq⟩) more⟩
  cases ans with
  | err => exact fail hap
  | available b => cases b <;> exact done hap
  | pending =>
    dsimp only at hap
    split at hap
    · exact fail hap
    · refine ⟨_, .inr (.inr rfl), ?_⟩
      obtain ⟨ts, hts⟩ := traced_requeued k hap
      rw [List.singleton_append, Pipe.processTasks, traced_deps k, traced_id k]
      simp only [Core.deps, List.any_nil, Bool.false_eq_true, if_false]
      have h1 : t.apply o (p.ctx.push (.applied (Core.id (.fail (x ++ ".0".toList) pred false)))) =
        (.requeued ts, c') := hts
      rw [h1]
      obtain ⟨rest, h2, _⟩ := processTasks_started (o := o) { p with ctx := c', queue := p.queue ++ ts } more
      refine ⟨rest, h2.trans ?_⟩
      show c'.log ++ rest = _
      rw [hq.log]
      rfl

/-- C34, restricted: the condition on the status of a denial is needed. If a denial has no status, or a negative one,
and expressions without value are errors, the action that should end the request fails, and the request goes on. -/
theorem C34_no_status (parse : Text → Option Expr) (cfg : PluginConfig) (factory : Factory) (host : H)
    (s : ActionSet) (hs : ServedBy o parse cfg factory host s) (x : Text) (a : LegacyAction) (data : RequestData)
    (hat : At cfg.services s x (translateAuth a data))
    (kind : SvcKind) (svc : Svc) (deny : Bool) (hsvc : cfg.services a.service = some (.call kind svc deny))
    (events : List (Event H)) (host' : H) (token size : Nat) (before : List Effect)
    (hbefore : (Filter.run o factory host events).log = before)
    (hcall : InFlightFor before token x) (hend : ¬Ended before) (v : Val) (r : CheckReply) (hr : r.Is v)
    (status : Option Int) (items : List Val) (body : Text) (hres : r.result = .denied status items body)
    (hstatus : ∀ code, status = some code → code < 0)
    (hgood : ∀ c : Ctx H, Hearing o factory host (events ++ [.grpcResponse host' token 0 size]) token 0 size c →
      c.log = before ++ [.responded token 0 size] → (o.response c svc size).1 = some v)
    (hcel : Understands o (Fetching o factory host (events ++ [.grpcResponse host' token 0 size]))
      parse x (authOnReply (lit "auth_response")) (lit "auth_response") v
      (before ++ [.responded token 0 size]))
    (herr : ∀ t, (authOnReply (lit "auth_response"))[0]? = some t →
      Cel.Rejects o parse (exprTexts t) (x ++ ".0".toList) (Cel.bound (lit "auth_response") v)
        (fun c => Fetching o factory host (events ++ [.grpcResponse host' token 0 size]) c ∧
          SeesValue (before ++ [.responded token 0 size]) (x ++ ".0".toList) (lit "auth_response") v c)) :
    ∃ mine rest, (Filter.run o factory host (events ++ [.grpcResponse host' token 0 size])).log =
        before ++ [.responded token 0 size, .completed x] ++ mine ++ rest ∧
      started mine = replyIds x 5 ∧
      ∀ e ∈ mine, (∃ id, e = .applied id) ∨ (∃ id, e = .completed id) ∨ (∃ id, e = .failed id) := by
  refine answered_run hs hat hsvc (by simp [authOnReply]) events host' token size before hbefore hcall hend v hgood
    (fun mine => started mine = replyIds x 5 ∧
      ∀ e ∈ mine, (∃ id, e = .applied id) ∨ (∃ id, e = .completed id) ∨ (∃ id, e = .failed id)) ?_
  intro p ts more hlog hscope hk ht hacts
  have hg : Good (before ++ [.responded token 0 size]) p.ctx.bindings p.ctx :=
    ⟨⟨[.completed x], by rw [hlog]; simp⟩, rfl⟩
  have h0 : Cel.eval (Cel.bound authName v) authDeny = none := by
    cases hst : status with
    | none => rw [hst] at hres; exact eval_authDeny_none hres hr
    | some code => rw [hst] at hres; exact eval_authDeny_negative hres (hstatus code hst) hr
  obtain ⟨es, h1, h2, h3⟩ := denied_run hr fetching_asked hres h0 hk ht ⟨hg, hacts⟩
    (fun j t hj => Understands.fine hcel hscope j t hj)
    (fun t hj text htx e0 e he h5 h6 c hc => herr t hj text htx e0 e he h5 h6 c
      ⟨hc.1, hc.2.log, by rw [hc.2.bindings]; exact hscope 0 (by simp [authOnReply])⟩)
  exact ⟨es, ⟨h2, h3⟩, h1.log more⟩

end Verif.Props
