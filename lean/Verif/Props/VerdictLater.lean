import Verif.Props.VerdictDemo
import Verif.Props.Fate
import Verif.Props.Once
import Verif.Lemmas.Gate
/-!
C35: the headers of the rate limiter's reply are set in the response as soon as there is one.
-/
set_option linter.unusedSimpArgs false
namespace Verif.Props
open Verif Verif.Spec Verif.Legacy

variable {H : Type} {o : Oracle H}

/-- C35: the headers of the reply. The reply has the code `OK` and headers, and the action that sets them in the
response is started when the host has the headers of the response. Then they are replaced at once. -/
theorem C35_started (parse : Text → Option Expr) (cfg : PluginConfig) (factory : Factory) (host : H)
    (s : ActionSet) (hs : ServedBy o parse cfg factory host s) (x : Text) (a : LegacyAction) (data : RequestData)
    (hat : At cfg.services s x (translateRatelimit a data))
    (kind : SvcKind) (svc : Svc) (deny : Bool) (hsvc : cfg.services a.service = some (.call kind svc deny))
    (events : List (Event H)) (pre post : List Effect)
    (hlog : (Filter.run o factory host events).log = pre ++ .applied (x ++ ".1".toList) :: post)
    (v : Val) (r : LimitReply) (hr : r.Is v) (hcode : r.code = 1)
    (hgood : ∀ w, Heard o (Hearing o factory host events) x svc w pre → w = v)
    (hcel : Understands o (Fetching o factory host events) parse x
      (ratelimitOnReply (lit "ratelimit_response")) (lit "ratelimit_response") v [])
    (pairs : Headers) (hpairs : Pairs r.headers pairs) (hne : pairs ≠ [])
    (hw : ∀ c : Ctx H, Fetching o factory host events c → c.log = pre ++ [.applied (x ++ ".1".toList)] →
      ∃ old h, o.getHeaders c .response = (.available old, h) ∧
        ∀ new, (o.setHeaders (c.withHost h) .response new).1 = .available ()) :
    ∃ old new rest, post = .headersSet .response new :: rest ∧ Replaced old pairs new ∧
      ∃ c : Ctx H, Fetching o factory host events c ∧ c.log = pre ++ [.applied (x ++ ".1".toList)] ∧
        (o.getHeaders c .response).1 = .available old := by
  have hj : (ratelimitOnReply rlName)[1]? = some (.headers { predicate := rlName ++ lit ".overall_code == 1" } .response
    (rlName ++ lit ".response_headers_to_add")) := rfl
  obtain rfl := (Props.C40_list _ _).2 hpairs
  have key := bound_run (o := o) hs hat hsvc hj (events := events)
    (R := fun k => k.id = x ++ '.' :: natText 1 → k.waits = false → ∃ pred e,
      parse (rlName ++ lit ".overall_code == 1") = some pred ∧ parse (rlName ++ lit ".response_headers_to_add") = some e ∧
      k = .headers (x ++ '.' :: natText 1) pred e .response false)
    ?_ ?_ ?_
    (Q := fun pre post => (∀ w, Heard o (Hearing o factory host events) x svc w pre → w = v) →
      (∀ c : Ctx H, Fetching o factory host events c → c.log = pre ++ [.applied (x ++ ".1".toList)] →
        ∃ old h, o.getHeaders c .response = (.available old, h) ∧
          ∀ new, (o.setHeaders (c.withHost h) .response new).1 = .available ()) →
      ∃ old new rest, post = .headersSet .response new :: rest ∧ Replaced old (headerPairs (.list r.headers)) new ∧
        ∃ c : Ctx H, Fetching o factory host events c ∧ c.log = pre ++ [.applied (x ++ ".1".toList)] ∧
          (o.getHeaders c .response).1 = .available old)
    ?_ ?_
  · exact key pre post hlog hgood hw
  · constructor
    · intro k k' h ha
      cases ha with
      | same => exact h
      | store id pred e path y terminal s s' =>
        intro hid _
        obtain ⟨_, _, _, _, h⟩ := h hid rfl
        cases h
      | tokenUsage =>
        intro hid _
        obtain ⟨_, _, _, _, h⟩ := h hid rfl
        cases h
    · simp [Core.waits]
    · simp [Core.waits]
  · intro y deps k hco hm _ _
    cases hco with
    | headers _ _ _ _ pred e hp he =>
      cases hm
      exact ⟨pred, e, hp, he, rfl⟩
  · intro k hk hid
    exact absurd hid hk
  · intro pre post es h h1 h2
    obtain ⟨old, new, rest, h3, h4⟩ := h h1 h2
    exact ⟨old, new, rest ++ es, by rw [h3]; rfl, h4⟩
  · intro k c es w fs hk hid hwt hac hh hl hap _ h1 h2
    obtain ⟨pred, e, hp, he, rfl⟩ := hk hid hwt
    obtain rfl := h1 w hh
    have hin := hcel 1 _ hj
    have hsee : ∀ c', Asked o (c.push (.applied (x ++ '.' :: natText 1))) c' → Fetching o factory host events c' ∧
        SeesValue [] (x ++ '.' :: natText 1) (lit "ratelimit_response") w c' := fun c' ha =>
      ⟨⟨_, hac, ha⟩, ⟨c'.log, rfl⟩, by rw [(asked_log ha).2]; exact hl⟩
    have q1 := (hin _ (by simp [exprTexts]) _ _ parses_under hp).2.2 _ (eval_under hr)
    have d1 := (hin _ (by simp [exprTexts]) _ _ parses_limitHeaders he).2.2 _ (eval_limitHeaders hr)
    simp only [hcode, decide_true] at q1
    rcases headers_tried (o := o) (target := .response)
      (fun a ha h => by
        obtain ⟨old, g, h3, _⟩ := h2 a ⟨_, hac, ha⟩ ((asked_log ha).1.trans rfl)
        rw [h3] at h
        cases h)
      (fun a old g ha hg hs => by
        obtain ⟨old', g', h3, h4⟩ := h2 a ⟨_, hac, ha⟩ ((asked_log ha).1.trans rfl)
        rw [h3] at hg
        cases hg
        exact ⟨_, h4 hs⟩)
      (q1 _ (hsee _ .none)) (fun c' ha => d1 c' (hsee c' ha)) with
      ⟨c', h3, _, ⟨h4, _⟩ | ⟨_, c0, old, ha, h4, h5, h6⟩⟩ | ⟨_, c', ts, h3, _, c0, ha, _, h5⟩
    · exact absurd h4 hne
    · rw [h3] at hap
      have h7 : c.log ++ [.applied (x ++ '.' :: natText 1)] ++
          [.headersSet .response (setAll old (headerPairs (.list r.headers)))] =
          c.log ++ [.applied (x ++ '.' :: natText 1)] ++ es := h6.symm.trans hap
      have h8 := List.append_cancel_left h7
      exact ⟨old, setAll old (headerPairs (.list r.headers)), fs, by rw [← h8]; rfl, setAll_replaced _ _, c0, ⟨_, hac, ha⟩,
        h4, h5⟩
    · obtain ⟨old, g, h6, _⟩ := h2 c0 ⟨_, hac, ha⟩ ((asked_log ha).1.trans rfl)
      rw [h6] at h5
      cases h5

/-- An action with one result completes at one place. -/
theorem completed_once {x : Text} {a a' b b' : List Effect} (h : settled x (a ++ .completed x :: b) ≤ 1)
    (he : a ++ .completed x :: b = a' ++ .completed x :: b') : a = a' := by
  have key : ∀ {a b m : List Effect}, settled x (a ++ m ++ .completed x :: b) ≤ 1 → .completed x ∈ m → False := by
    intro a b m h hm
    have h1 : 0 < settled x m := List.countP_pos_iff.2 ⟨_, hm, by simp⟩
    simp only [settled, List.countP_append, List.countP_cons] at h h1
    simp at h
    omega
  rcases List.append_eq_append_iff.1 he with ⟨m, rfl, h2⟩ | ⟨m, rfl, h2⟩
  · cases m with
    | nil => simp
    | cons y m =>
      simp only [List.cons_append, List.cons.injEq] at h2
      obtain ⟨rfl, rfl⟩ := h2
      exact (key (a := a) (m := .completed x :: m) (b := b') (by simpa using h) (by simp)).elim
  · cases m with
    | nil => simp
    | cons y m =>
      simp only [List.cons_append, List.cons.injEq] at h2
      obtain ⟨rfl, rfl⟩ := h2
      exact (key (a := a') (m := .completed x :: m) (b := b) h (by simp)).elim

/-- The task is not a call. -/
def NoCall (x : Text) (k : Core) : Prop := k.id = x → k.isCall = false

theorem noCall_closed (x : Text) : Closed (NoCall x) where
  again k k' h ha := by
    cases ha with
    | same => exact h
    | store => intro _; rfl
    | tokenUsage => intro _; rfl
  sent _ _ _ _ _ _ _ _ h hid := by cases h hid
  noop _ _ _ := rfl

theorem noCall_inv (x : Text) : CtxInv o (NoCall x) (fun c => ∀ g token svc bytes rid, .dispatch x g token svc bytes rid ∉ c.log) where
  closed := noCall_closed x
  start k c hk _ _ h := by
    obtain ⟨es, h1, h2⟩ := core_does o (c.push (.applied k.id)) k
    rw [h1]
    intro g token svc bytes rid hm
    rcases List.mem_append.1 hm with hm | hm
    · rcases List.mem_append.1 hm with hm | hm
      · exact h _ _ _ _ _ hm
      · simp at hm
    · rcases does_uncalled h2 with hu | ⟨g', token', svc', bytes', rid', rfl, h3, _⟩
      · exact hu _ _ _ _ _ _ hm
      · simp only [List.mem_singleton, Effect.dispatch.injEq] at hm
        rw [hk hm.1.symm] at h3
        cases h3
  respond k c token s z _ hw h := by
    obtain ⟨es, h1, h2⟩ := core_does o
      { c with grpc := some (s, z), log := c.log ++ [.responded token s z] } k
    rw [h1]
    intro g token svc bytes rid hm
    rcases List.mem_append.1 hm with hm | hm
    · rcases List.mem_append.1 hm with hm | hm
      · exact h _ _ _ _ _ hm
      · simp at hm
    · rcases does_uncalled h2 with hu | ⟨_, _, _, _, _, _, _, hw'⟩
      · exact hu _ _ _ _ _ _ hm
      · rw [hw] at hw'; cases hw'
  last c h := by
    obtain ⟨es, h1, h2⟩ := core_does o c defaultCore
    rw [h1]
    intro g token svc bytes rid hm
    rcases List.mem_append.1 hm with hm | hm
    · exact h _ _ _ _ _ hm
    · rcases does_uncalled h2 with hu | ⟨_, _, _, _, _, _, hc, _⟩
      · exact hu _ _ _ _ _ _ hm
      · cases hc
  aside c c' h ha := by
    obtain ⟨es, h1, h2⟩ := ha.log
    rw [h1]
    intro g token svc bytes rid hm
    rcases List.mem_append.1 hm with hm | hm
    · exact h _ _ _ _ _ hm
    · have := h2 _ hm
      simp [Effect.plain, Effect.isFilter] at this

/-- An action that is not a call sends none. -/
theorem no_call {parse : Text → Option Expr} {cfg : PluginConfig} {factory : Factory} {host : H}
    {s : ActionSet} (hs : ServedBy o parse cfg factory host s) {x : Text} {t : TypedAction} (hat : At cfg.services s x t)
    (ht : ∀ head service var message replies, t ≠ .grpc head service var message replies) (events : List (Event H))
    (g : Bool) (token : Nat) (svc : Svc) (bytes : Bytes) (rid : Text) :
    .dispatch x g token svc bytes rid ∉ (Filter.run o factory host events).log := by
  by_cases hb : ∃ p, factory.build o { host := host } = .pipeline p
  · obtain ⟨p, hb⟩ := hb
    obtain ⟨b, hbuilt, hfs⟩ := servedBy_fromSet hs hb
    refine (noCall_inv (o := o) x).run hb ?_ ?_ events (Q := fun log => .dispatch x g token svc bytes rid ∉ log)
      (fun c h => h g token svc bytes rid)
    · refine fromSet_tasks hbuilt hfs hat (fun k hk h => absurd h hk) ?_
      intro y deps k hco hm _
      cases hco with
      | grpc => exact absurd rfl (ht _ _ _ _ _)
      | _ => cases hm; rfl
    · have hlog0 : (p.push .hits).ctx.log = [.hits] := by simp [Pipe.push, Ctx.push, hbuilt.quiet.log]
      intro _ _ _ _ _
      rw [hlog0]
      simp
  · intro h
    have := unrelated_run_idle (o := o) factory host events (fun p hp => hb ⟨p, hp⟩) _ h
    simp [Effect.unrelated] at this

/-- C35: the headers of the reply are not lost. The reply had the code `OK` and headers that have not been set yet. In
the first callback in which the host has the headers of the response they are set, unless the request is ended. -/
theorem C35_later (parse : Text → Option Expr) (cfg : PluginConfig) (factory : Factory) (host : H)
    (s : ActionSet) (hs : ServedBy o parse cfg factory host s) (x : Text) (a : LegacyAction) (data : RequestData)
    (hat : At cfg.services s x (translateRatelimit a data))
    (kind : SvcKind) (svc : Svc) (deny : Bool) (hsvc : cfg.services a.service = some (.call kind svc deny))
    (events : List (Event H)) (e : Event H) (before after : List Effect) (token size : Nat)
    (hpast : (Filter.run o factory host events).log = before ++ .responded token 0 size :: after)
    (hcall : InFlightFor before token x)
    (hwaits : ¬ HasResult (Filter.run o factory host events).log (x ++ ".1".toList))
    (hfresh : Fresh (Filter.run o factory host (events ++ [e])).log)
    (hend : ¬ Ended (Filter.run o factory host (events ++ [e])).log)
    (v : Val) (r : LimitReply) (hr : r.Is v) (hcode : r.code = 1)
    (hgood : ∀ c : Ctx H, Hearing o factory host (events ++ [e]) token 0 size c →
      c.log = before ++ [.responded token 0 size] → (o.response c svc size).1 = some v)
    (hcel : Understands o (Fetching o factory host (events ++ [e])) parse x
      (ratelimitOnReply (lit "ratelimit_response")) (lit "ratelimit_response") v [])
    (pairs : Headers) (hpairs : Pairs r.headers pairs) (hne : pairs ≠ [])
    (hw : ∀ c : Ctx H, Fetching o factory host (events ++ [e]) c →
      (∃ es, c.log = (Filter.run o factory host events).log ++ es ++ [.applied (x ++ ".1".toList)]) →
      ∃ old h, o.getHeaders c .response = (.available old, h) ∧
        ∀ new, (o.setHeaders (c.withHost h) .response new).1 = .available ()) :
    ∃ old pre new rest, (Filter.run o factory host (events ++ [e])).log =
        (Filter.run o factory host events).log ++ pre ++ .headersSet .response new :: rest ∧ Replaced old pairs new ∧
      ∃ c : Ctx H, Fetching o factory host (events ++ [e]) c ∧ c.log = (Filter.run o factory host events).log ++ pre ∧
        (o.getHeaders c .response).1 = .available old := by
  have hend' : ¬ Ended (Filter.run o factory host events).log := fun h => hend (by
    obtain ⟨more, hm⟩ := run_more (o := o) factory host events [e]
    rw [hm]
    exact List.mem_append_left _ h)
  have hend0 : ¬ Ended before := fun h => hend' (by rw [hpast]; exact List.mem_append_left _ h)
  obtain ⟨hone, later, hlater⟩ : .applied (x ++ ".1".toList) ∈ (Filter.run o factory host events).log ∧
      ∃ later, (Filter.run o factory host events).log = before ++ [.responded token 0 size] ++ .completed x :: later := by
    obtain ⟨es1, host', es2, rfl, hbefore⟩ := responded_event factory host events _ _ token 0 size hpast
    obtain ⟨mine, rest, h1, h2⟩ := C10_order parse cfg factory host s hs x _ _ _ _ _ hat (by simp [ratelimitOnReply]) kind
      svc deny hsvc es1 host' token size before hbefore hcall hend0
      (fun c hc hl => by rw [hgood c (hearing_mono (by simp) hc) hl]; rfl)
    obtain ⟨more, hm⟩ := run_more (o := o) factory host (es1 ++ [.grpcResponse host' token 0 size]) es2
    rw [List.append_assoc, List.singleton_append] at hm
    have hin : x ++ ".1".toList ∈ started mine := by
      rcases h2 with ⟨h2, _⟩ | ⟨n, _, _, h3, _⟩
      · rw [h2]
        exact List.mem_map.2 ⟨1, by simp [ratelimitOnReply], rfl⟩
      · exfalso
        refine hend' ?_
        rw [hm, h1]
        exact List.mem_append_left _ (List.mem_append_left _ (List.mem_append_right _ (List.mem_of_getLast? h3)))
    refine ⟨?_, mine ++ rest ++ more, by rw [hm, h1]; simp⟩
    rw [hm, h1]
    refine List.mem_append_left _ (List.mem_append_left _ (List.mem_append_right _ ?_))
    obtain ⟨e, he, h3⟩ := List.mem_filterMap.1 hin
    cases e <;> simp at h3
    subst h3
    exact he
  have hout : ¬ CallOut (Filter.run o factory host events).log (x ++ ".1".toList) := by
    rintro ⟨tok, pre, g, svc', b, rid, post, h1, _⟩
    refine no_call hs (.reply hat (j := 1) rfl) (by simp) events g tok svc' b rid ?_
    rw [h1]
    exact List.mem_append_right _ List.mem_cons_self
  obtain ⟨new, h1, h2⟩ := C77_retried factory host events e _ hfresh hend hone hwaits hout
  obtain ⟨l, rest, rfl⟩ := List.append_of_mem h2
  rw [← List.append_assoc] at h1
  obtain ⟨old, hs', rest', h3, h4, c, h5, h6, h7⟩ := C35_started parse cfg factory host s hs x a data hat kind svc deny hsvc (events ++ [e])
    _ _ h1 v r hr hcode (fun w hh => by
      obtain ⟨a', token', size', b, h8, _, c, h9, h10, h11⟩ := hh
      have hc := C53_one_result parse cfg factory host s hs x _ hat (events ++ [e])
      have h12 := h1
      rw [hlater, List.append_assoc, List.append_assoc, List.cons_append] at h12
      rw [h8] at h1
      have h13 : a' ++ [.responded token' 0 size'] ++ .completed x :: (b ++ .applied (x ++ ".1".toList) :: rest) =
          before ++ [.responded token 0 size] ++ .completed x :: (later ++ (l ++ .applied (x ++ ".1".toList) :: rest)) := by
        rw [← h12, h1]
        simp
      have h14 := completed_once (by rw [h13, ← h12]; exact hc) h13
      obtain ⟨rfl, h15⟩ := List.append_inj' h14 rfl
      simp only [List.cons.injEq, Effect.responded.injEq, true_and, and_true] at h15
      obtain ⟨rfl, rfl⟩ := h15
      rw [hgood c h9 h10] at h11
      exact (Option.some.inj h11).symm)
    hcel pairs hpairs hne (fun c hc hl => hw c hc ⟨l, hl⟩)
  refine ⟨old, l ++ [.applied (x ++ ".1".toList)], hs', rest', by rw [h1, h3]; simp, h4, c, h5, by rw [h6]; simp, h7⟩

namespace VerdictDemo

/-- The contexts in which actions are evaluated. -/
def turns (v : Val) (events : List (Event Nat)) : List (Ctx Nat × List PTask) :=
  (List.range (events.length + 1)).flatMap fun i =>
    Filter.turnsAt (world v) (factory "limit") 0 (events.take i) none ++
    Filter.turnsAt (world v) (factory "limit") 0 (events.take i) events[i]?

theorem turns_complete {v : Val} {events : List (Event Nat)} {c : Ctx Nat}
    (h : Acting (world v) (factory "limit") 0 events c) : ∃ ts, (c, ts) ∈ turns v events := by
  obtain ⟨before, e, ts, ⟨more, hp⟩, h⟩ := h
  refine ⟨ts, List.mem_flatMap.2 ⟨before.length, ?_, ?_⟩⟩
  · rw [← hp]
    simp
    omega
  · cases e with
    | none =>
      refine List.mem_append_left _ ?_
      rw [← hp]
      simpa using h
    | some e =>
      refine List.mem_append_right _ ?_
      rw [← hp]
      simpa using h

theorem storeBody_host {v : Val} (c : Ctx Nat) (s : ParseState) : (storeBody (world v) c s).ctx.host = c.host := by
  have hb : ∀ (c : Ctx Nat) source b, (c.setBody source b).host = c.host := by
    intro c source b
    cases source <;> rfl
  have hg : ∀ (c : Ctx Nat) t a h, (world v).getHeaders c t = (a, h) → h = c.host := fun c t a h he =>
    (congrArg Prod.snd he).symm
  have hd : ∀ (c : Ctx Nat) t n m a h, (world v).readBody c t n m = (a, h) → h = c.host := fun c t n m a h he =>
    (congrArg Prod.snd he).symm
  have hf : ∀ (c : Ctx Nat) source parser, (storeFinish (world v) c source parser).ctx.host = c.host := by
    intro c source parser
    unfold storeFinish
    dsimp only
    repeat' split
    all_goals simp [ReadResult.ctx, hb]
  have hr : ∀ (c : Ctx Nat) source parser, (storeRead (world v) c source parser).ctx.host = c.host := by
    intro c source parser
    unfold storeRead
    dsimp only
    repeat' split
    all_goals first
      | rfl
      | exact hd _ _ _ _ _ _ (by assumption)
      | exact hf c source parser
      | exact (hf ..).trans (hd _ _ _ _ _ _ (by assumption))
  have hc : ∀ source fields, (createParser (world v) c source fields).2.host = c.host := by
    intro source fields
    unfold createParser
    dsimp only
    repeat' split
    all_goals first
      | rfl
      | exact hg _ _ _ _ (by assumption)
  unfold storeBody
  split
  · rfl
  · exact hr ..
  · rename_i source fields
    have := hc source fields
    split <;> rename_i heq <;> rw [heq] at this
    · rw [hr]; exact this
    · exact this
    · exact this

/-- The host of the demonstration changes only between callbacks. -/
theorem asked_host {v : Val} {a c : Ctx Nat} (h : Asked (world v) a c) : c.host = a.host := by
  induction h with
  | none => rfl
  | attributes _ _ ih => exact ih
  | value _ _ _ ih => exact ih
  | headers _ _ ih => exact ih
  | @body c d s s' _ hb ih =>
    have h := storeBody_host (v := v) c s
    rw [hb] at h
    exact h.trans ih

/-- When the headers of the response arrive, the host has them. -/
theorem arrived (c : Ctx Nat)
    (hc : Fetching (world (limitMessage 1)) (factory "limit") 0 [.grpcResponse 1 0 0 7, .responseHeaders 2] c)
    (hl : ∃ es, c.log = request "limit" (limitMessage 1) [.grpcResponse 1 0 0 7] ++ es ++ [.applied "0.1".toList]) :
    2 ≤ c.host := by
  obtain ⟨a, ha, hq⟩ := hc
  obtain ⟨ts, hm⟩ := turns_complete ha
  have hall : ((turns (limitMessage 1) [.grpcResponse 1 0 0 7, .responseHeaders 2]).all fun t =>
    decide (t.1.log.length ≤ 12) || decide (2 ≤ t.1.host)) = true := by decide +kernel
  have h := List.all_eq_true.1 hall _ hm
  rw [asked_host hq]
  obtain ⟨es, hl⟩ := hl
  have hlen : (request "limit" (limitMessage 1) [.grpcResponse 1 0 0 7]).length = 12 := by decide +kernel
  have : a.log.length = 12 + es.length + 1 := by
    rw [← (asked_log hq).1, hl]
    simp only [List.length_append, hlen, List.length_singleton]
  simp only [Bool.or_eq_true, decide_eq_true_eq] at h
  omega

end VerdictDemo

open VerdictDemo in
/-- The hypotheses of `C35_later` hold. -/
example : ∃ old pre new rest, request "limit" (limitMessage 1) [.grpcResponse 1 0 0 7, .responseHeaders 2] =
        request "limit" (limitMessage 1) [.grpcResponse 1 0 0 7] ++ pre ++ .headersSet .response new :: rest ∧
      Replaced old [("x".toList, "1".toList)] new ∧
      ∃ c : Ctx Nat, Fetching (world (limitMessage 1)) (factory "limit") 0 [.grpcResponse 1 0 0 7, .responseHeaders 2] c ∧
        c.log = request "limit" (limitMessage 1) [.grpcResponse 1 0 0 7] ++ pre ∧
        ((world (limitMessage 1)).getHeaders c .response).1 = .available old := by
  have h : ready "limit" (limitMessage 1) = true := by decide +kernel
  have hpast : ∃ after, request "limit" (limitMessage 1) [.grpcResponse 1 0 0 7] =
      request "limit" (limitMessage 1) [] ++ .responded 0 0 7 :: after :=
    ⟨_, by with_unfolding_all rfl⟩
  obtain ⟨after, hpast⟩ := hpast
  refine C35_later _ _ _ _ _ (ready_served h) "0".toList (action "limit") [] limit_at
    _ _ _ rfl [.grpcResponse 1 0 0 7] (.responseHeaders 2) _ after 0 7 hpast (ready_inFlight h) ?_
    (fresh_of_check (by decide +kernel)) (not_ended _ (by decide +kernel)) _ _ (limit_is 1) rfl
    (fun _ _ _ => rfl) (limit_understands _ _ _) _ ?_ (by simp) ?_
  · have hall : ((request "limit" (limitMessage 1) [.grpcResponse 1 0 0 7]).all fun
      | .completed y => !decide (y = "0.1".toList) | .failed y => !decide (y = "0.1".toList) | _ => true) = true := by
      decide +kernel
    rintro (hm | hm) <;> exact absurd (List.all_eq_true.1 hall _ hm) (by simp)
  · exact (C40_list _ _).1 (by decide +kernel)
  · intro c hc hl
    have h2 := arrived c hc hl
    refine ⟨[("y".toList, "0".toList)], c.host, ?_, fun _ => rfl⟩
    show ((if c.host < 2 then Ans.pending else Ans.available [("y".toList, "0".toList)]), c.host) = _
    rw [if_neg (by omega)]

end Verif.Props
