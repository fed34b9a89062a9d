import Verif.Spec.Gate
import Verif.Lemmas.Gate
import Verif.Props.Lifecycle
import Verif.Props.VerdictDemo
/-! A request goes on only after its guard calls were answered well: C68. -/
set_option linter.unusedSimpArgs false
namespace Verif.Props
open Verif Spec Legacy

variable {H : Type} (o : Oracle H)

theorem Spec.GoesOn.not_pipe {e : Effect} (h : GoesOn e) : e.isPipe = false := by
  rcases h with h | ⟨cb, _, rfl⟩
  · cases e <;> simp_all [isResume, Effect.isPipe]
  · rfl

/-- What is done at once comes before the request goes on. -/
theorem before_going {m2 post l r : List Effect} {e : Effect} (h : m2 ++ e :: post = l ++ r) (he : GoesOn e)
    (hl : ∀ f ∈ l, f.isPipe = true) : ∃ mid, m2 = l ++ mid := by
  rcases List.append_eq_append_iff.1 h with ⟨a, h1, h2⟩ | ⟨a, h1, _⟩
  · cases a with
    | nil => exact ⟨[], by rw [h1]; simp⟩
    | cons b a =>
      rw [List.cons_append] at h2
      cases h2
      have h3 := hl e (by rw [h1]; simp)
      rw [Spec.GoesOn.not_pipe he] at h3
      cases h3
  · exact ⟨a, h1⟩

/-- C68: when the request goes on, every guard call that was sent has been answered. -/
theorem C68_answered (factory : Factory) (host : H) (events : List (Event H)) (pre post : List Effect) (e : Effect)
    (hlog : (Filter.run o factory host events).log = pre ++ e :: post) (he : GoesOn e) (hfresh : Fresh pre)
    (hend : ¬Ended pre) (p1 p2 : List Effect) (x : Text) (token : Nat) (svc : Svc) (bytes : Bytes) (rid : Text)
    (hsent : pre = p1 ++ .dispatch x true token svc bytes rid :: p2) :
    ∃ m1 status size m2, p2 = m1 ++ .responded token status size :: m2 ∧
      InFlightFor (p1 ++ .dispatch x true token svc bytes rid :: m1) token x := by
  have hquiet : guardOutstanding pre = false := by
    rcases he with he | ⟨cb, hcb, rfl⟩
    · exact C02_never_with_guard o factory host events pre e post hlog he hfresh hend
    · exact (C01_pause_iff_guard o factory host events pre _ post hlog cb false rfl hfresh hend hcb).symm
  subst hsent
  refine answered_of_quiet hfresh (fun hm => ?_)
  unfold guardOutstanding at hquiet
  rw [List.any_eq_false] at hquiet
  exact hquiet _ hm rfl


/-- A history, taken apart at two places. -/
theorem apart (l : List Effect) (n m : Nat) (h1 : n < m) (h2 : m < l.length) :
    l = l.take m ++ l[m] :: l.drop (m + 1) ∧ l.take m = l.take n ++ l[n] :: (l.drop (n + 1)).take (m - n - 1) := by
  have e1 : l.take m = l.take n ++ l[n] :: (l.drop (n + 1)).take (m - n - 1) := by
    have hm : m = n + ((m - n - 1) + 1) := by omega
    conv => lhs; rw [hm]
    rw [List.take_add, List.drop_eq_getElem_cons (by omega), List.take_succ_cons]
  exact ⟨by rw [← List.drop_eq_getElem_cons h2, List.take_append_drop], e1⟩

/-- Two guard calls; the first has a reply action. -/
def gated : List ActionConfig := [Demo.grpc "deny" [Demo.headers], Demo.grpc "deny"]

/-- The responses arrive in the order of the calls; the request is resumed at the end. -/
def gatedEvents : List (Event Nat) := [.grpcResponse 2 0 0 7, .grpcResponse 2 1 0 8, .requestBody 2 7 true]

example : Demo.view (Demo.request gated gatedEvents) =
    ["hits", "start 0", "call 0 guard token 0", "start 1", "call 1 guard token 1", "pause",
      "response 0 status 0", "completed 0", "start 0.0", "headers x=1", "completed 0.0", "response 1 status 0",
      "completed 1", "resume request", "continue"] := by
  decide +kernel

theorem gated_sent : ∃ svc bytes rid, (Demo.request gated gatedEvents)[2]? = some (.dispatch (natText 0) true 0 svc bytes rid) :=
  ⟨_, _, _, by with_unfolding_all rfl⟩

theorem gated_going : (Demo.request gated gatedEvents)[13]? = some .resumeRequest := by with_unfolding_all rfl

/-- The hypotheses of `C68_answered` hold: the resumption of the stream is the fourteenth effect. -/
example : ∃ p1 p2 post svc bytes rid m1 status size m2,
    Demo.request gated gatedEvents = (p1 ++ .dispatch (natText 0) true 0 svc bytes rid :: p2) ++ .resumeRequest :: post ∧
    p2 = m1 ++ .responded 0 status size :: m2 ∧
    InFlightFor (p1 ++ .dispatch (natText 0) true 0 svc bytes rid :: m1) 0 (natText 0) := by
  obtain ⟨svc, bytes, rid, h2⟩ := gated_sent
  have h13 := gated_going
  obtain ⟨l2, h2⟩ := List.getElem?_eq_some_iff.1 h2
  obtain ⟨l13, h13⟩ := List.getElem?_eq_some_iff.1 h13
  obtain ⟨hap, hpre⟩ := apart _ 2 13 (by omega) l13
  rw [h13] at hap
  rw [h2] at hpre
  have hfresh : Fresh ((Demo.request gated gatedEvents).take 13) := fresh_of_check (by decide +kernel)
  have hend : ¬Ended ((Demo.request gated gatedEvents).take 13) := not_ended _ (by decide +kernel)
  obtain ⟨m1, st, sz, m2, g1, g2⟩ := C68_answered Demo.world _ 0 gatedEvents _ _ _ hap (.inl rfl) hfresh hend _ _ _ _ _ _ _ hpre
  exact ⟨_, _, _, svc, bytes, rid, m1, st, sz, m2, by rw [← hpre]; exact hap, g1, g2⟩

/-- The call in the answer's place was completed or failed. -/
theorem processed_run (parse : Text → Option Expr) (cfg : PluginConfig) (factory : Factory)
    (host : H) (s : ActionSet) (hs : ServedBy o parse cfg factory host s)
    (i : Nat) (a : ActionConfig) (ha : s.actions[i]? = some a) (pred msg : Expr) (svc : Svc)
    (hcallOf : CallOf parse cfg.services pred msg svc a)
    (events : List (Event H)) (pre post : List Effect) (token status size : Nat)
    (hlog : (Filter.run o factory host events).log = pre ++ .responded token status size :: post)
    (hcall : InFlightFor pre token (natText i)) (hend : ¬Ended pre) :
    (∃ rest, post = .completed (natText i) :: rest) ∨ ∃ rest, post = .callFailed (natText i) :: rest := by
  by_cases hb : ∃ p, factory.build o { host := host } = .pipeline p
  · obtain ⟨p, hb⟩ := hb
    obtain ⟨b, hbuilt, hfs⟩ := servedBy_fromSet hs hb
    have hlog0 : (p.push .hits).ctx.log = [.hits] := by simp [Pipe.push, Ctx.push, hbuilt.quiet.log]
    have hg := (held_extra (o := o) (theCall_closed _ _ _ _ _)
      (by
        rintro x a b (⟨rest, rfl⟩ | ⟨rest, rfl⟩)
        · exact .inl ⟨rest ++ b, rfl⟩
        · exact .inr ⟨rest ++ b, rfl⟩)
      (processed_key (natText i) pred msg svc (HasReplies a))).run factory host events p hb ?_
    · exact reacts_log hg pre token status size post _ hlog rfl hcall hend
    · refine ⟨⟨?_, ?_⟩, fromSet_theCall hbuilt hfs i a ha pred msg svc hcallOf⟩
      · intro tok x hx
        rw [hlog0] at hx
        exact absurd hx (inFlightFor_hits tok x)
      · rw [hlog0]; exact reacts_hits _ _
  · have hp := unrelated_run_idle (o := o) factory host events (fun p hp => hb ⟨p, hp⟩)
    obtain ⟨u, g, svc, b, rid, v, hx, _⟩ := hcall
    have := hp (.dispatch (natText i) g token svc b rid) (by rw [hlog, hx]; simp)
    simp [Effect.unrelated] at this

/-- C68: when the request goes on, a guard call to a service with failure mode deny was answered with success, and
with a message that can be decoded if the configuration says what is done about it. (The call was not postponed
before: see `C08_postponed_fails_open` for those.) -/
theorem C68_success (parse : Text → Option Expr) (cfg : PluginConfig) (factory : Factory)
    (host : H) (s : ActionSet) (hs : ServedBy o parse cfg factory host s)
    (i : Nat) (a : ActionConfig) (ha : s.actions[i]? = some a) (hm : FailureMode cfg.services true a)
    (pred msg : Expr) (svc : Svc) (hcallOf : CallOf parse cfg.services pred msg svc a)
    (events : List (Event H)) (pre post : List Effect) (e : Effect)
    (hlog : (Filter.run o factory host events).log = pre ++ e :: post) (he : GoesOn e) (hfresh : Fresh pre)
    (hend : ¬Ended pre) (p1 p2 : List Effect) (token : Nat) (svc' : Svc) (bytes : Bytes) (rid : Text)
    (hsent : pre = p1 ++ .dispatch (natText i) true token svc' bytes rid :: p2)
    (honce : timesStarted (natText i) pre ≤ 1) :
    ∃ m1 size m2, p2 = m1 ++ .responded token 0 size :: .completed (natText i) :: m2 ∧
      InFlightFor (p1 ++ .dispatch (natText i) true token svc' bytes rid :: m1) token (natText i) ∧
      (HasReplies a → ∃ (c : Ctx H) (v : Val), Hearing o factory host events token 0 size c ∧
        c.log = p1 ++ .dispatch (natText i) true token svc' bytes rid :: m1 ++ [.responded token 0 size] ∧
        (o.response c svc size).1 = some v) := by
  obtain ⟨m1, status, size, m2, h1, h2⟩ := C68_answered o factory host events pre post e hlog he hfresh hend p1 p2 _
    token svc' bytes rid hsent
  generalize hbef : p1 ++ .dispatch (natText i) true token svc' bytes rid :: m1 = before at h2
  have hpre : pre = before ++ .responded token status size :: m2 := by rw [hsent, h1, ← hbef]; simp
  have hlog' : (Filter.run o factory host events).log = before ++ .responded token status size :: (m2 ++ e :: post) := by
    rw [hlog, hpre]; simp
  have hend' : ¬Ended before := fun h => hend (by rw [hpre]; exact List.mem_append_left _ h)
  -- a failed call ends the request
  have nofail : ∀ rest, m2 ++ e :: post ≠ .callFailed (natText i) :: rest := by
    intro rest hr
    have hl2 : (Filter.run o factory host events).log =
        (before ++ [.responded token status size]) ++ .callFailed (natText i) :: rest := by
      rw [hlog', hr]; simp
    have hcount : timesStarted (natText i) (before ++ [.responded token status size]) ≤ 1 := by
      refine Nat.le_trans ?_ honce
      have hp : pre = (before ++ [.responded token status size]) ++ m2 := by rw [hpre]; simp
      rw [hp]
      unfold timesStarted
      rw [List.countP_append (l₂ := m2)]
      exact Nat.le_add_right _ _
    obtain ⟨hd, acc, rest', hr'⟩ := C08_fails_closed o parse cfg factory host s hs i a ha hm events _ _ hl2 hcount
    obtain ⟨mid, hmid⟩ := before_going (l := [.callFailed (natText i), .errors, .denied,
      .reply 500 hd (some "Internal Server Error.\n".toList) acc, .ended]) (r := rest') (by rw [hr, hr']; rfl) he
      (by simp [Effect.isPipe])
    apply hend
    rw [hpre, hmid]
    simp [Ended]
  have hst : status = 0 := by
    apply Classical.byContradiction
    intro hne
    obtain ⟨rest, hr⟩ := C08_error_status o factory host events before _ token status size _ hlog' hne h2 hend'
    exact nofail rest hr
  subst hst
  rcases processed_run o parse cfg factory host s hs i a ha pred msg svc hcallOf events before _ token 0 size hlog' h2
    hend' with ⟨rest, hr⟩ | ⟨rest, hr⟩
  · obtain ⟨mid, hmid⟩ := before_going (l := [.completed (natText i)]) (r := rest) hr he (by simp [Effect.isPipe])
    refine ⟨m1, size, mid, by rw [h1, hmid]; rfl, by rw [hbef]; exact h2, fun hrep => ?_⟩
    apply Classical.byContradiction
    intro hno
    obtain ⟨rest', hr'⟩ := C08_undecodable o parse cfg factory host s hs i a ha pred msg svc hcallOf hrep events before
      _ token size hlog' h2 hend' (fun c hR hc => by
        cases hv : (o.response c svc size).1 with
        | none => rfl
        | some v => exact absurd ⟨c, v, hR, by rw [hc, ← hbef], hv⟩ hno)
    exact nofail rest' hr'
  · exact absurd hr (nofail rest)

/-- The hypotheses of `C68_success` hold. -/
example : ∃ p1 p2 post svc bytes rid m1 size m2,
    Demo.request gated gatedEvents = (p1 ++ .dispatch (natText 0) true 0 svc bytes rid :: p2) ++ .resumeRequest :: post ∧
    p2 = m1 ++ .responded 0 0 size :: .completed (natText 0) :: m2 := by
  obtain ⟨svc, bytes, rid, h2⟩ := gated_sent
  have h13 := gated_going
  obtain ⟨l2, h2⟩ := List.getElem?_eq_some_iff.1 h2
  obtain ⟨l13, h13⟩ := List.getElem?_eq_some_iff.1 h13
  obtain ⟨hap, hpre⟩ := apart _ 2 13 (by omega) l13
  rw [h13] at hap
  rw [h2] at hpre
  have hfresh : Fresh ((Demo.request gated gatedEvents).take 13) := fresh_of_check (by decide +kernel)
  have hend : ¬Ended ((Demo.request gated gatedEvents).take 13) := not_ended _ (by decide +kernel)
  have honce : timesStarted (natText 0) ((Demo.request gated gatedEvents).take 13) ≤ 1 := by decide +kernel
  obtain ⟨m1, sz, m2, g1, _⟩ := C68_success Demo.world Demo.parse _ _ 0 _
    (demo_served gated (by decide +kernel) ⟨_, rfl⟩) 0 (Demo.grpc "deny" [Demo.headers]) rfl ⟨_, _, rfl⟩
    (Demo.const (.bool true)) (Demo.const .null) (Demo.svc "deny") ⟨rfl, rfl, _, _, rfl⟩
    gatedEvents _ _ _ hap (.inl rfl) hfresh hend _ _ _ _ _ _ hpre honce
  exact ⟨_, _, _, svc, bytes, rid, m1, sz, m2, by rw [← hpre]; exact hap, g1⟩

/-- A guard action that waits for another action that is no guard holds nothing: the request goes on first. The guard
call is sent later, and its refusal comes too late. -/
theorem C68_late_guard : ∃ (cfg : PluginConfig) (factory : Factory) (events : List (Event Nat)),
    Factory.tryFrom Demo.parse cfg = some factory ∧
    Demo.view (Filter.run Demo.world factory 0 events).log =
      ["hits", "start 0", "call 0 token 0", "continue", "response 0 status 0", "completed 0", "start 1",
        "call 1 guard token 1", "response 1 status 14", "call failed 1", "errors", "denied", "reply 500", "ended"] :=
  ⟨Demo.config [Demo.grpc "allow" (guard := false) (sequential := true), Demo.grpc "deny"], _,
    [.grpcResponse 1 0 0 0, .grpcResponse 2 1 14 0], Demo.factory_eq _ (by decide +kernel), by decide +kernel⟩

/-- Nor does a guard action that waits for data of the request body: the request headers go on before it is
decided. -/
theorem C68_body_guard : ∃ (cfg : PluginConfig) (factory : Factory) (events : List (Event Nat)),
    Factory.tryFrom Demo.parse cfg = some factory ∧
    Demo.view (Filter.run Demo.world factory 0 events).log = ["hits", "start 0", "continue", "start 0", "continue"] :=
  ⟨Demo.config [Demo.grpc "deny" (message := "body")], _, [.requestBody 0 5 false],
    Demo.factory_eq _ (by decide +kernel), by decide +kernel⟩

/-- What is done about a reply is done at once. -/
theorem done_pipe {target : Target} {before mine : List Effect} {v : Verdict} {K : Ctx H → Prop}
    (h : v.Done o K target before mine) :
    ∀ f ∈ mine, f.isPipe = true := by
  have calm : ∀ l, Calm l → ∀ f ∈ l, f.isPipe = true := by
    intro l hl f hf
    rcases hl f hf with ⟨_, rfl⟩ | ⟨_, rfl⟩ | ⟨_, _, rfl⟩ | ⟨_, _, _, rfl⟩ <;> rfl
  have idle : ∀ l, Idle l → ∀ f ∈ l, f.isPipe = true := by
    intro l hl f hf
    rcases hl f hf with ⟨_, rfl⟩ | ⟨_, rfl⟩ <;> rfl
  have ends : ∀ st hd b l, EndsWith st hd b l → ∀ f ∈ l, f.isPipe = true := by
    rintro st hd b l ⟨t, _, rfl⟩ f hf
    simp at hf
    rcases hf with rfl | rfl | rfl <;> rfl
  intro f hf
  cases v with
  | refuse st items body =>
    obtain ⟨id, pairs, es, rfl, _, he⟩ := h
    rcases List.mem_cons.1 hf with rfl | hf
    · rfl
    · exact ends _ _ _ _ he f hf
  | fail =>
    obtain ⟨il, es, rfl, hi, he⟩ := h
    rcases List.mem_append.1 hf with hf | hf
    · exact idle _ hi f hf
    · rcases List.mem_cons.1 hf with rfl | hf
      · rfl
      · exact ends _ _ _ _ he f hf
  | proceed items =>
    obtain ⟨pairs, _, ⟨_, hc⟩ | ⟨_, a, new, b, rfl, ha, hb, _⟩⟩ := h
    · exact calm _ hc f hf
    · rcases List.mem_append.1 hf with hf | hf
      · exact calm _ ha f hf
      · rcases List.mem_cons.1 hf with rfl | hf
        · rfl
        · exact calm _ hb f hf

theorem done_proceeds {target : Target} {before mine : List Effect} {v : Verdict} {K : Ctx H → Prop}
    (h : v.Done o K target before mine)
    (hend : ¬Ended mine) : ∃ items, v = .proceed items := by
  cases v with
  | refuse st items body =>
    obtain ⟨id, pairs, es, rfl, _, t, _, rfl⟩ := h
    exact absurd (by simp [Ended]) hend
  | fail =>
    obtain ⟨il, es, rfl, hi, t, _, rfl⟩ := h
    exact absurd (by simp [Ended]) hend
  | proceed items => exact ⟨items, rfl⟩

theorem fetching_mono {o : Oracle H} {factory : Factory} {host : H} {events events' : List (Event H)}
    (hpre : events <+: events') (c : Ctx H) (h : Fetching o factory host events c) :
    Fetching o factory host events' c := by
  obtain ⟨a, h1, h2⟩ := h
  exact ⟨a, acting_mono hpre h1, h2⟩

theorem understands_mono {o : Oracle H} {K L : Ctx H → Prop} (h : ∀ c, K c → L c) {parse : Text → Option Expr} {x : Text}
    {replies : List TypedAction} {var : Text} {v : Val} {log : List Effect}
    (hu : Understands o L parse x replies var v log) : Understands o K parse x replies var v log := by
  intro j t hj text ht a e ha he
  obtain ⟨h1, h2, h3⟩ := hu j t hj text ht a e ha he
  exact ⟨h1, h2, fun w hw c hc => h3 w hw c ⟨h c hc.1, hc.2⟩⟩

theorem willing_mono {o : Oracle H} {K L : Ctx H → Prop} (h : ∀ c, K c → L c) {target : Target}
    (hw : Willing o L target) : Willing o K target :=
  ⟨fun c ⟨a, ha, hc⟩ => hw.reply c ⟨a, h a ha, hc⟩, fun c hc => hw.read c (h c hc), fun c hc => hw.write c (h c hc)⟩

theorem done_mono {o : Oracle H} {K L : Ctx H → Prop} (h : ∀ c, K c → L c) {target : Target} {before mine : List Effect}
    {v : Verdict} (hd : v.Done o K target before mine) : v.Done o L target before mine := by
  cases v with
  | refuse => exact hd
  | fail => exact hd
  | proceed items =>
    obtain ⟨pairs, h1, h2 | ⟨h2, a, new, b, h3, h4, h5, c, old, h6, h7⟩⟩ := hd
    · exact ⟨pairs, h1, .inl h2⟩
    · exact ⟨pairs, h1, .inr ⟨h2, a, new, b, h3, h4, h5, c, old, h c h6, h7⟩⟩

/-- C68: when the request goes on, the authorization service did not refuse it: each reply to a guard call that was
decoded asks for the request to proceed. What the reply asks for, headers and metadata, was done before the request
goes on. -/
theorem C68_authorized (parse : Text → Option Expr) (cfg : PluginConfig) (factory : Factory) (host : H)
    (s : ActionSet) (hs : ServedBy o parse cfg factory host s) (x : Text) (a : LegacyAction) (data : RequestData)
    (hat : At cfg.services s x (translateAuth a data))
    (kind : SvcKind) (svc : Svc) (deny : Bool) (hsvc : cfg.services a.service = some (.call kind svc deny))
    (events : List (Event H)) (pre post : List Effect) (e : Effect)
    (hlog : (Filter.run o factory host events).log = pre ++ e :: post) (he : GoesOn e) (hend : ¬Ended pre)
    (before after : List Effect) (token size : Nat) (hpre : pre = before ++ .responded token 0 size :: after)
    (hcall : InFlightFor before token x) (v : Val) (r : CheckReply) (hr : r.Is v)
    (hstatus : ∀ status items body, r.result = .denied status items body →
      ∃ code, status = some code ∧ 0 ≤ code ∧ code < 2 ^ 32)
    (hgood : ∀ c : Ctx H, Hearing o factory host events token 0 size c →
      c.log = before ++ [.responded token 0 size] → (o.response c svc size).1 = some v)
    (hcel : Understands o (Fetching o factory host events) parse x
      (authOnReply (lit "auth_response")) (lit "auth_response") v
      (before ++ [.responded token 0 size]))
    (hw : Willing o (Fetching o factory host events) .request)
    (hmeta : ∀ m, r.metadata = some m → ∃ bytes, o.toBytes m = some bytes ∧
      ∀ c : Ctx H, Fetching o factory host events c → (o.setAttr c "auth".toList bytes).1 ≠ .err) :
    ∃ items mine rest, r.verdict = .proceed items ∧ after = .completed x :: mine ++ rest ∧
      r.verdict.Done o (Fetching o factory host events) .request (before ++ [.responded token 0 size, .completed x]) mine ∧
      ∀ m, r.metadata = some m → .stored "auth".toList m ∈ mine := by
  have hlog' : (Filter.run o factory host events).log = before ++ .responded token 0 size :: (after ++ e :: post) := by
    rw [hlog, hpre]; simp
  have hend' : ¬Ended before := fun h => hend (by rw [hpre]; exact List.mem_append_left _ h)
  obtain ⟨es1, host', es2, rfl, hbefore⟩ := responded_event factory host events _ _ token 0 size hlog'
  obtain ⟨mine, rest, h1, h2, h3⟩ := C34_decided parse cfg factory host s hs x a data hat kind svc deny hsvc es1 host'
    token size before hbefore hcall hend' v r hr hstatus (fun c hR => hgood c (hearing_mono (by simp) hR))
    (understands_mono (fetching_mono (by simp)) hcel) (willing_mono (fetching_mono (by simp)) hw)
    (fun m hm => (hmeta m hm).imp fun _ h => ⟨h.1, fun c hc => h.2 c (fetching_mono (by simp) c hc)⟩)
  obtain ⟨more, hmore⟩ := run_more (o := o) factory host (es1 ++ [.grpcResponse host' token 0 size]) es2
  rw [h1, List.append_assoc es1, List.singleton_append, hlog'] at hmore
  have hsplit : after ++ e :: post = (.completed x :: mine) ++ (rest ++ more) := by
    simpa using hmore
  obtain ⟨mid, hmid⟩ := before_going hsplit he (by
    intro f hf
    rcases List.mem_cons.1 hf with rfl | hf
    · rfl
    · exact done_pipe o h2 f hf)
  obtain ⟨items, hit⟩ := done_proceeds o h2 (fun h => hend (by
    rw [hpre, hmid]
    refine List.mem_append_right _ (List.mem_cons_of_mem _ ?_)
    exact List.mem_append_left _ (List.mem_cons_of_mem _ h)))
  exact ⟨items, mine, mid, hit, hmid, done_mono (fetching_mono (by simp)) h2, fun m hm => h3 items m hit hm⟩

theorem offers_mono {o : Oracle H} {K L : Ctx H → Prop} (h : ∀ c, K c → L c) {target : Target}
    (hw : Offers o L target) : Offers o K target :=
  ⟨fun c ⟨a, ha, hc⟩ => hw.reply c ⟨a, h a ha, hc⟩, fun c hc => hw.read c (h c hc),
    fun c old g hc => hw.write c old g (h c hc)⟩

theorem undertaken_mono {o : Oracle H} {K L : Ctx H → Prop} (h : ∀ c, K c → L c) {target : Target} {id : Text}
    {before mine : List Effect} {v : Verdict} (hd : v.Undertaken o K target id before mine) :
    v.Undertaken o L target id before mine := by
  rcases hd with hd | ⟨items, pairs, h1, h2, h3, h4, a, b, h5, c, h6, h7⟩
  · exact .inl (done_mono h hd)
  · exact .inr ⟨items, pairs, h1, h2, h3, h4, a, b, h5, c, h c h6, h7⟩

theorem undertaken_pipe {target : Target} {id : Text} {before mine : List Effect} {v : Verdict} {K : Ctx H → Prop}
    (h : v.Undertaken o K target id before mine) : ∀ f ∈ mine, f.isPipe = true := by
  rcases h with h | ⟨_, _, _, _, _, h, _⟩
  · exact done_pipe o h
  · intro f hf
    rcases h f hf with ⟨_, rfl⟩ | ⟨_, rfl⟩ | ⟨_, _, rfl⟩ | ⟨_, _, _, rfl⟩ <;> rfl

theorem undertaken_proceeds {target : Target} {id : Text} {before mine : List Effect} {v : Verdict} {K : Ctx H → Prop}
    (h : v.Undertaken o K target id before mine) (hend : ¬Ended mine) : ∃ items, v = .proceed items := by
  rcases h with h | ⟨items, _, h, _⟩
  · exact done_proceeds o h hend
  · exact ⟨items, h⟩

/-- C68: when the request goes on, the rate limit service did not refuse it. -/
theorem C68_within_limit (parse : Text → Option Expr) (cfg : PluginConfig) (factory : Factory) (host : H)
    (s : ActionSet) (hs : ServedBy o parse cfg factory host s) (x : Text) (a : LegacyAction) (data : RequestData)
    (hat : At cfg.services s x (translateRatelimit a data))
    (kind : SvcKind) (svc : Svc) (deny : Bool) (hsvc : cfg.services a.service = some (.call kind svc deny))
    (events : List (Event H)) (pre post : List Effect) (e : Effect)
    (hlog : (Filter.run o factory host events).log = pre ++ e :: post) (he : GoesOn e) (hend : ¬Ended pre)
    (before after : List Effect) (token size : Nat) (hpre : pre = before ++ .responded token 0 size :: after)
    (hcall : InFlightFor before token x) (v : Val) (r : LimitReply) (hr : r.Is v)
    (hgood : ∀ c : Ctx H, Hearing o factory host events token 0 size c →
      c.log = before ++ [.responded token 0 size] → (o.response c svc size).1 = some v)
    (hcel : Understands o (Fetching o factory host events) parse x
      (ratelimitOnReply (lit "ratelimit_response")) (lit "ratelimit_response") v
      (before ++ [.responded token 0 size]))
    (hw : Offers o (Fetching o factory host events) .response) :
    r.code = 1 ∧ ∃ mine rest, after = .completed x :: mine ++ rest ∧
      r.verdict.Undertaken o (Fetching o factory host events) .response (x ++ ".1".toList) (before ++ [.responded token 0 size, .completed x]) mine := by
  have hlog' : (Filter.run o factory host events).log = before ++ .responded token 0 size :: (after ++ e :: post) := by
    rw [hlog, hpre]; simp
  have hend' : ¬Ended before := fun h => hend (by rw [hpre]; exact List.mem_append_left _ h)
  obtain ⟨es1, host', es2, rfl, hbefore⟩ := responded_event factory host events _ _ token 0 size hlog'
  obtain ⟨mine, rest, h1, h2⟩ := C35_decided parse cfg factory host s hs x a data hat kind svc deny hsvc es1 host'
    token size before hbefore hcall hend' v r hr (fun c hR => hgood c (hearing_mono (by simp) hR))
    (understands_mono (fetching_mono (by simp)) hcel) (offers_mono (fetching_mono (by simp)) hw)
  obtain ⟨more, hmore⟩ := run_more (o := o) factory host (es1 ++ [.grpcResponse host' token 0 size]) es2
  rw [h1, List.append_assoc es1, List.singleton_append, hlog'] at hmore
  have hsplit : after ++ e :: post = (.completed x :: mine) ++ (rest ++ more) := by
    simpa using hmore
  obtain ⟨mid, hmid⟩ := before_going hsplit he (by
    intro f hf
    rcases List.mem_cons.1 hf with rfl | hf
    · rfl
    · exact undertaken_pipe o h2 f hf)
  obtain ⟨items, hit⟩ := undertaken_proceeds o h2 (fun h => hend (by
    rw [hpre, hmid]
    refine List.mem_append_right _ (List.mem_cons_of_mem _ ?_)
    exact List.mem_append_left _ (List.mem_cons_of_mem _ h)))
  refine ⟨?_, mine, mid, hmid, undertaken_mono (fetching_mono (by simp)) h2⟩
  unfold LimitReply.verdict at hit
  split at hit
  · cases hit
  · split at hit
    · assumption
    · cases hit

/-! ### Examples -/

theorem at_resume (l : List Effect) (n : Nat) (h : (match l[n]? with
    | some .resumeRequest => true
    | _ => false) = true) : l[n]? = some .resumeRequest := by
  split at h
  · assumption
  · cases h

theorem at_responded (l : List Effect) (n t s z : Nat) (h : (match l[n]? with
    | some (.responded t' s' z') => decide (t' = t) && decide (s' = s) && decide (z' = z)
    | _ => false) = true) : l[n]? = some (.responded t s z) := by
  split at h
  · rename_i hl
    simp only [Bool.and_eq_true, decide_eq_true_eq] at h
    obtain ⟨⟨rfl, rfl⟩, rfl⟩ := h
    exact hl
  · cases h

open VerdictDemo in
/-- A request that is resumed when the response to its only call has arrived. -/
theorem demo_resumed (service : String) (v : Val) (n : Nat) (hn : 4 < n)
    (h1 : (request service v []).length = 4)
    (h2 : (match ((request service v [.grpcResponse 1 0 0 7])[n]? : Option Effect) with
      | some .resumeRequest => true
      | _ => false) = true)
    (h3 : (match ((request service v [.grpcResponse 1 0 0 7])[4]? : Option Effect) with
      | some (.responded t' s' z') => decide (t' = 0) && decide (s' = 0) && decide (z' = 7)
      | _ => false) = true)
    (h4 : ((request service v [.grpcResponse 1 0 0 7]).take n).all (fun | .ended => false | _ => true) = true) :
    ∃ pre after post, request service v [.grpcResponse 1 0 0 7] = pre ++ .resumeRequest :: post ∧
      pre = request service v [] ++ .responded 0 0 7 :: after ∧ ¬Ended pre := by
  obtain ⟨l13, h13⟩ := List.getElem?_eq_some_iff.1 (at_resume _ _ h2)
  obtain ⟨l4, h4'⟩ := List.getElem?_eq_some_iff.1 (at_responded _ _ _ _ _ h3)
  obtain ⟨hap, hpre⟩ := apart _ 4 n hn l13
  rw [h13] at hap
  rw [h4'] at hpre
  have hbefore : (request service v [.grpcResponse 1 0 0 7]).take 4 = request service v [] := by
    obtain ⟨more, hm⟩ := run_more (o := world v) (factory service) 0 [] [.grpcResponse 1 0 0 7]
    rw [request, ← List.nil_append [Event.grpcResponse 1 0 0 7], hm]
    exact List.take_left' h1
  rw [hbefore] at hpre
  exact ⟨_, _, _, hap, hpre, not_ended _ h4⟩

open VerdictDemo in
/-- The hypotheses of `C68_within_limit` hold of a request that is resumed. -/
example : (limitReply 1).code = 1 := by
  have h : ready "limit" (limitMessage 1) = true := by decide +kernel
  obtain ⟨pre, after, post, h1, h2, h3⟩ := demo_resumed "limit" (limitMessage 1) 11 (by omega) (by decide +kernel)
    (by decide +kernel) (by decide +kernel) (by decide +kernel)
  exact (C68_within_limit _ _ _ _ _ _ (ready_served h) "0".toList (action "limit") [] limit_at _ _ _ rfl
    [.grpcResponse 1 0 0 7] _ _ _ h1 (.inl rfl) h3 _ _ 0 7 h2 (ready_inFlight h) _ _ (limit_is 1)
    (fun _ _ _ => rfl) (limit_understands _ _ _) (offers _ _ _)).1

open VerdictDemo in
/-- The hypotheses of `C68_authorized` hold of a request that is resumed. -/
example : ∃ items, (approval []).verdict = .proceed items := by
  have h : ready "auth" (okMessage []) = true := by decide +kernel
  obtain ⟨pre, after, post, h1, h2, h3⟩ := demo_resumed "auth" (okMessage []) 19 (by omega) (by decide +kernel)
    (by decide +kernel) (by decide +kernel) (by decide +kernel)
  obtain ⟨items, _, _, hi, _⟩ := C68_authorized _ _ _ _ _ _ (ready_served h) "0".toList (action "auth") [] auth_at _ _ _ rfl
    [.grpcResponse 1 0 0 7] _ _ _ h1 (.inl rfl) h3 _ _ 0 7 h2 (ready_inFlight h) _ _ (approval_is [])
    (by intro _ _ _ hd; cases hd) (fun _ _ _ => rfl) (auth_understands _ _ _) (willing _ _)
    (fun m _ => ⟨[], rfl, fun _ _ => by simp [world, Demo.world]⟩)
  exact ⟨items, hi⟩

end Verif.Props
