import Verif.Lemmas.Truth
import Verif.Lemmas.Callback
import Verif.Props.Once
/-!
C10: reply actions run once, in order, before other queued actions, and see the response.
-/
set_option linter.unusedSimpArgs false
namespace Verif.Props
open Verif Verif.Spec

variable {H : Type} {o : Oracle H}

/-- C10: when the response of a call in flight has success status and can be decoded, the callback goes on with
the reply actions, in declared order and each once. Either all of them are started, and none of them is started
again by the rest of the callback, or one of them ends the request, and nothing else is started. -/
theorem C10_order (parse : Text → Option Expr) (cfg : PluginConfig) (factory : Factory) (host : H)
    (s : ActionSet) (hs : ServedBy o parse cfg factory host s) (x : Text) (head : TypedHead)
    (service var message : Text) (replies : List TypedAction)
    (hat : At cfg.services s x (.grpc head service var message replies)) (hne : replies ≠ [])
    (kind : SvcKind) (svc : Svc) (deny : Bool) (hsvc : cfg.services service = some (.call kind svc deny))
    (events : List (Event H)) (host' : H) (token size : Nat) (before : List Effect)
    (hbefore : (Filter.run o factory host events).log = before)
    (hcall : InFlightFor before token x) (hend : ¬Ended before)
    (hgood : ∀ c : Ctx H, Hearing o factory host (events ++ [.grpcResponse host' token 0 size]) token 0 size c →
      c.log = before ++ [.responded token 0 size] → (o.response c svc size).1.isSome = true) :
    ∃ mine rest, (Filter.run o factory host (events ++ [.grpcResponse host' token 0 size])).log =
        before ++ [.responded token 0 size, .completed x] ++ mine ++ rest ∧
      ((started mine = replyIds x replies.length ∧ ¬Ended mine ∧ ∀ id ∈ replyIds x replies.length, id ∉ started rest) ∨
       (∃ n ≤ replies.length, started mine = replyIds x n ∧ mine.getLast? = some .ended ∧ started rest = [])) := by
  subst hbefore
  obtain ⟨p, ts, rest, v, tail, hans, hlog, htail⟩ :=
    answer_step hs hat hsvc hne events host' token size hcall hend hgood
  have hids : ts.map PTask.id = replyIds x replies.length := by
    rw [← hans.kids.ids, List.map_map]
    exact List.map_congr_left fun t _ => (strip_id t).symm
  have hdeps : ∀ t ∈ ts, t.deps = [] := by
    intro t ht
    rw [← strip_deps]
    exact hans.kids.deps (List.mem_map.2 ⟨t, ht, rfl⟩)
  have hlen : ts.length = replies.length := by
    have := hans.kids.len
    simpa using this
  have htl : started tail = [] := started_nil_of fun y hy => by simpa [Effect.isTail] using htail _ hy
  obtain ⟨seg, hseg, hcase⟩ := front_order (o := o) p ts hdeps
  rw [processTasks_append] at hlog
  generalize hr : Pipe.processTasks o p ts = r at hseg hcase hlog
  obtain ⟨q, stopped⟩ := r
  rcases hcase with ⟨h1, h2, h3⟩ | ⟨h1, n, hn, h2, seg', h3, h4⟩
  · replace h1 : stopped = false := h1
    subst h1
    obtain ⟨more, h4, h5⟩ := processTasks_started (o := o) q rest
    refine ⟨seg, more ++ tail, ?_, .inl ⟨by rw [h2, hids], h3, ?_⟩⟩
    · rw [hlog]
      dsimp only
      rw [h4, hseg, hans.log]
      simp
    · intro id hid hm
      rw [started_append, htl, List.append_nil] at hm
      obtain ⟨t, ht, rfl⟩ := h5 id hm
      unfold replyIds at hid
      obtain ⟨j, hj, heq⟩ := List.mem_map.1 hid
      exact hans.rest t ht j (by simpa using hj) heq.symm
  · replace h1 : stopped = true := h1
    subst h1
    refine ⟨seg, tail, ?_, .inr ⟨n, by omega, ?_, by rw [h3]; simp, htl⟩⟩
    · rw [hlog]
      dsimp only
      rw [hseg, hans.log]
    · rw [h2, hids]
      unfold replyIds
      rw [← List.map_take, List.take_range, Nat.min_eq_left (by omega)]

/-- C10: whenever a reply action is started, a response of its call with success status was decoded, and the action
is evaluated in a scope in which the configured variable has the decoded value. -/
theorem C10_visible (parse : Text → Option Expr) (cfg : PluginConfig) (factory : Factory) (host : H)
    (s : ActionSet) (hs : ServedBy o parse cfg factory host s) (x : Text) (head : TypedHead)
    (service var message : Text) (replies : List TypedAction)
    (hat : At cfg.services s x (.grpc head service var message replies))
    (kind : SvcKind) (svc : Svc) (deny : Bool) (hsvc : cfg.services service = some (.call kind svc deny))
    (j : Nat) (t : TypedAction) (hj : replies[j]? = some t) (events : List (Event H)) (pre post : List Effect)
    (hlog : (Filter.run o factory host events).log = pre ++ .applied (x ++ '.' :: natText j) :: post) :
    ∃ v, Heard o (Hearing o factory host events) x svc v pre ∧
      ∃ (c : Ctx H) (task : Core) (es rest : List Effect), Acting o factory host events c ∧
      c.log = pre ++ [.applied (x ++ '.' :: natText j)] ∧ task.id = x ++ '.' :: natText j ∧
      (scopeVars c.bindings (x ++ '.' :: natText j)).lookup var = some v ∧
      (task.apply o c).2.log = c.log ++ es ∧ post = es ++ rest := by
  refine bound_run (o := o) hs hat hsvc hj (R := fun _ => True) ⟨by simp, by simp, by simp⟩ (by simp) (by simp)
    (events := events) (Q := fun pre post => ∃ v, Heard o (Hearing o factory host events) x svc v pre ∧
      ∃ (c : Ctx H) (task : Core) (es rest : List Effect), Acting o factory host events c ∧
      c.log = pre ++ [.applied (x ++ '.' :: natText j)] ∧ task.id = x ++ '.' :: natText j ∧
      (scopeVars c.bindings (x ++ '.' :: natText j)).lookup var = some v ∧
      (task.apply o c).2.log = c.log ++ es ∧ post = es ++ rest) ?_ ?_ pre post hlog
  · rintro pre post es ⟨v, h1, c, task, es', rest, h0, h2, h3, h4, h5, h6⟩
    exact ⟨v, h1, c, task, es', rest ++ es, h0, h2, h3, h4, h5, by rw [h6]; simp⟩
  · intro k c es w fs _ hid _ hac hh hl hap _
    exact ⟨w, hh, c.push (.applied (x ++ '.' :: natText j)), k, es, fs, hac, rfl, hid, hl, hap, rfl⟩

/-- C10: a reply action whose predicate is false of the response is skipped. -/
theorem C10_skipped (parse : Text → Option Expr) (cfg : PluginConfig) (factory : Factory) (host : H)
    (s : ActionSet) (hs : ServedBy o parse cfg factory host s) (x : Text) (head : TypedHead)
    (service var message : Text) (replies : List TypedAction)
    (hat : At cfg.services s x (.grpc head service var message replies))
    (kind : SvcKind) (svc : Svc) (deny : Bool) (hsvc : cfg.services service = some (.call kind svc deny))
    (j : Nat) (t : TypedAction) (hj : replies[j]? = some t) (hstore : ∀ h path value e, t ≠ .store h path value e)
    (pred : Expr) (hpred : parse t.head.predicate = some pred) (events : List (Event H)) (pre post : List Effect)
    (hlog : (Filter.run o factory host events).log = pre ++ .applied (x ++ '.' :: natText j) :: post)
    (hfalse : ∀ (c : Ctx H) v, Acting o factory host events c → c.log = pre ++ [.applied (x ++ '.' :: natText j)] →
      Heard o (Hearing o factory host events) x svc v pre →
      (scopeVars c.bindings (x ++ '.' :: natText j)).lookup var = some v →
      (tests o c (x ++ '.' :: natText j) pred).1 = .available false) :
    ∃ rest, post = .completed (x ++ '.' :: natText j) :: rest := by
  refine bound_run (o := o) hs hat hsvc hj (conditional_closed (x ++ '.' :: natText j) pred) ?_ ?_
    (Q := fun pre post => (∀ (c : Ctx H) v, Acting o factory host events c → c.log = pre ++ [.applied (x ++ '.' :: natText j)] →
      Heard o (Hearing o factory host events) x svc v pre →
      (scopeVars c.bindings (x ++ '.' :: natText j)).lookup var = some v →
      (tests o c (x ++ '.' :: natText j) pred).1 = .available false) →
      ∃ rest, post = .completed (x ++ '.' :: natText j) :: rest) ?_ ?_ pre post hlog hfalse
  · intro y deps k hco hm _ hw
    cases hco with
    | store => exact absurd rfl (hstore _ _ _ _)
    | grpc _ _ _ _ _ _ pred' _ _ _ _ _ hp =>
      obtain rfl := Option.some.inj (hp.symm.trans hpred)
      cases hm with
      | call => rfl
    | deny _ _ _ _ _ hp =>
      obtain rfl := Option.some.inj (hp.symm.trans hpred)
      cases hm
      rfl
    | headers _ _ _ _ _ _ hp =>
      obtain rfl := Option.some.inj (hp.symm.trans hpred)
      cases hm
      rfl
    | fail _ _ _ hp =>
      obtain rfl := Option.some.inj (hp.symm.trans hpred)
      cases hm
      rfl
  · intro k hk hid
    exact absurd hid hk
  · rintro pre post es h hf
    obtain ⟨rest, h⟩ := h hf
    exact ⟨rest ++ es, by rw [h]; rfl⟩
  · intro k c es w fs hk hid hw hac hh hl hap hms hf
    have hc := hk hid hw
    have h1 := hf (c.push (.applied (x ++ '.' :: natText j))) w hac rfl hh hl
    rw [← testPred_tests, ← hid] at h1
    rw [← hid] at hap hms
    obtain ⟨h2, h3⟩ := conditional_false hc _ h1
    rw [h2] at hms
    rw [hap] at h3
    have h4 : es = [] := by
      have h5 : c.log ++ [Effect.applied k.id] ++ es = c.log ++ [.applied k.id] ++ [] := by rw [h3]; simp [Ctx.push]
      exact List.append_cancel_left h5
    replace hms : fs = [.completed k.id] := hms
    exact ⟨[], by rw [h4, hms, hid]; rfl⟩

/-- A call with two reply actions and a later action that waits for it. -/
def answered : List ActionConfig :=
  [Demo.grpc "deny" [Demo.headers, Demo.deny "false"], Demo.grpc "allow" (sequential := true)]

/-- The reply actions come before the waiting action. -/
example : Demo.view (Demo.request answered [.grpcResponse 1 0 0 0]) =
    ["hits", "start 0", "call 0 guard token 0", "pause", "response 0 status 0", "completed 0",
      "start 0.0", "headers x=1", "completed 0.0", "start 0.1", "completed 0.1", "start 1",
      "call 1 guard token 1"] := by
  decide +kernel

/-- The second reply action ends the request. -/
example : Demo.view (Demo.request [Demo.grpc "deny" [Demo.headers, Demo.deny, Demo.headers], Demo.grpc "allow"]
      [.grpcResponse 2 0 0 0]) =
    ["hits", "start 0", "call 0 guard token 0", "start 1", "call 1 guard token 1", "pause",
      "response 0 status 0", "completed 0", "start 0.0", "headers x=1", "completed 0.0", "start 0.1", "denied",
      "reply 403", "ended"] := by
  decide +kernel

/-- Finding a call in flight in a concrete history. -/
theorem inFlight_at (l : List Effect) (n token : Nat) (id : Text)
    (h : (match l[n]? with
      | some (.dispatch i _ t ..) => decide (i = id) && decide (t = token)
      | _ => false) = true)
    (hrest : (l.drop (n + 1)).all (fun e => decide (sentToken e ≠ some token) && match e with
      | .responded t .. => decide (t ≠ token)
      | _ => true) = true) : InFlightFor l token id := by
  split at h
  · rename_i i g t svc bytes rid hl
    simp only [Bool.and_eq_true, decide_eq_true_eq] at h
    obtain ⟨rfl, rfl⟩ := h
    obtain ⟨hn, hl⟩ := List.getElem?_eq_some_iff.1 hl
    rw [List.all_eq_true] at hrest
    refine ⟨l.take n, g, svc, bytes, rid, l.drop (n + 1), ?_, ?_, ?_⟩
    · rw [← hl, ← List.drop_eq_getElem_cons hn, List.take_append_drop]
    · intro s z hm
      have := hrest _ hm
      simp at this
    · intro e he
      have := hrest _ he
      simp only [Bool.and_eq_true, decide_eq_true_eq] at this
      exact this.1
  · cases h

theorem not_ended (l : List Effect) (h : l.all (fun | .ended => false | _ => true) = true) : ¬Ended l := by
  intro he
  rw [List.all_eq_true] at h
  exact absurd (h _ he) (by simp)

/-- The hypotheses of `C10_order` hold. -/
example : ∃ mine rest, Demo.request answered [.grpcResponse 1 0 0 7] =
      Demo.request answered [] ++ [.responded 0 0 7, .completed "0".toList] ++ mine ++ rest ∧
    ((started mine = replyIds "0".toList 2 ∧ ¬Ended mine ∧ ∀ id ∈ replyIds "0".toList 2, id ∉ started rest) ∨
      (∃ n ≤ 2, started mine = replyIds "0".toList n ∧ mine.getLast? = some .ended ∧ started rest = [])) := by
  have hs := demo_served answered (by decide +kernel) ⟨_, rfl⟩
  refine C10_order _ _ _ _ _ hs "0".toList _ _ _ _ _ (.top (i := 0) rfl rfl) (by decide) _ _ _ rfl [] 1 0 7 _ rfl
    (inFlight_at _ 2 0 _ (by decide +kernel) (by decide +kernel)) (not_ended _ (by decide +kernel)) (fun c _ _ => rfl)

/-- The hypotheses of `C10_visible` and `C10_skipped` hold of the second reply action. -/
example : ∃ pre post, Demo.request answered [.grpcResponse 1 0 0 7] = pre ++ .applied "0.1".toList :: post ∧
    Heard Demo.world (Hearing Demo.world (Demo.factory (Demo.config answered)) 0 [.grpcResponse 1 0 0 7]) "0".toList (Demo.svc "deny") .null pre ∧ ∃ rest, post = .completed "0.1".toList :: rest := by
  have hs := demo_served answered (by decide +kernel) ⟨_, rfl⟩
  refine ⟨_, _, applied_at _ 9 "0.1".toList (by decide +kernel), ?_, ?_⟩
  · obtain ⟨v, h1, _⟩ := C10_visible _ _ _ _ _ hs "0".toList _ _ _ _ _ (.top (i := 0) rfl rfl) _ _ _ rfl 1 _ rfl
      [.grpcResponse 1 0 0 7] _ _ (applied_at _ 9 "0.1".toList (by decide +kernel))
    have : v = .null := by
      obtain ⟨_, _, _, _, _, _, c, _, _, h⟩ := h1
      exact (Option.some.inj h).symm
    rwa [this] at h1
  · exact C10_skipped _ _ _ _ _ hs "0".toList _ _ _ _ _ (.top (i := 0) rfl rfl) _ _ _ rfl 1 _ rfl
      (by intros; simp [Demo.deny]) (Demo.const (.bool false)) rfl
      [.grpcResponse 1 0 0 7] _ _ (applied_at _ 9 "0.1".toList (by decide +kernel)) (fun _ _ _ _ _ _ => rfl)

end Verif.Props
