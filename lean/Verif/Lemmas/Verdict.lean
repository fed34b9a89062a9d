import Verif.Lemmas.Callback
import Verif.Lemmas.ReplyValues
/-! Stepping through reply actions whose expressions have values. -/
set_option linter.unusedSimpArgs false
namespace Verif
open Spec

variable {H : Type} {o : Oracle H}

theorem testPred_of {c : Ctx H} {id : Text} {e : Expr} {b : Bool}
    (h : (evalExpr o c id e).1 = .available (.bool b)) :
    testPred o c id e = (.available b, (evalExpr o c id e).2) := by
  unfold testPred
  generalize evalExpr o c id e = r at h
  obtain ⟨a, c'⟩ := r
  replace h : a = _ := h
  subst h
  rfl

theorem evalExpr_of {c : Ctx H} {id : Text} {e : Expr} {v : Val}
    (h : (evalExpr o c id e).1 = .available v) :
    evalExpr o c id e = (.available v, (evalExpr o c id e).2) := by
  rw [← h]

theorem traced_done {k : Core} {t : PTask} (h : Traced k t) {c c' : Ctx H} (ha : k.apply o c = (.done, c')) :
    t.apply o c = (.done, c') := by
  induction h with
  | core => exact ha
  | tracing h ih => rw [PTask.apply, ih]

theorem traced_failed {k : Core} {t : PTask} (h : Traced k t) {c c' : Ctx H} (ha : k.apply o c = (.failed, c')) :
    t.apply o c = (.failed, c') := by
  induction h with
  | core => exact ha
  | tracing h ih => rw [PTask.apply, ih]

theorem traced_terminate {k k' : Core} {t : PTask} (h : Traced k t) {c c' : Ctx H}
    (ha : k.apply o c = (.terminate (.core k'), c')) : ∃ t', Traced k' t' ∧ t.apply o c = (.terminate t', c') := by
  induction h with
  | core => exact ⟨_, .core, ha⟩
  | tracing h ih =>
    obtain ⟨t', h1, h2⟩ := ih
    exact ⟨_, .tracing h1, by rw [PTask.apply, h2]⟩

theorem traced_requeued {k : Core} {t : PTask} (h : Traced k t) {c c' : Ctx H} {ts : List PTask}
    (ha : k.apply o c = (.requeued ts, c')) : ∃ ts', t.apply o c = (.requeued ts', c') := by
  induction h with
  | core => exact ⟨_, ha⟩
  | tracing h ih =>
    obtain ⟨ts', h1⟩ := ih
    exact ⟨_, by rw [PTask.apply, h1]⟩

theorem traced_id {k : Core} {t : PTask} (h : Traced k t) : t.id = k.id := by
  rw [← strip_id, traced_strip h]

theorem traced_deps {k : Core} {t : PTask} (h : Traced k t) : t.deps = k.deps := by
  rw [← strip_deps, traced_strip h]

/-- A reply action that is done. -/
theorem proc_done {p : Pipe H} {k : Core} {t : PTask} (ts : List PTask) (ht : Traced k t) (hd : k.deps = [])
    {c' : Ctx H} (h : k.apply o (p.ctx.push (.applied k.id)) = (.done, c')) :
    Pipe.processTasks o p (t :: ts) = Pipe.processTasks o (Pipe.complete { p with ctx := c' } k.id) ts := by
  rw [Pipe.processTasks, traced_deps ht, hd]
  simp only [List.any_nil, Bool.false_eq_true, if_false]
  rw [traced_id ht, traced_done ht h]

/-- A reply action that fails. -/
theorem proc_failed {p : Pipe H} {k : Core} {t : PTask} (ts : List PTask) (ht : Traced k t) (hd : k.deps = [])
    {c' : Ctx H} (h : k.apply o (p.ctx.push (.applied k.id)) = (.failed, c')) :
    Pipe.processTasks o p (t :: ts) = Pipe.processTasks o (Pipe.push { p with ctx := c' } (.failed k.id)) ts := by
  rw [Pipe.processTasks, traced_deps ht, hd]
  simp only [List.any_nil, Bool.false_eq_true, if_false]
  rw [traced_id ht, traced_failed ht h]

theorem turns_done {p : Pipe H} {k : Core} {t : PTask} (ts : List PTask) (ht : Traced k t) (hd : k.deps = [])
    {c' : Ctx H} (h : k.apply o (p.ctx.push (.applied k.id)) = (.done, c')) :
    ∃ a, Pipe.turns o p (t :: ts) = a ++ Pipe.turns o (Pipe.complete { p with ctx := c' } k.id) ts := by
  rw [Pipe.turns, traced_deps ht, hd]
  simp only [List.any_nil, Bool.false_eq_true, if_false]
  rw [traced_id ht, traced_done ht h]
  exact ⟨[_], rfl⟩

theorem turns_failed {p : Pipe H} {k : Core} {t : PTask} (ts : List PTask) (ht : Traced k t) (hd : k.deps = [])
    {c' : Ctx H} (h : k.apply o (p.ctx.push (.applied k.id)) = (.failed, c')) :
    ∃ a, Pipe.turns o p (t :: ts) = a ++ Pipe.turns o (Pipe.push { p with ctx := c' } (.failed k.id)) ts := by
  rw [Pipe.turns, traced_deps ht, hd]
  simp only [List.any_nil, Bool.false_eq_true, if_false]
  rw [traced_id ht, traced_failed ht h]
  exact ⟨[_], rfl⟩

/-- A reply action that ends the request. -/
theorem proc_end {p : Pipe H} {k k' : Core} {t : PTask} (ts : List PTask) (ht : Traced k t) (hd : k.deps = [])
    {c' : Ctx H} (h : k.apply o (p.ctx.push (.applied k.id)) = (.terminate (.core k'), c')) :
    ∃ q, Pipe.processTasks o p (t :: ts) = (q, true) ∧ q.ctx.log = (k'.apply o c').2.log ++ [.ended] := by
  obtain ⟨t', h1, h2⟩ := traced_terminate ht h
  rw [Pipe.processTasks, traced_deps ht, hd]
  simp only [List.any_nil, Bool.false_eq_true, if_false]
  rw [traced_id ht, h2]
  refine ⟨_, rfl, ?_⟩
  simp only [Pipe.terminate, Pipe.push, Ctx.push, traced_log h1]

/-! ### Single actions -/

theorem tracker_quiet (c : Ctx H) : Quiet c (tracker o c).2 := by
  unfold tracker
  split
  · exact .refl c
  · exact requestId_quiet o c

theorem withTracker_extra (hs : Headers) (t : Option (Text × Text)) :
    ∃ extra : Headers, extra.length ≤ 1 ∧ withTracker hs t = hs ++ extra := by
  cases t with
  | none => exact ⟨[], by simp, by simp [withTracker]⟩
  | some p => exact ⟨[p], by simp, by simp [withTracker]⟩

theorem finishReply_accepted (c : Ctx H)
    (hacc : ∀ st hs b, (o.sendReply ((tracker o c).2.push .denied) st hs b).1 = true)
    (fields : List (Text × Val)) (terminal : Bool) :
    ∃ c', finishReply o c fields terminal = (if terminal then .terminate (.core .noopTerminal) else .done, c') ∧
      ∃ tracking : Headers, tracking.length ≤ 1 ∧ c'.log = c.log ++
        [.denied, .reply (readDeny fields).1 ((readDeny fields).2.1 ++ tracking) (readDeny fields).2.2 true] := by
  obtain ⟨extra, h3, h4⟩ := withTracker_extra (readDeny fields).2.1 (tracker o c).1
  have h6 := (tracker_quiet (o := o) c).log
  unfold finishReply
  simp only [hacc, if_true]
  refine ⟨_, (by cases terminal <;> rfl), extra, h3, ?_⟩
  simp only [Ctx.push, Ctx.withHost, h6, h4]
  simp

theorem default_accepted (c : Ctx H)
    (hacc : ∀ st hs b, (o.sendReply ((tracker o c).2.push .denied) st hs b).1 = true) :
    ∃ tracking : Headers, tracking.length ≤ 1 ∧ (defaultCore.apply o c).2.log =
        c.log ++ [.denied, .reply 500 tracking (some defaultBody) true] := by
  have h5 : defaultCore.apply o c = finishReply o c
      [("status".toList, .uint 500), ("headers".toList, .list []), ("body".toList, .str defaultBody)] false := rfl
  have hd : readDeny [("status".toList, .uint 500), ("headers".toList, .list []),
      ("body".toList, .str defaultBody)] = (500, [], some defaultBody) := by decide
  obtain ⟨c', h1, extra, h2, h3⟩ := finishReply_accepted c hacc
    [("status".toList, .uint 500), ("headers".toList, .list []), ("body".toList, .str defaultBody)] false
  rw [hd] at h3
  rw [h5, h1]
  exact ⟨extra, h2, h3⟩

section
variable {c : Ctx H} {id : Text} {pred e : Expr}

theorem sendReply_skip {terminal : Bool} (hp : (evalExpr o c id pred).1 = .available (.bool false)) :
    ∃ c', Core.apply o c (.sendReply id pred e terminal) = (.done, c') ∧ Quiet c c' := by
  refine ⟨_, ?_, evalExpr_quiet o c id pred⟩
  show applySendReply o c id pred e terminal = _
  unfold applySendReply
  rw [testPred_of hp]

theorem headers_skip {target : Target} {terminal : Bool} (hp : (evalExpr o c id pred).1 = .available (.bool false)) :
    ∃ c', Core.apply o c (.headers id pred e target terminal) = (.done, c') ∧ Quiet c c' := by
  refine ⟨_, ?_, evalExpr_quiet o c id pred⟩
  show applyHeaders o c id pred e target terminal = _
  unfold applyHeaders
  rw [testPred_of hp]

theorem fail_skip {terminal : Bool} (hp : (evalExpr o c id pred).1 = .available (.bool false)) :
    ∃ c', Core.apply o c (.fail id pred terminal) = (.done, c') ∧ Quiet c c' := by
  refine ⟨_, ?_, evalExpr_quiet o c id pred⟩
  show applyFail o c id pred terminal = _
  unfold applyFail
  rw [testPred_of hp]

theorem store_skip {path : Text} {x terminal : Bool} (hp : (evalExpr o c id pred).1 = .available (.bool false)) :
    ∃ c', Core.apply o c (.store id pred e path x terminal .notNeeded) = (.done, c') ∧ Quiet c c' := by
  refine ⟨_, ?_, evalExpr_quiet o c id pred⟩
  show applyStore o c id pred e path x terminal .notNeeded = _
  unfold applyStore
  rw [storeBody]
  dsimp only
  rw [testPred_of hp]

/-- A failure that is not terminal. -/
theorem fail_mild (b : Bool) (hp : (evalExpr o c id pred).1 = .available (.bool b)) :
    ∃ c', Core.apply o c (.fail id pred false) = (.done, c') ∧ Quiet c c' := by
  refine ⟨_, ?_, evalExpr_quiet o c id pred⟩
  show applyFail o c id pred false = _
  unfold applyFail
  rw [testPred_of hp]
  cases b <;> rfl

theorem fail_ends (hp : (evalExpr o c id pred).1 = .available (.bool true))
    (hacc : ∀ a, Asked o c a → ∀ st hs b, (o.sendReply ((tracker o (a.push .errors)).2.push .denied) st hs b).1 = true) :
    ∃ c', Core.apply o c (.fail id pred true) = (.terminate (.core defaultCore), c') ∧
      ∃ tracking : Headers, tracking.length ≤ 1 ∧ (defaultCore.apply o c').2.log =
        c.log ++ [.errors, .denied, .reply 500 tracking (some defaultBody) true] := by
  have hq := evalExpr_quiet o c id pred
  refine ⟨((evalExpr o c id pred).2).push .errors, ?_, ?_⟩
  · show applyFail o c id pred true = _
    unfold applyFail
    rw [testPred_of hp]
    rfl
  · obtain ⟨extra, h1, h2⟩ := default_accepted (((evalExpr o c id pred).2).push .errors)
      (hacc _ (evalExpr_asked c id pred))
    refine ⟨extra, h1, ?_⟩
    rw [h2]
    simp [Ctx.push, hq.log]

/-- A denial whose value is known. -/
theorem sendReply_ends {name : Text} {fields : List (Text × Val)}
    (hp : (evalExpr o c id pred).1 = .available (.bool true))
    (he : ∀ c', Asked o c c' → (evalExpr o c' id e).1 = .available (.struct name fields))
    (hacc : ∀ a, Asked o c a → ∀ st hs b, (o.sendReply ((tracker o a).2.push .denied) st hs b).1 = true) :
    ∃ c', Core.apply o c (.sendReply id pred e true) = (.terminate (.core .noopTerminal), c') ∧
      ∃ tracking : Headers, tracking.length ≤ 1 ∧ (Core.noopTerminal.apply o c').2.log =
        c.log ++ [.denied, .reply (readDeny fields).1 ((readDeny fields).2.1 ++ tracking) (readDeny fields).2.2 true] := by
  have hq := evalExpr_quiet o c id pred
  have hk := evalExpr_asked (o := o) c id pred
  have he' := he _ hk
  have hq2 := hq.trans (evalExpr_quiet o _ id e)
  have hk2 := hk.trans (evalExpr_asked _ id e)
  generalize hc2 : (evalExpr o (evalExpr o c id pred).2 id e).2 = c2 at hq2 hk2
  have h1 : Core.apply o c (.sendReply id pred e true) = finishReply o c2 fields true := by
    show applySendReply o c id pred e true = _
    unfold applySendReply
    rw [testPred_of hp]
    dsimp only
    rw [evalExpr_of he', hc2]
  obtain ⟨c', h3, extra, h4, h5⟩ := finishReply_accepted c2 (hacc _ hk2) fields true
  refine ⟨c', h1.trans h3, extra, h4, ?_⟩
  show c'.log = _
  rw [h5, hq2.log]

end

/-! ### Successful actions -/

section
variable {c : Ctx H} {id : Text} {pred e : Expr}

/-- Setting headers that are listed, when the host may not have the old ones yet. -/
theorem headers_tried {target : Target} {v : Val}
    (hread : ∀ a, Asked o c a → (o.getHeaders a target).1 ≠ .err)
    (hwrite : ∀ a old h, Asked o c a → o.getHeaders a target = (.available old, h) →
      ∀ hs, ∃ u, (o.setHeaders (a.withHost h) target hs).1 = .available u)
    (hp : (evalExpr o c id pred).1 = .available (.bool true))
    (he : ∀ c', Asked o c c' → (evalExpr o c' id e).1 = .available v) :
    (∃ c', Core.apply o c (.headers id pred e target false) = (.done, c') ∧ c'.bindings = c.bindings ∧
      ((headerPairs v = [] ∧ c'.log = c.log) ∨
       (headerPairs v ≠ [] ∧ ∃ (c0 : Ctx H) (old : Headers), Asked o c c0 ∧ c0.log = c.log ∧
          (o.getHeaders c0 target).1 = .available old ∧
          c'.log = c.log ++ [.headersSet target (setAll old (headerPairs v))]))) ∨
    (headerPairs v ≠ [] ∧ ∃ c' ts, Core.apply o c (.headers id pred e target false) = (.requeued ts, c') ∧
      Quiet c c' ∧ ∃ c0, Asked o c c0 ∧ c0.log = c.log ∧ (o.getHeaders c0 target).1 = .pending) := by
  have hq := evalExpr_quiet o c id pred
  have hk := evalExpr_asked (o := o) c id pred
  have he' := he _ hk
  have hq2 := hq.trans (evalExpr_quiet o _ id e)
  have hk2 := hk.trans (evalExpr_asked _ id e)
  generalize hc2 : (evalExpr o (evalExpr o c id pred).2 id e).2 = c2 at hq2 hk2
  have h1 : ∀ r, (if (headerPairs v).isEmpty then ((.done, c2) : Outcome × Ctx H) else
        match o.getHeaders c2 target with
        | (.pending, h) => (.requeued [.core (.headers id pred e target false)], c2.withHost h)
        | (.err, h) => (.failed, c2.withHost h)
        | (.available hs, h) =>
          match o.setHeaders (c2.withHost h) target (setAll hs (headerPairs v)) with
          | (.pending, h') => (.requeued [.core (.headers id pred e target false)], (c2.withHost h).withHost h')
          | (.err, h') => (.failed, (c2.withHost h).withHost h')
          | (.available _, h') =>
            if false then (.terminate defaultReply,
              ((c2.withHost h).withHost h').push (.headersSet target (setAll hs (headerPairs v))))
            else (.done, ((c2.withHost h).withHost h').push (.headersSet target (setAll hs (headerPairs v))))) = r →
      Core.apply o c (.headers id pred e target false) = r := by
    intro r hr
    rw [← hr]
    show applyHeaders o c id pred e target false = _
    unfold applyHeaders
    rw [testPred_of hp]
    dsimp only
    rw [evalExpr_of he', hc2]
    rfl
  by_cases hemp : headerPairs v = []
  · exact .inl ⟨c2, h1 _ (by rw [if_pos (by simp [hemp])]), hq2.bindings, .inl ⟨hemp, hq2.log⟩⟩
  · rw [if_neg (by simpa using hemp)] at h1
    have hr := hread c2 hk2
    have hw := fun old h => hwrite c2 old h hk2
    rcases hg : o.getHeaders c2 target with ⟨g, h⟩
    rw [hg] at h1 hr
    cases g with
    | err => exact absurd rfl hr
    | pending =>
      refine .inr ⟨hemp, _, _, h1 _ rfl, hq2.withHost _, c2, hk2, hq2.log, by rw [hg]⟩
    | available old =>
      dsimp only at h1
      obtain ⟨u, hu⟩ := hw old h hg (setAll old (headerPairs v))
      generalize o.setHeaders (c2.withHost h) target (setAll old (headerPairs v)) = w at h1 hu
      obtain ⟨u', h'⟩ := w
      replace hu : u' = .available u := hu
      subst hu
      refine .inl ⟨_, h1 _ rfl, hq2.bindings, .inr ⟨hemp, c2, old, hk2, hq2.log, by rw [hg], ?_⟩⟩
      show c2.log ++ _ = _
      rw [hq2.log]

/-- Setting headers that are listed. -/
theorem headers_set {target : Target} {v : Val}
    (hread : ∀ a, Asked o c a → ∃ hs, (o.getHeaders a target).1 = .available hs)
    (hwrite : ∀ a, Asked o c a → ∀ hs, ∃ u, (o.setHeaders a target hs).1 = .available u)
    (hp : (evalExpr o c id pred).1 = .available (.bool true))
    (he : ∀ c', Asked o c c' → (evalExpr o c' id e).1 = .available v) :
    ∃ c', Core.apply o c (.headers id pred e target false) = (.done, c') ∧ c'.bindings = c.bindings ∧
      ((headerPairs v = [] ∧ c'.log = c.log) ∨
       (headerPairs v ≠ [] ∧ ∃ (c0 : Ctx H) (old : Headers), Asked o c c0 ∧ c0.log = c.log ∧
          (o.getHeaders c0 target).1 = .available old ∧
          c'.log = c.log ++ [.headersSet target (setAll old (headerPairs v))])) := by
  rcases headers_tried (o := o) (target := target) (v := v)
    (fun a ha h => by obtain ⟨hs, h1⟩ := hread a ha; rw [h1] at h; cases h)
    (fun a old h ha hg => by
      have := hwrite _ (ha.headers target)
      rw [hg] at this
      exact this) hp he with h | ⟨_, _, _, _, _, c0, ha, _, h⟩
  · exact h
  · obtain ⟨hs, h1⟩ := hread c0 ha
    rw [h1] at h
    cases h

/-- Storing a value that the host takes. -/
theorem store_done {path : Text} {v : Val} {bytes : Bytes} (hb : o.toBytes v = some bytes)
    (hset : ∀ a, Asked o c a → (o.setAttr a path bytes).1 ≠ .err)
    (hp : (evalExpr o c id pred).1 = .available (.bool true))
    (he : ∀ c', Asked o c c' → (evalExpr o c' id e).1 = .available v) :
    ∃ c' ok, Core.apply o c (.store id pred e path true false .notNeeded) = (.done, c') ∧ c'.bindings = c.bindings ∧
      c'.log = c.log ++ [.attrSet path bytes ok, .stored path v] := by
  have hq := evalExpr_quiet o c id pred
  have hk := evalExpr_asked (o := o) c id pred
  have he' := he _ hk
  have hq2 := hq.trans (evalExpr_quiet o _ id e)
  have hk2 := hk.trans (evalExpr_asked _ id e)
  generalize hc2 : (evalExpr o (evalExpr o c id pred).2 id e).2 = c2 at hq2 hk2
  have h1 : ∀ r, (match o.setAttr c2 path bytes with
            | (.err, h) => (.failed, c2.withHost h)
            | (.pending, h) => storeValue ((c2.withHost h).push (.attrSet path bytes false)) path v false
            | (.available _, h) => storeValue ((c2.withHost h).push (.attrSet path bytes true)) path v false) = r →
      Core.apply o c (.store id pred e path true false .notNeeded) = r := by
    intro r hr
    rw [← hr]
    show applyStore o c id pred e path true false .notNeeded = _
    unfold applyStore
    rw [storeBody]
    dsimp only
    rw [testPred_of hp]
    dsimp only
    rw [evalExpr_of he', hc2]
    dsimp only
    rw [if_pos rfl, hb]
    rfl
  have h2 := hset c2 hk2
  generalize o.setAttr c2 path bytes = w at h1 h2
  obtain ⟨u, h⟩ := w
  have h3 := hq2.log
  have h4 := hq2.bindings
  cases u with
  | err => exact absurd rfl h2
  | pending =>
    refine ⟨_, false, h1 _ rfl, h4, ?_⟩
    show (c2.log ++ _) ++ _ = _
    rw [h3]; simp
  | available u =>
    refine ⟨_, true, h1 _ rfl, h4, ?_⟩
    show (c2.log ++ _) ++ _ = _
    rw [h3]; simp

end

/-! ### Sequences of actions -/

/-- The contexts in which the reply actions are evaluated. -/
structure Good (base : List Effect) (bindings : List (Text × (Text × Val))) (c : Ctx H) : Prop where
  log : ∃ es, c.log = base ++ es
  bindings : c.bindings = bindings

theorem Good.quiet {base : List Effect} {bs : List (Text × (Text × Val))} {c c' : Ctx H} (h : Good base bs c)
    (hq : Quiet c c') : Good base bs c' := by
  obtain ⟨⟨es, h1⟩, h2⟩ := h
  exact ⟨⟨es, hq.log.trans h1⟩, hq.bindings.trans h2⟩

theorem Good.push {base : List Effect} {bs : List (Text × (Text × Val))} {c : Ctx H} (h : Good base bs c)
    (e : Effect) : Good base bs (c.push e) := by
  obtain ⟨⟨es, h1⟩, h2⟩ := h
  exact ⟨⟨es ++ [e], by simp [Ctx.push, h1]⟩, h2⟩

/-- The tasks are dealt with and the others come next. -/
structure Goes (o : Oracle H) (p : Pipe H) (ts : List PTask) (q : Pipe H) (es : List Effect) : Prop where
  next : ∀ more, Pipe.processTasks o p (ts ++ more) = Pipe.processTasks o q more
  turns : ∀ more, ∃ a, Pipe.turns o p (ts ++ more) = a ++ Pipe.turns o q more
  log : q.ctx.log = p.ctx.log ++ es
  bindings : q.ctx.bindings = p.ctx.bindings

/-- One of the tasks ends the request. -/
def Stops (o : Oracle H) (p : Pipe H) (ts : List PTask) (es : List Effect) : Prop :=
  ∀ more, ∃ q, Pipe.processTasks o p (ts ++ more) = (q, true) ∧ q.ctx.log = p.ctx.log ++ es

theorem Goes.nil (p : Pipe H) : Goes o p [] p [] := ⟨fun _ => rfl, fun _ => ⟨[], rfl⟩, by simp, rfl⟩

theorem Goes.cons {p q r : Pipe H} {t : PTask} {ts : List PTask} {es es' : List Effect} (h : Goes o p [t] q es)
    (h' : Goes o q ts r es') : Goes o p (t :: ts) r (es ++ es') where
  next more := (h.next (ts ++ more)).trans (h'.next more)
  turns more := by
    obtain ⟨a, h1⟩ := h.turns (ts ++ more)
    obtain ⟨b, h2⟩ := h'.turns more
    exact ⟨a ++ b, by rw [List.append_assoc, ← h2]; exact h1⟩
  log := by rw [h'.log, h.log, List.append_assoc]
  bindings := h'.bindings.trans h.bindings

theorem Goes.stops {p q : Pipe H} {t : PTask} {ts : List PTask} {es es' : List Effect} (h : Goes o p [t] q es)
    (h' : Stops o q ts es') : Stops o p (t :: ts) (es ++ es') := by
  intro more
  obtain ⟨r, h1, h2⟩ := h' more
  exact ⟨r, (h.next (ts ++ more)).trans h1, by rw [h2, h.log, List.append_assoc]⟩

theorem Stops.cons {p : Pipe H} {t : PTask} {es : List Effect} (h : Stops o p [t] es) (ts : List PTask) :
    Stops o p (t :: ts) es := by
  intro more
  exact h (ts ++ more)

/-- The contexts in which the reply actions are really evaluated. -/
def Fine (K : Ctx H → Prop) (base : List Effect) (bs : List (Text × (Text × Val))) (c : Ctx H) : Prop :=
  K c ∧ Good base bs c

theorem asked_log {a c : Ctx H} (h : Asked o a c) : c.log = a.log ∧ c.bindings = a.bindings := by
  induction h with
  | none => exact ⟨rfl, rfl⟩
  | attributes _ _ ih => exact ih
  | value _ _ _ ih => exact ih
  | headers _ _ ih => exact ih
  | body _ hr ih =>
    rename_i c1 _ s _ _
    have h1 := storeBody_ext o c1 s
    rw [hr] at h1
    exact ⟨(h1.log.trans (List.append_nil _)).trans ih.1, h1.bindings.trans ih.2⟩

theorem Fine.asked {K : Ctx H → Prop} (hK : ∀ a c, K a → Asked o a c → K c) {base : List Effect}
    {bs : List (Text × (Text × Val))} {c c' : Ctx H} (h : Fine K base bs c) (ha : Asked o c c') : Fine K base bs c' := by
  obtain ⟨h1, ⟨es, h2⟩, h3⟩ := h
  exact ⟨hK _ _ h1 ha, ⟨es, (asked_log ha).1.trans h2⟩, (asked_log ha).2.trans h3⟩

/-- The tasks come next, in contexts of the request. -/
structure Next (o : Oracle H) (K : Ctx H → Prop) (base : List Effect) (bs : List (Text × (Text × Val)))
    (more : List PTask) (p : Pipe H) (ts : List PTask) : Prop where
  good : Good base bs p.ctx
  turns : ∀ m ∈ Pipe.turns o p (ts ++ more), K m.1

theorem Next.first {K : Ctx H → Prop} {base : List Effect} {bs : List (Text × (Text × Val))} {more : List PTask}
    {p : Pipe H} {k : Core} {t : PTask} {ts : List PTask} (h : Next o K base bs more p (t :: ts)) (ht : Traced k t)
    (hd : k.deps = []) : Fine K base bs (p.ctx.push (.applied k.id)) := by
  refine ⟨?_, h.good.push _⟩
  have := h.turns (p.ctx.push (.applied t.id), p.queue ++ (t :: (ts ++ more)) ++ p.deferred.map Prod.snd) (by
    rw [List.cons_append, Pipe.turns, traced_deps ht, hd]
    simp)
  rwa [traced_id ht] at this

theorem Goes.ready {K : Ctx H → Prop} {base : List Effect} {bs : List (Text × (Text × Val))} {more : List PTask}
    {p q : Pipe H} {t : PTask} {ts : List PTask} {es : List Effect} (h : Goes o p [t] q es)
    (hn : Next o K base bs more p (t :: ts)) : Next o K base bs more q ts where
  good := by
    obtain ⟨⟨fs, h1⟩, h2⟩ := hn.good
    exact ⟨⟨fs ++ es, by rw [h.log, h1, List.append_assoc]⟩, h.bindings.trans h2⟩
  turns m hm := by
    obtain ⟨a, h1⟩ := h.turns (ts ++ more)
    refine hn.turns m ?_
    show m ∈ Pipe.turns o p ([t] ++ (ts ++ more))
    rw [h1]
    exact List.mem_append_right _ hm

theorem Goes.good {p q : Pipe H} {ts : List PTask} {es : List Effect} (h : Goes o p ts q es) {base : List Effect}
    {bs : List (Text × (Text × Val))} (hg : Good base bs p.ctx) : Good base bs q.ctx := by
  obtain ⟨⟨fs, h1⟩, h2⟩ := hg
  exact ⟨⟨fs ++ es, by rw [h.log, h1, List.append_assoc]⟩, h.bindings.trans h2⟩

theorem goes_done {p : Pipe H} {k : Core} {t : PTask} (ht : Traced k t) (hd : k.deps = []) {c' : Ctx H}
    {es : List Effect} (h : k.apply o (p.ctx.push (.applied k.id)) = (.done, c'))
    (hl : c'.log = (p.ctx.push (.applied k.id)).log ++ es) (hb : c'.bindings = p.ctx.bindings) :
    Goes o p [t] (Pipe.complete { p with ctx := c' } k.id) (.applied k.id :: es ++ [.completed k.id]) where
  next more := proc_done more ht hd h
  turns more := turns_done more ht hd h
  log := by
    show c'.log ++ _ = _
    rw [hl]
    simp [Ctx.push]
  bindings := hb

theorem goes_failed {p : Pipe H} {k : Core} {t : PTask} (ht : Traced k t) (hd : k.deps = []) {c' : Ctx H}
    (h : k.apply o (p.ctx.push (.applied k.id)) = (.failed, c'))
    (hq : Quiet (p.ctx.push (.applied k.id)) c') :
    Goes o p [t] (Pipe.push { p with ctx := c' } (.failed k.id)) [.applied k.id, .failed k.id] where
  next more := proc_failed more ht hd h
  turns more := turns_failed more ht hd h
  log := by
    show c'.log ++ _ = _
    rw [hq.log]
    simp [Ctx.push]
  bindings := hq.bindings

theorem goes_requeued {p : Pipe H} {k : Core} {t : PTask} (ht : Traced k t) (hd : k.deps = []) {c' : Ctx H}
    {ts : List PTask} (h : k.apply o (p.ctx.push (.applied k.id)) = (.requeued ts, c'))
    (hq : Quiet (p.ctx.push (.applied k.id)) c') : ∃ q, Goes o p [t] q [.applied k.id] := by
  obtain ⟨ts', h1⟩ := traced_requeued ht h
  refine ⟨{ p with ctx := c', queue := p.queue ++ ts' }, ⟨fun more => ?_, fun more => ?_, hq.log, hq.bindings⟩⟩
  · show Pipe.processTasks o p (t :: more) = _
    rw [Pipe.processTasks, traced_deps ht, hd]
    simp only [List.any_nil, Bool.false_eq_true, if_false]
    rw [traced_id ht, h1]
  · show ∃ a, Pipe.turns o p (t :: more) = _
    rw [Pipe.turns, traced_deps ht, hd]
    simp only [List.any_nil, Bool.false_eq_true, if_false]
    rw [traced_id ht, h1]
    exact ⟨[_], rfl⟩

theorem goes_quiet {p : Pipe H} {k : Core} {t : PTask} (ht : Traced k t) (hd : k.deps = [])
    (h : ∃ c', k.apply o (p.ctx.push (.applied k.id)) = (.done, c') ∧ Quiet (p.ctx.push (.applied k.id)) c') :
    ∃ q, Goes o p [t] q [.applied k.id, .completed k.id] := by
  obtain ⟨c', h1, h2⟩ := h
  exact ⟨_, goes_done (es := []) ht hd h1 (by rw [h2.log]; simp) h2.bindings⟩

theorem stops_end {p : Pipe H} {k k' : Core} {t : PTask} (ht : Traced k t) (hd : k.deps = []) {c' : Ctx H}
    {es : List Effect} (h : k.apply o (p.ctx.push (.applied k.id)) = (.terminate (.core k'), c'))
    (hl : (k'.apply o c').2.log = (p.ctx.push (.applied k.id)).log ++ es) :
    Stops o p [t] (.applied k.id :: es ++ [.ended]) := by
  intro more
  obtain ⟨q, h1, h2⟩ := proc_end (o := o) more ht hd h
  refine ⟨q, h1, ?_⟩
  rw [h2, hl]
  simp [Ctx.push]

/-! ### The compiled reply actions -/

section
variable {parse : Text → Option Expr} {services : Text → Option SvcInst} {x : Text} {replies : List TypedAction}
  {ts : List PTask}

theorem kid_of (hk : KidsOf parse services x replies (ts.map PTask.strip)) (ht : ∀ t ∈ ts, Traced t.strip t)
    {i : Nat} {t : PTask} (hi : ts[i]? = some t) {a : TypedAction} (ha : replies[i]? = some a) :
    ∃ y k, Compiled parse services (x ++ '.' :: natText i) a y ∧ Made y k ∧ Traced k t := by
  obtain ⟨a', y, h1, h2, h3⟩ := hk.kid i t.strip (by rw [List.getElem?_map, hi]; rfl)
  rw [ha] at h1
  cases h1
  exact ⟨y, t.strip, h2, h3, ht t (List.mem_of_getElem? hi)⟩

theorem kid_deny (hk : KidsOf parse services x replies (ts.map PTask.strip)) (ht : ∀ t ∈ ts, Traced t.strip t)
    {i : Nat} {t : PTask} (hi : ts[i]? = some t) {h : TypedHead} {d : Text}
    (ha : replies[i]? = some (.deny h d)) : ∃ pred e, parse h.predicate = some pred ∧ parse d = some e ∧
      Traced (.sendReply (x ++ '.' :: natText i) pred e h.terminal) t := by
  obtain ⟨y, k, h1, h2, h3⟩ := kid_of hk ht hi ha
  cases h1 with
  | deny _ _ _ pred e hp he => cases h2; exact ⟨pred, e, hp, he, h3⟩

theorem kid_headers (hk : KidsOf parse services x replies (ts.map PTask.strip)) (ht : ∀ t ∈ ts, Traced t.strip t)
    {i : Nat} {t : PTask} (hi : ts[i]? = some t) {h : TypedHead} {target : Target} {d : Text}
    (ha : replies[i]? = some (.headers h target d)) : ∃ pred e, parse h.predicate = some pred ∧ parse d = some e ∧
      Traced (.headers (x ++ '.' :: natText i) pred e target h.terminal) t := by
  obtain ⟨y, k, h1, h2, h3⟩ := kid_of hk ht hi ha
  cases h1 with
  | headers _ _ _ _ pred e hp he => cases h2; exact ⟨pred, e, hp, he, h3⟩

theorem kid_store (hk : KidsOf parse services x replies (ts.map PTask.strip)) (ht : ∀ t ∈ ts, Traced t.strip t)
    {i : Nat} {t : PTask} (hi : ts[i]? = some t) {h : TypedHead} {path d : Text} {ex : Bool}
    (ha : replies[i]? = some (.store h path d ex)) : ∃ pred e, parse h.predicate = some pred ∧ parse d = some e ∧
      Traced (.store (x ++ '.' :: natText i) pred e path ex h.terminal (initialParseState pred e)) t := by
  obtain ⟨y, k, h1, h2, h3⟩ := kid_of hk ht hi ha
  cases h1 with
  | store _ _ _ _ _ pred e hp he => cases h2; exact ⟨pred, e, hp, he, h3⟩

theorem kid_fail (hk : KidsOf parse services x replies (ts.map PTask.strip)) (ht : ∀ t ∈ ts, Traced t.strip t)
    {i : Nat} {t : PTask} (hi : ts[i]? = some t) {h : TypedHead}
    (ha : replies[i]? = some (.fail h)) : ∃ pred, parse h.predicate = some pred ∧
      Traced (.fail (x ++ '.' :: natText i) pred h.terminal) t := by
  obtain ⟨y, k, h1, h2, h3⟩ := kid_of hk ht hi ha
  cases h1 with
  | fail _ _ pred hp => cases h2; exact ⟨pred, hp, h3⟩

end

end Verif
