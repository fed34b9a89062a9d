import Verif.Lemmas.Restart
import Verif.Lemmas.Scope
import Verif.Lemmas.Identity
import Verif.Lemmas.Places
import Verif.Lemmas.Attempt
/-! Reply actions see the response. -/
set_option linter.unusedSimpArgs false
namespace Verif
open Spec

variable {H : Type} {o : Oracle H}

/-- Ancestors of a reply action. -/
theorem ancestor_reply {y x : Text} {j : Nat} (h : isAncestor y (x ++ '.' :: natText j) = true) :
    y = x ++ '.' :: natText j ∨ isAncestor y x = true := by
  unfold isAncestor at h ⊢
  rw [Bool.or_eq_true, decide_eq_true_eq, startsWith_iff] at h
  rcases h with h | ⟨r, h⟩
  · exact .inl h.symm
  · right
    rw [Bool.or_eq_true, decide_eq_true_eq, startsWith_iff]
    rw [List.append_assoc, List.singleton_append] at h
    rcases List.append_eq_append_iff.1 h with ⟨as, h1, h2⟩ | ⟨as, h1, h2⟩
    · cases as with
      | nil => left; simpa using h1
      | cons a as =>
        right
        simp only [List.cons_append, List.cons.injEq] at h2
        exact ⟨as, by rw [h1, h2.1]; simp⟩
    · cases as with
      | nil => left; simpa using h1.symm
      | cons a as =>
        simp only [List.cons_append, List.cons.injEq] at h2
        exact absurd (by rw [h2.2]; simp) (natText_dot j)

theorem ancestor_self (x : Text) : isAncestor x x = true := by simp [isAncestor]

theorem ancestor_of_reply (x : Text) (j : Nat) : isAncestor x (x ++ '.' :: natText j) = true := by
  unfold isAncestor
  rw [Bool.or_eq_true, startsWith_iff]
  exact .inr ⟨natText j, by simp⟩

/-- The only binding of an action is what its reply actions see, unless they have bound the name themselves. -/
theorem bound_lookup {bs : List (Text × (Text × Val))} {x var : Text} {j : Nat} {v : Val}
    (hone : bs.countP (fun b => decide (b.1 = x)) ≤ 1) (hin : (x, (var, v)) ∈ bs)
    (hown : ∀ b ∈ bs, b.1 ≠ x ++ '.' :: natText j) :
    (scopeVars bs (x ++ '.' :: natText j)).lookup var = some v := by
  unfold scopeVars
  dsimp only
  generalize hvis : bs.filter (fun b => isAncestor b.1 (x ++ '.' :: natText j)) = vis
  have hmem : (x, (var, v)) ∈ vis.mergeSort (fun a b => textLe a.1 b.1) := by
    rw [List.mem_mergeSort, ← hvis, List.mem_filter]
    exact ⟨hin, ancestor_of_reply x j⟩
  obtain ⟨a, b, hab⟩ := List.append_of_mem hmem
  have hsorted : (vis.mergeSort (fun a b => textLe a.1 b.1)).Pairwise (fun a b => textLe a.1 b.1 = true) :=
    List.pairwise_mergeSort (fun a b c => textLe_trans a.1 b.1 c.1) (fun a b => textLe_total a.1 b.1) vis
  have hcount : (vis.mergeSort (fun a b => textLe a.1 b.1)).countP (fun b => decide (b.1 = x)) ≤ 1 := by
    rw [(List.mergeSort_perm vis _).countP_eq, ← hvis]
    exact Nat.le_trans (List.Sublist.countP_le List.filter_sublist) hone
  have hb : b = [] := by
    cases b with
    | nil => rfl
    | cons y b =>
      exfalso
      rw [hab] at hsorted hcount
      rw [List.pairwise_append, List.pairwise_cons] at hsorted
      have h1 : textLe x y.1 = true := hsorted.2.1.1 y (by simp)
      have hy : y ∈ vis := by
        rw [← List.mem_mergeSort (le := fun a b => textLe a.1 b.1), hab]; simp
      rw [← hvis, List.mem_filter] at hy
      rcases ancestor_reply hy.2 with h2 | h2
      · exact hown y hy.1 h2
      · have := textLe_antisymm _ _ h1 (ancestor_le h2)
        rw [List.countP_append, List.countP_cons, List.countP_cons] at hcount
        simp [← this] at hcount
        omega
  rw [hab, hb, List.map_append]
  exact lookup_reverse _ [] var v (by simp)

/-- What a response adds to the bindings. -/
theorem answered_bindings (t : PTask) (c : Ctx H) (x : Text) (guard : Bool) (svc : Svc) (var : Text)
    (kids : List Core) (st z : Nat) (hk : t.strip = .pending x guard svc var kids) (hg : c.grpc = some (st, z)) :
    ((t.apply o c).2.bindings = c.bindings ∧ ∀ ts, (t.apply o c).1 ≠ .requeued ts) ∨
    (st = 0 ∧ (t.apply o c).2.log = c.log ∧ ∃ v ts, (o.response { c with grpc := none } svc z).1 = some v ∧
      (t.apply o c).2.bindings = c.bindings ++ [(x, (var, v))] ∧ (t.apply o c).1 = .requeued ts ∧
      ts.map PTask.strip = kids) := by
  induction t with
  | core k =>
    simp only [PTask.strip] at hk
    subst hk
    simp only [PTask.apply, Core.apply]
    unfold applyPending processResponse
    rw [hg]
    dsimp only
    by_cases hst : st = 0
    · subst hst
      simp only [ne_eq, not_true_eq_false, if_false]
      cases hk' : kids.isEmpty with
      | true =>
        left
        simp only [if_true]
        exact ⟨by cases guard <;> rfl, by simp⟩
      | false =>
        simp only [Bool.false_eq_true, if_false]
        generalize o.response { c with grpc := none } svc z = r
        obtain ⟨v, hh⟩ := r
        cases v with
        | none => exact .inl ⟨by cases guard <;> rfl, by simp⟩
        | some v =>
          refine .inr ⟨trivial, by cases guard <;> rfl, v, _, rfl, by cases guard <;> rfl, rfl, ?_⟩
          simp [Function.comp_def, PTask.strip]
    · simp only [ne_eq, hst, not_false_eq_true, if_true]
      exact .inl ⟨by cases guard <;> rfl, by simp⟩
  | failureMode t a ih =>
    have h := ih hk
    have hf : (PTask.failureMode t a).apply o c = match t.apply o c with
      | (.failed, c) => if a then (Outcome.terminate defaultReply, c.push .errors) else (.done, c.push .errors)
      | (.deferred token p, c) => (.deferred token (.failureMode p a), c)
      | r => r := rfl
    rw [hf]
    generalize t.apply o c = r at h ⊢
    obtain ⟨out, c'⟩ := r
    rcases h with ⟨h1, h2⟩ | ⟨h1, h2, v, ts, h3, h4, h5, h6⟩
    · left
      cases out with
      | failed => cases a <;> exact ⟨h1, by simp⟩
      | requeued ts => exact absurd rfl (h2 ts)
      | _ => exact ⟨h1, by simp⟩
    · replace h5 : out = .requeued ts := h5
      subst h5
      exact .inr ⟨h1, h2, v, ts, h3, h4, rfl, h6⟩
  | tracing t ih =>
    have h := ih hk
    have hf : (PTask.tracing t).apply o c = match t.apply o c with
      | (.deferred token p, c) => (Outcome.deferred token (.tracing p), c)
      | (.requeued ts, c) => (.requeued (ts.map .tracing), c)
      | (.terminate t, c) => (.terminate (.tracing t), c)
      | r => r := rfl
    rw [hf]
    generalize t.apply o c = r at h ⊢
    obtain ⟨out, c'⟩ := r
    rcases h with ⟨h1, h2⟩ | ⟨h1, h2, v, ts, h3, h4, h5, h6⟩
    · left
      cases out with
      | requeued ts => exact absurd rfl (h2 ts)
      | _ => exact ⟨h1, by simp⟩
    · replace h5 : out = .requeued ts := h5
      subst h5
      refine .inr ⟨h1, h2, v, _, h3, h4, rfl, ?_⟩
      rw [List.map_map]
      exact h6

theorem noop_bindings (t : PTask) (c : Ctx H) (id : Text) (guard : Bool) (hk : t.strip = .noop id guard) :
    (t.apply o c).2.bindings = c.bindings ∧ ∀ ts, (t.apply o c).1 ≠ .requeued ts := by
  induction t with
  | core k =>
    simp only [PTask.strip] at hk
    subst hk
    exact ⟨by cases guard <;> rfl, by intro ts h; cases h⟩
  | failureMode t a ih =>
    obtain ⟨h1, h2⟩ := ih hk
    have hf : (PTask.failureMode t a).apply o c = match t.apply o c with
      | (.failed, c) => if a then (Outcome.terminate defaultReply, c.push .errors) else (.done, c.push .errors)
      | (.deferred token p, c) => (.deferred token (.failureMode p a), c)
      | r => r := rfl
    rw [hf]
    generalize t.apply o c = r at h1 h2 ⊢
    obtain ⟨out, c'⟩ := r
    cases out with
    | failed => cases a <;> exact ⟨h1, by simp⟩
    | requeued ts => exact absurd rfl (h2 ts)
    | _ => exact ⟨h1, by simp⟩
  | tracing t ih =>
    obtain ⟨h1, h2⟩ := ih hk
    have hf : (PTask.tracing t).apply o c = match t.apply o c with
      | (.deferred token p, c) => (Outcome.deferred token (.tracing p), c)
      | (.requeued ts, c) => (.requeued (ts.map .tracing), c)
      | (.terminate t, c) => (.terminate (.tracing t), c)
      | r => r := rfl
    rw [hf]
    generalize t.apply o c = r at h1 h2 ⊢
    obtain ⟨out, c'⟩ := r
    cases out with
    | requeued ts => exact absurd rfl (h2 ts)
    | _ => exact ⟨h1, by simp⟩

/-- Tasks that do not wait for a response leave the bindings alone. -/
theorem started_bindings (t : PTask) (c : Ctx H) (hw : t.strip.waits = false) :
    (t.apply o c).2.bindings = c.bindings := by
  have h := apply_res o c t
  generalize (t.apply o c).1 = out, (t.apply o c).2 = c' at h ⊢
  cases h with
  | plain es hw hx hl ho => exact hx.bindings
  | sent id deps guard pred msg var svc onReply token bytes rid p hk hp hx hr => exact hx.bindings
  | answered id guard svc var onReply es hk => rw [hk] at hw; cases hw
  | dropped id guard hk => rw [hk] at hw; cases hw

/-- A response that can be decoded puts the reply actions into the queue. -/
theorem answered_requeues (t : PTask) (c : Ctx H) {x : Text} {guard : Bool} {svc : Svc} {var : Text}
    {kids : List Core} {z : Nat} (hk : t.strip = .pending x guard svc var kids) (hg : c.grpc = some (0, z))
    (hne : kids ≠ []) {v : Val} (hv : (o.response { c with grpc := none } svc z).1 = some v) :
    ∃ ts, (t.apply o c).1 = .requeued ts := by
  induction t with
  | core k =>
    simp only [PTask.strip] at hk
    subst hk
    simp only [PTask.apply, Core.apply]
    unfold applyPending processResponse
    rw [hg]
    simp only [ne_eq, not_true_eq_false, if_false]
    cases kids with
    | nil => exact absurd rfl hne
    | cons kid kids =>
      simp only [List.isEmpty_cons, Bool.false_eq_true, if_false]
      generalize o.response { c with grpc := none } svc z = r at hv ⊢
      obtain ⟨v', hh⟩ := r
      replace hv : v' = some v := hv
      subst hv
      exact ⟨_, rfl⟩
  | failureMode t a ih =>
    obtain ⟨ts, h⟩ := ih hk
    rw [PTask.apply]
    generalize t.apply o c = r at h ⊢
    obtain ⟨out, c'⟩ := r
    replace h : out = .requeued ts := h
    subst h
    exact ⟨_, rfl⟩
  | tracing t ih =>
    obtain ⟨ts, h⟩ := ih hk
    rw [PTask.apply]
    generalize t.apply o c = r at h ⊢
    obtain ⟨out, c'⟩ := r
    replace h : out = .requeued ts := h
    subst h
    exact ⟨_, rfl⟩

variable {S : Ctx H → Prop} {R : Nat → Nat → Nat → Ctx H → Prop}

theorem Spec.Heard.append {x : Text} {svc : Svc} {v : Val} {log : List Effect} (h : Heard o R x svc v log)
    (es : List Effect) : Heard o R x svc v (log ++ es) := by
  obtain ⟨a, token, size, b, h1, h2⟩ := h
  exact ⟨a, token, size, b ++ es, by rw [h1]; simp, h2⟩

/-- What the bindings hold. -/
structure Bind (o : Oracle H) (R : Nat → Nat → Nat → Ctx H → Prop) (x var : Text) (svc : Svc) (bs : List (Text × (Text × Val))) (log : List Effect) : Prop where
  few : ∀ y, bs.countP (fun b => decide (b.1 = y)) ≤ log.countP (settles y)
  src : ∀ n w, (x, (n, w)) ∈ bs → n = var ∧ Heard o R x svc w log

theorem Bind.append {x var : Text} {svc : Svc} {bs : List (Text × (Text × Val))} {log : List Effect}
    (h : Bind o R x var svc bs log) (es : List Effect) : Bind o R x var svc bs (log ++ es) where
  few y := Nat.le_trans (h.few y) (by rw [List.countP_append]; omega)
  src n w hm := ⟨(h.src n w hm).1, (h.src n w hm).2.append es⟩

/-- Action `x` binds its response to `var`; the parent of action `xj` is `x`. -/
structure Binder (x var xj : Text) (svc : Svc) (k : Core) : Prop where
  own : k.id = x → k.waits = false → ∃ deps guard pred msg kids, k = .grpc x deps guard pred msg var svc kids
  wait : k.id = x → ∀ id guard svc' var' kids, k = .pending id guard svc' var' kids → svc' = svc ∧ var' = var
  kids : ∀ kid ∈ k.children, kid.id = xj → k.id = x

theorem binder_closed (x var xj : Text) (svc : Svc) : Closed (Binder x var xj svc) where
  again k k' h ha := by
    cases ha with
    | same => exact h
    | store id pred' e path y terminal s s' =>
      refine ⟨?_, by simp, by simp [Core.children]⟩
      intro hid _
      obtain ⟨_, _, _, _, _, h2⟩ := h.own hid rfl
      cases h2
    | tokenUsage =>
      refine ⟨?_, by simp, by simp [Core.children]⟩
      intro hid _
      obtain ⟨_, _, _, _, _, h2⟩ := h.own hid rfl
      cases h2
  sent := by
    intro id deps guard pred' msg' var' svc' r h
    refine ⟨by simp [Core.waits], ?_, h.kids⟩
    intro hid id' guard' svc2 var2 kids heq
    obtain ⟨_, _, _, _, _, h2⟩ := h.own hid rfl
    cases heq
    cases h2
    exact ⟨rfl, rfl⟩
  noop := by
    intro id guard
    exact ⟨by simp [Core.waits], by simp, by simp [Core.children]⟩

/-- What is recorded after action `id` had the outcome `out` in context `c`. -/
def Marks (o : Oracle H) (id : Text) (out : Outcome) (c : Ctx H) (fs : List Effect) : Prop :=
  match out with
  | .done => fs = [.completed id]
  | .terminate u => (u.strip.apply o c).2.log ++ [.ended] = c.log ++ fs
  | .requeued _ => fs = []
  | .deferred _ _ => fs = []
  | .failed => True

/-- The outcome of a decorated task next to that of the task. -/
def Kept : Outcome → Outcome → Prop
  | .done, out => out = .done
  | .terminate u, out => ∃ u', out = .terminate u' ∧ u'.strip = u.strip
  | .requeued _, out => ∃ ts, out = .requeued ts
  | .deferred _ _, out => ∃ tok u, out = .deferred tok u
  | .failed, _ => True

theorem Kept.refl (out : Outcome) : Kept out out := by
  cases out with
  | done => rfl
  | terminate u => exact ⟨u, rfl, rfl⟩
  | requeued ts => exact ⟨ts, rfl⟩
  | deferred a b => exact ⟨a, b, rfl⟩
  | failed => trivial

/-- Decorators change failures only. -/
theorem apply_kept (t : PTask) (c : Ctx H) :
    (t.strip.apply o c).1 = .failed ∨
    ((t.apply o c).2 = (t.strip.apply o c).2 ∧ Kept (t.strip.apply o c).1 (t.apply o c).1) := by
  induction t with
  | core k => exact .inr ⟨rfl, Kept.refl _⟩
  | failureMode t a ih =>
    rcases ih with h | ⟨h1, h2⟩
    · exact .inl h
    · show (t.strip.apply o c).1 = .failed ∨
        (((PTask.failureMode t a).apply o c).2 = (t.strip.apply o c).2 ∧
          Kept (t.strip.apply o c).1 ((PTask.failureMode t a).apply o c).1)
      rw [PTask.apply]
      generalize t.strip.apply o c = r0 at h1 h2 ⊢
      generalize t.apply o c = r at h1 h2 ⊢
      obtain ⟨out, c'⟩ := r
      obtain ⟨out0, c0⟩ := r0
      replace h1 : c' = c0 := h1
      subst h1
      cases out0 with
      | failed => exact .inl rfl
      | done =>
        replace h2 : out = .done := h2
        subst h2
        exact .inr ⟨rfl, rfl⟩
      | terminate u =>
        obtain ⟨u', h2, h3⟩ := h2
        replace h2 : out = .terminate u' := h2
        subst h2
        exact .inr ⟨rfl, u', rfl, h3⟩
      | requeued ts =>
        obtain ⟨ts', h2⟩ := h2
        replace h2 : out = .requeued ts' := h2
        subst h2
        exact .inr ⟨rfl, ts', rfl⟩
      | deferred tok u =>
        obtain ⟨tok', u', h2⟩ := h2
        replace h2 : out = .deferred tok' u' := h2
        subst h2
        exact .inr ⟨rfl, tok', _, rfl⟩
  | tracing t ih =>
    rcases ih with h | ⟨h1, h2⟩
    · exact .inl h
    · show (t.strip.apply o c).1 = .failed ∨
        (((PTask.tracing t).apply o c).2 = (t.strip.apply o c).2 ∧
          Kept (t.strip.apply o c).1 ((PTask.tracing t).apply o c).1)
      rw [PTask.apply]
      generalize t.strip.apply o c = r0 at h1 h2 ⊢
      generalize t.apply o c = r at h1 h2 ⊢
      obtain ⟨out, c'⟩ := r
      obtain ⟨out0, c0⟩ := r0
      replace h1 : c' = c0 := h1
      subst h1
      cases out0 with
      | failed => exact .inl rfl
      | done =>
        replace h2 : out = .done := h2
        subst h2
        exact .inr ⟨rfl, rfl⟩
      | terminate u =>
        obtain ⟨u', h2, h3⟩ := h2
        replace h2 : out = .terminate u' := h2
        subst h2
        exact .inr ⟨rfl, _, rfl, h3⟩
      | requeued ts =>
        obtain ⟨ts', h2⟩ := h2
        replace h2 : out = .requeued ts' := h2
        subst h2
        exact .inr ⟨rfl, _, rfl⟩
      | deferred tok u =>
        obtain ⟨tok', u', h2⟩ := h2
        replace h2 : out = .deferred tok' u' := h2
        subst h2
        exact .inr ⟨rfl, tok', _, rfl⟩

theorem traced_strip {k : Core} {t : PTask} (h : Traced k t) : t.strip = k := by
  induction h with
  | core => rfl
  | tracing h ih => exact ih

theorem ended_marks {t t' : PTask} {es : List Effect} (c : Ctx H) (hdo : TDoes t (.terminate t') es) (x : Text) :
    ∃ ms, (t'.apply o c).2.log ++ [.ended] = c.log ++ ms ∧ .applied x ∉ ms := by
  rcases does_terminate hdo t' rfl with ⟨h1, _⟩ | ⟨h1, _⟩
  · rw [traced_log h1]
    exact ⟨[.ended], rfl, by simp⟩
  · rw [traced_log h1]
    obtain ⟨es, h2, h3⟩ := core_does o c defaultCore
    refine ⟨es ++ [.ended], by rw [h2]; simp, ?_⟩
    simp only [List.mem_append, not_or]
    exact ⟨core_unapplied h3 x, by simp⟩

/-- Reply action `xj` starts with the response of `x` in scope. -/
theorem bound_extra {P : Core → Prop} (hP : Closed P) {x var : Text} {j : Nat} {svc : Svc}
    (hx : ∀ n, Pipe.teardownId n ≠ x) (hxj : ∀ n, Pipe.teardownId n ≠ x ++ '.' :: natText j)
    (hPB : ∀ k, P k → Binder x var (x ++ '.' :: natText j) svc k)
    {Q : List Effect → List Effect → Prop} (hm : ∀ pre post es, Q pre post → Q pre (post ++ es))
    (hkey : ∀ k (c : Ctx H) es w fs, P k → k.id = x ++ '.' :: natText j → k.waits = false → S (c.push (.applied (x ++ '.' :: natText j))) → Heard o R x svc w c.log →
      (scopeVars c.bindings (x ++ '.' :: natText j)).lookup var = some w →
      (k.apply o (c.push (.applied (x ++ '.' :: natText j)))).2.log = c.log ++ [.applied (x ++ '.' :: natText j)] ++ es →
      Marks o (x ++ '.' :: natText j) (k.apply o (c.push (.applied (x ++ '.' :: natText j)))).1
        (k.apply o (c.push (.applied (x ++ '.' :: natText j)))).2 fs →
      Q c.log (es ++ fs)) :
    ExtraAt o S R (fun (p : Pipe H) todo => (p.load x todo ≤ 1 ∧ p.load (x ++ '.' :: natText j) todo ≤ 1) ∧ Tasks P p todo ∧
        Bind o R x var svc p.ctx.bindings p.ctx.log ∧
        (∀ t ∈ p.queue ++ todo, t.id = x ++ '.' :: natText j → ∃ n w, (x, (n, w)) ∈ p.ctx.bindings) ∧
        After (x ++ '.' :: natText j) Q p.ctx.log)
      (fun p => After (x ++ '.' :: natText j) Q p.ctx.log) (fun p => After (x ++ '.' :: natText j) Q p.ctx.log) := by
  generalize hxx : x ++ '.' :: natText j = xj at *
  have key : ∀ (p : Pipe H) (t : PTask) ts out c es ms, S (p.ctx.push (.applied t.id)) → Live p (t :: ts) →
      (p.load x (t :: ts) ≤ 1 ∧ p.load xj (t :: ts) ≤ 1) →
      Tasks P p (t :: ts) → Bind o R x var svc p.ctx.bindings p.ctx.log →
      (∀ u ∈ p.queue ++ t :: ts, u.id = xj → ∃ n w, (x, (n, w)) ∈ p.ctx.bindings) →
      After xj Q p.ctx.log → t.apply o (p.ctx.push (.applied t.id)) = (out, c) →
      c.log = p.ctx.log ++ [.applied t.id] ++ es → .applied xj ∉ es → .applied xj ∉ ms → Marks o t.id out c ms →
      After xj Q (c.log ++ ms) := by
    intro p t ts out c es ms hS hl hload hT hB hR hA ha hlog hna hnm hms
    rw [hlog, List.append_assoc]
    have hna' : .applied xj ∉ es ++ ms := by
      simp only [List.mem_append, not_or]; exact ⟨hna, hnm⟩
    by_cases hid : t.id = xj
    · rw [hid]
      refine hA.start hm ?_ hna'
      obtain ⟨n, w, hb⟩ := hR t (by simp) hid
      obtain ⟨rfl, hheard⟩ := hB.src n w hb
      have h0 := hload.2
      unfold Pipe.load at h0
      rw [pool_tasks, poolCount_cons, Core.count_eq, strip_id, if_pos hid] at h0
      have h1 := hload.1
      unfold Pipe.load at h1
      have hlook : (scopeVars p.ctx.bindings xj).lookup n = some w := by
        rw [← hxx]
        refine bound_lookup (Nat.le_trans (hB.few x) (by omega)) hb ?_
        intro b hbm hbx
        rw [hxx] at hbx
        have h2 := hB.few xj
        have h3 : 0 < p.ctx.bindings.countP (fun b => decide (b.1 = xj)) :=
          List.countP_pos_iff.2 ⟨b, hbm, by simpa using hbx⟩
        omega
      obtain ⟨es', h4, h5⟩ := core_does o (p.ctx.push (.applied t.id)) t.strip
      obtain ⟨fs, h6⟩ := apply_strip (o := o) t (p.ctx.push (.applied t.id))
      have h7 : es = es' ++ fs := by
        rw [ha, hlog, h4] at h6
        have h6' : p.ctx.log ++ [.applied t.id] ++ es = p.ctx.log ++ [.applied t.id] ++ (es' ++ fs) := by
          rw [← List.append_assoc]; exact h6
        exact List.append_cancel_left h6'
      rw [h7, List.append_assoc]
      refine hkey t.strip p.ctx es' w _ (hT t (by simp [Pipe.tasks])).here (by rw [strip_id]; exact hid)
        (hl.queueW t (by simp)) (by rw [← hid]; exact hS) hheard hlook (by rw [← hid]; exact h4) ?_
      rw [← hid]
      rcases apply_kept (o := o) t (p.ctx.push (.applied t.id)) with hk | ⟨hk1, hk2⟩
      · rw [hk]; trivial
      · rw [ha] at hk1 hk2
        replace hk1 : c = (t.strip.apply o (p.ctx.push (.applied t.id))).2 := hk1
        have hfs : fs = [] := by
          rw [ha] at h6
          replace h6 : c.log = (t.strip.apply o (p.ctx.push (.applied t.id))).2.log ++ fs := h6
          rw [← hk1] at h6
          simpa using h6.symm
        rw [hfs, List.nil_append, ← hk1]
        generalize (t.strip.apply o (p.ctx.push (.applied t.id))).1 = out0 at hk2 ⊢
        cases out0 with
        | done =>
          replace hk2 : out = .done := hk2
          subst hk2; exact hms
        | terminate u =>
          obtain ⟨u', hk2, hk3⟩ := hk2
          replace hk2 : out = .terminate u' := hk2
          subst hk2
          show (u.strip.apply o c).2.log ++ [.ended] = c.log ++ ms
          rw [← hk3]; exact hms
        | requeued ts =>
          obtain ⟨ts', hk2⟩ := hk2
          replace hk2 : out = .requeued ts' := hk2
          subst hk2; exact hms
        | deferred tok u =>
          obtain ⟨tok', u', hk2⟩ := hk2
          replace hk2 : out = .deferred tok' u' := hk2
          subst hk2; exact hms
        | failed => trivial
    · rw [List.append_assoc]
      refine hA.append hm ?_
      simp only [List.singleton_append, List.mem_cons, Effect.applied.injEq, not_or]
      exact ⟨fun e => hid e.symm, hna'⟩
  have term : ∀ (p : Pipe H) (t t' : PTask) es, TDoes t (.terminate t') es → After xj Q p.ctx.log →
      After xj Q (p.terminate o t').ctx.log := by
    intro p t t' es hdo hA
    rw [terminate_log]
    rcases does_terminate hdo t' rfl with ⟨h1, _⟩ | ⟨h1, _⟩
    · rw [traced_log h1]
      exact hA.append hm (es := [.ended]) (by simp)
    · rw [traced_log h1]
      obtain ⟨es, h2, h3⟩ := core_does o p.ctx defaultCore
      rw [h2, List.append_assoc]
      refine hA.append hm ?_
      simp only [List.mem_append, not_or]
      exact ⟨core_unapplied h3 xj, by simp⟩
  exact {
    opens := fun p hl h => ⟨⟨(load_extra (o := o) x hx 1).opens p hl h.1.1, (load_extra (o := o) xj hxj 1).opens p hl h.1.2⟩,
      (tasks_extra (o := o) hP).opens p hl h.2.1, h.2.2.1, by simpa using h.2.2.2.1, h.2.2.2.2⟩
    skip := fun p t ts hl h hd => ⟨⟨(load_extra (o := o) x hx 1).skip p t ts hl h.1.1 hd,
      (load_extra (o := o) xj hxj 1).skip p t ts hl h.1.2 hd⟩,
      (tasks_extra (o := o) hP).skip p t ts hl h.2.1 hd, h.2.2.1, by simpa using h.2.2.2.1, h.2.2.2.2⟩
    go := by
      intro p t ts out c es hS hl h hd ha hs hlog hdo
      have hna := does_no_applied hdo xj
      have hA := fun ms hnm => key p t ts out c es ms hS hl h.1 h.2.1 h.2.2.1 h.2.2.2.1 h.2.2.2.2 ha hlog hna hnm
      have hbs : c.bindings = p.ctx.bindings := by
        have := started_bindings (o := o) t (p.ctx.push (.applied t.id)) (hl.queueW t (by simp))
        rw [ha] at this
        exact this
      have hB : Bind o R x var svc c.bindings c.log := by
        rw [hbs, hlog, List.append_assoc]; exact h.2.2.1.append _
      refine ⟨⟨(load_extra (o := o) x hx 1).go p t ts out c es hl h.1.1 hd ha hs hlog hdo,
        (load_extra (o := o) xj hxj 1).go p t ts out c es hl h.1.2 hd ha hs hlog hdo⟩,
        (tasks_extra (o := o) hP).go p t ts out c es hl h.2.1 hd ha hs hlog hdo, ?_⟩
      have hR : ∀ u ∈ p.queue ++ t :: ts, u.id = xj → ∃ n w, (x, (n, w)) ∈ c.bindings := by
        rw [hbs]; exact h.2.2.2.1
      have hR' : ∀ u ∈ p.queue ++ ts, u.id = xj → ∃ n w, (x, (n, w)) ∈ c.bindings := by
        intro u hu
        refine hR u ?_
        rcases List.mem_append.1 hu with hu | hu <;> simp [hu]
      cases out with
      | done => exact ⟨hB.append [.completed t.id], hR', hA [.completed t.id] (by simp) rfl⟩
      | failed => exact ⟨hB.append [.failed t.id], hR', hA [.failed t.id] (by simp) trivial⟩
      | deferred => exact ⟨hB, hR', (List.append_nil c.log) ▸ hA [] (by simp) rfl⟩
      | requeued new =>
        refine ⟨hB, ?_, (List.append_nil c.log) ▸ hA [] (by simp) rfl⟩
        intro u hu hid
        replace hu : u ∈ p.queue ++ new ++ ts := hu
        rw [List.append_assoc, List.mem_append, List.mem_append] at hu
        rcases hu with hu | hu | hu
        · exact hR' u (by simp [hu]) hid
        · have h1 := apply_res o (p.ctx.push (.applied t.id)) t
          rw [ha] at h1
          refine hR t (by simp) ?_
          generalize hk : t.strip = k at h1
          cases h1 with
          | plain _ _ _ _ ho =>
            cases ho with
            | requeued t' ht' =>
              simp only [List.mem_singleton] at hu
              subst hu
              rw [← strip_id, hk]
              rw [← strip_id] at hid
              generalize u.strip = k' at ht' hid
              cases ht' <;> exact hid
          | answered id guard svc var onReply es hk' =>
            have := hl.queueW t (by simp)
            rw [hk, hk'] at this
            cases this
        · exact hR' u (by simp [hu]) hid
      | terminate t' => simp [Outcome.stops] at hs
    stop := by
      intro p t ts t' c es hS hl h hd ha hlog hdo
      obtain ⟨ms, hms, hnm⟩ := ended_marks (o := o) c hdo xj
      have hA := key p t ts _ c es ms hS hl h.1 h.2.1 h.2.2.1 h.2.2.2.1 h.2.2.2.2 ha hlog (does_no_applied hdo xj) hnm
      rw [terminate_log]
      show After xj Q ((t'.apply o c).2.log ++ [.ended])
      rw [hms]
      refine hA ?_
      show (t'.strip.apply o c).2.log ++ [.ended] = c.log ++ ms
      rw [← hms]
      congr 1
      rcases does_terminate hdo t' rfl with ⟨h1, _⟩ | ⟨h1, _⟩
      · rw [traced_log h1, traced_strip h1]
      · rw [traced_log h1, traced_strip h1]
    tear := by
      intro p hl h hq hd
      have htd := tornDown (o := o) p
      obtain ⟨es, h1, h2, _⟩ := htd.log
      refine ⟨⟨(load_extra (o := o) x hx 1).tear p hl h.1.1 hq hd, (load_extra (o := o) xj hxj 1).tear p hl h.1.2 hq hd⟩,
        (tasks_extra (o := o) hP).tear p hl h.2.1 hq hd, ?_, ?_, ?_⟩
      · rw [h1, htd.bindings]; exact h.2.2.1.append _
      · rw [htd.queue, hq]; simp
      · rw [h1]; exact h.2.2.2.2.append hm fun hmm => by simpa [Effect.isTear] using h2 _ hmm
    bury := by
      intro p hd h
      obtain ⟨es, h1, h2, _⟩ := (tornDown (o := o) p).log
      rw [h1]
      exact h.append hm fun hmm => by simpa [Effect.isTear] using h2 _ hmm
    late := fun p token s z hl h hg => ⟨⟨(load_extra (o := o) x hx 1).late p token s z hl h.1.1 hg,
      (load_extra (o := o) xj hxj 1).late p token s z hl h.1.2 hg⟩, h.2.1, h.2.2.1.append _, h.2.2.2.1,
      h.2.2.2.2.append hm (es := [.responded token s z]) (by simp)⟩
    answer := by
      intro p token s z t out c es hR hl h hg ha hs hlog hdo
      have hna := does_no_applied hdo xj
      have hA : After xj Q c.log := by
        rw [hlog, List.append_assoc]
        refine h.2.2.2.2.append hm ?_
        simp only [List.singleton_append, List.mem_cons, not_or]
        exact ⟨by simp, hna⟩
      have hmem : t ∈ p.tasks [] := by
        simp only [Pipe.tasks, List.mem_append, List.mem_map]
        exact .inr ⟨(token, t), mapGet_mem hg, rfl⟩
      have hbinder := hPB _ (h.2.1 t hmem).here
      have hw := hl.deferW _ (mapGet_mem hg)
      refine ⟨⟨(load_extra (o := o) x hx 1).answer p token s z t out c es hl h.1.1 hg ha hs hlog hdo,
        (load_extra (o := o) xj hxj 1).answer p token s z t out c es hl h.1.2 hg ha hs hlog hdo⟩,
        (tasks_extra (o := o) hP).answer p token s z t out c es hl h.2.1 hg ha hs hlog hdo, ?_⟩
      have hsame : c.bindings = p.ctx.bindings → (∀ ts, out ≠ .requeued ts) →
          Bind o R x var svc (Pipe.replied { p.answering token s z with ctx := c } t.id out).ctx.bindings
            (Pipe.replied { p.answering token s z with ctx := c } t.id out).ctx.log ∧
          (∀ u ∈ (Pipe.replied { p.answering token s z with ctx := c } t.id out).queue ++ [], u.id = xj →
            ∃ n w, (x, (n, w)) ∈ (Pipe.replied { p.answering token s z with ctx := c } t.id out).ctx.bindings) ∧
          After xj Q (Pipe.replied { p.answering token s z with ctx := c } t.id out).ctx.log := by
        intro hbs hnr
        have hB : Bind o R x var svc c.bindings c.log := by
          rw [hbs, hlog, List.append_assoc]; exact h.2.2.1.append _
        have hR : ∀ u ∈ p.queue ++ [], u.id = xj → ∃ n w, (x, (n, w)) ∈ c.bindings := by
          rw [hbs]; exact h.2.2.2.1
        cases out with
        | done => exact ⟨hB.append [.completed t.id], hR, hA.append hm (es := [.completed t.id]) (by simp)⟩
        | failed => exact ⟨hB.append [.failed t.id], hR, hA.append hm (es := [.failed t.id]) (by simp)⟩
        | deferred => exact ⟨hB, hR, hA⟩
        | requeued new => exact absurd rfl (hnr new)
        | terminate t' => simp [Outcome.stops] at hs
      have hkk : ∀ k, t.strip = k → k.waits = true → (∃ id guard svc' var' kids, k = .pending id guard svc' var' kids) ∨
          ∃ id guard, k = .noop id guard := by
        intro k _ hw
        cases k <;> simp [Core.waits] at hw
        · exact .inl ⟨_, _, _, _, _, rfl⟩
        · exact .inr ⟨_, _, rfl⟩
      rcases hkk _ rfl hw with ⟨id, guard, svc', var', kids, hk⟩ | ⟨id, guard, hk⟩
      · have hidt : t.id = id := by rw [← strip_id, hk]; rfl
        have hab := answered_bindings (o := o) t (p.answering token s z).ctx id guard svc' var' kids s z hk rfl
        rw [ha] at hab
        rcases hab with ⟨h1, h2⟩ | ⟨rfl, h2, v, ts, h3, h4, h5, h6⟩
        · exact hsame h1 h2
        · replace h5 : out = .requeued ts := h5
          subst h5
          replace h4 : c.bindings = p.ctx.bindings ++ [(id, (var', v))] := h4
          replace h2 : c.log = p.ctx.log ++ [.responded token 0 z] := h2
          refine ⟨⟨?_, ?_⟩, ?_, hA.append hm (es := [.completed t.id]) (by simp)⟩
          · intro y
            show c.bindings.countP _ ≤ (c.log ++ [Effect.completed t.id]).countP _
            rw [h4, h2, List.countP_append, List.countP_append, List.countP_append]
            have := h.2.2.1.few y
            have h7 : [(id, (var', v))].countP (fun b => decide (b.1 = y)) = [Effect.completed t.id].countP (settles y) := by
              rw [hidt]
              simp [settles]
            omega
          · intro n w hmem'
            replace hmem' : (x, (n, w)) ∈ c.bindings := hmem'
            show n = var ∧ Heard o R x svc w (c.log ++ [.completed t.id])
            rw [h4, List.mem_append] at hmem'
            rcases hmem' with hmem' | hmem'
            · rw [h2, List.append_assoc]
              exact ⟨(h.2.2.1.src n w hmem').1, (h.2.2.1.src n w hmem').2.append _⟩
            · simp only [List.mem_singleton, Prod.mk.injEq] at hmem'
              obtain ⟨rfl, rfl, rfl⟩ := hmem'
              obtain ⟨rfl, rfl⟩ := hbinder.wait (by rw [strip_id]; exact hidt) _ _ _ _ _ hk
              refine ⟨rfl, p.ctx.log, token, z, [], by rw [h2, hidt]; simp, hl.ended, _, ?_, rfl, h3⟩
              have := hl.slot
              simp only [Pipe.answering, ← this]
              exact hR
          · intro u hu hid
            show ∃ n w, (x, (n, w)) ∈ c.bindings
            replace hu : u ∈ ts ++ p.queue ++ [] := hu
            rw [List.append_nil, List.mem_append] at hu
            rcases hu with hu | hu
            · have hc : u.strip ∈ t.strip.children := by
                rw [hk, Core.children, ← h6]
                exact List.mem_map_of_mem hu
              have := hbinder.kids _ hc (by rw [strip_id]; exact hid)
              rw [strip_id, hidt] at this
              subst this
              exact ⟨var', v, by rw [h4]; simp⟩
            · obtain ⟨n, w, hb⟩ := h.2.2.2.1 u (by simp [hu]) hid
              exact ⟨n, w, by rw [h4]; simp [hb]⟩
      · have hr := apply_res o (p.answering token s z).ctx t
        have hbs : c.bindings = p.ctx.bindings ∧ ∀ ts, out ≠ .requeued ts := by
          have hn := noop_bindings (o := o) t (p.answering token s z).ctx id guard hk
          rw [ha] at hn
          exact hn
        exact hsame hbs.1 hbs.2
    answerStop := by
      intro p token s z t t' c es hR hl h hg ha hlog hdo
      refine term { p.answering token s z with ctx := c } t t' es hdo ?_
      show After xj Q c.log
      rw [hlog, List.append_assoc]
      refine h.2.2.2.2.append hm ?_
      simp only [List.singleton_append, List.mem_cons, not_or]
      exact ⟨by simp, does_no_applied hdo xj⟩
    frame := by
      intro p c' hl h hf
      obtain ⟨es, h1, h2⟩ := hf.log
      refine ⟨⟨(load_extra (o := o) x hx 1).frame p c' hl h.1.1 hf, (load_extra (o := o) xj hxj 1).frame p c' hl h.1.2 hf⟩,
        h.2.1, ?_, ?_, ?_⟩
      · show Bind o R x var svc c'.bindings c'.log
        rw [h1, hf.bindings]; exact h.2.2.1.append _
      · show ∀ t ∈ p.queue ++ [], t.id = xj → ∃ n w, (x, (n, w)) ∈ c'.bindings
        rw [hf.bindings]; exact h.2.2.2.1
      · show After xj Q c'.log
        rw [h1]; exact h.2.2.2.2.append hm fun hmm => by simpa [Effect.isFilter] using h2 _ hmm
    frameD := by
      intro p c' hd h hf
      obtain ⟨es, h1, h2⟩ := hf.log
      show After xj Q c'.log
      rw [h1]; exact h.append hm fun hmm => by simpa [Effect.isFilter] using h2 _ hmm
    lateD := fun p token s z hd h hg => h.append hm (es := [.responded token s z]) (by simp)
    answerD := by
      intro p token s z id guard hd h hg
      rw [dropped_log, List.append_assoc]
      exact h.append hm (by simp) }

/-- Identifiers of reply actions. -/
def KidIds (y : Action) : Prop :=
  ∀ head svc var msg acts, y = .grpc head svc var msg acts → ∀ b ∈ acts, ∃ i, b.head.id = head.id ++ '.' :: natText i

theorem Compiled.kidIds {parse : Text → Option Expr} {services : Text → Option SvcInst} {id : Text} {t : TypedAction}
    {x : Action} (h : Compiled parse services id t x) : Action.All KidIds x := by
  induction h with
  | grpc id h service var message onReply pred kind svc deny msg replies hp hs hm hl hseq hr ih =>
    have hkid : ∀ b ∈ replies, ∃ (i : Nat) (a : TypedAction), onReply[i]? = some a ∧ replies[i]? = some b := by
      intro b hbm
      obtain ⟨i, hi, rfl⟩ := List.mem_iff_getElem.1 hbm
      have hi' : i < onReply.length := by omega
      exact ⟨i, onReply[i], by simp [hi'], by simp [hi]⟩
    refine .mk _ ?_ ?_
    · intro head svc' var' msg' acts heq b hbm
      cases heq
      obtain ⟨i, a, h1, h2⟩ := hkid b hbm
      exact ⟨i, (hr i a b h1 h2).head_id⟩
    · intro head svc' var' msg' acts heq b hbm
      cases heq
      obtain ⟨i, a, h1, h2⟩ := hkid b hbm
      exact ih i a b h1 h2
  | _ =>
    refine .mk _ ?_ (by simp)
    simp [KidIds]

theorem fromSet_kidIds {parse : Text → Option Expr} {cfg : PluginConfig} {s : ActionSet} {b : Blueprint}
    (hfs : FromSet parse cfg s b) : ∀ a ∈ b.actions, Action.All KidIds a := by
  refine set_all hfs ?_ ?_
  · intro i a deps ha hd t x hst hco
    refine hco.kidIds.withDeps ?_
    intro hk head svc var msg acts heq b hb
    cases x <;> simp only [Action.withDeps, Action.grpc.injEq, reduceCtorEq] at heq
    rename_i head' _ _ _ _
    obtain ⟨i, hi⟩ := hk _ _ _ _ _ rfl b (by rw [heq.2.2.2.2]; exact hb)
    exact ⟨i, by rw [hi, ← heq.1]⟩
  · refine dev_all ?_
    intro head service var hid _
    intro _ _ _ _ acts heq b hb
    cases heq
    simp at hb

theorem Core.All.and {P Q : Core → Prop} {k : Core} (h : Core.All P k) (g : Core.All Q k) :
    Core.All (fun k => P k ∧ Q k) k := by
  induction h with
  | mk k h _ ih => exact .mk _ ⟨h, g.here⟩ fun c hc => ih c hc (g.sub c hc)

theorem Closed.and {P Q : Core → Prop} (h : Closed P) (g : Closed Q) : Closed (fun k => P k ∧ Q k) where
  again k k' hk ha := ⟨h.again k k' hk.1 ha, g.again k k' hk.2 ha⟩
  sent _ _ _ _ _ _ _ _ hk := ⟨h.sent _ _ _ _ _ _ _ _ hk.1, g.sent _ _ _ _ _ _ _ _ hk.2⟩
  noop id guard := ⟨h.noop id guard, g.noop id guard⟩

/-- The parent of a task with a child `x.j` is `x`. -/
def ParentOf (x : Text) (j : Nat) (k : Core) : Prop :=
  ∀ kid ∈ k.children, kid.id = x ++ '.' :: natText j → k.id = x

theorem parentOf_closed (x : Text) (j : Nat) : Closed (ParentOf x j) where
  again k k' h ha := by cases ha <;> first | exact h | simp [ParentOf, Core.children]
  sent := fun _ _ _ _ _ _ _ _ h => h
  noop := by simp [ParentOf, Core.children]

theorem fromSet_parentOf {parse : Text → Option Expr} {cfg : PluginConfig} {s : ActionSet} {b : Blueprint} {c : Ctx H}
    {p : Pipe H} (hb : Built c b p) (hfs : FromSet parse cfg s b) (x : Text) (j : Nat) : Tasks (ParentOf x j) p [] := by
  refine built_all' hb (fromSet_kidIds hfs) ?_ (by simp [ParentOf, Core.children])
  intro a k ha hm kid hk hid
  cases hm with
  | call head kind svc deny var msg acts kids hlen hkids =>
    obtain ⟨y, hy, hz⟩ := zip_partner hlen hk
    obtain ⟨i, hi⟩ := ha _ _ _ _ _ rfl y hy
    have h1 := (hkids _ hz).id
    rw [show kid.id = y.head.id from h1, hi] at hid
    exact (split_last (dot_natText i) (dot_natText j) hid).1
  | _ => simp [Core.children] at hk

/-- Action `x` is a call of `svc` with reply actions `x.0`, `x.1`, … that bind the response to `var`. -/
def Replier (x var : Text) (svc : Svc) (n : Nat) (k : Core) : Prop :=
  k.id = x →
    (k.waits = false → ∃ deps guard pred msg kids, k = .grpc x deps guard pred msg var svc kids ∧
      kids.map Core.id = replyIds x n ∧ ∀ kid ∈ kids, kid.deps = []) ∧
    (∀ id guard svc' var' kids, k = .pending id guard svc' var' kids → svc' = svc ∧ var' = var ∧
      kids.map Core.id = replyIds x n ∧ ∀ kid ∈ kids, kid.deps = [])

theorem replier_closed (x var : Text) (svc : Svc) (n : Nat) : Closed (Replier x var svc n) where
  again k k' h ha := by
    cases ha with
    | same => exact h
    | store id pred' e path y terminal s s' =>
      intro hid
      obtain ⟨_, _, _, _, _, h2, _⟩ := (h hid).1 rfl
      cases h2
    | tokenUsage =>
      intro hid
      obtain ⟨_, _, _, _, _, h2, _⟩ := (h hid).1 rfl
      cases h2
  sent := by
    intro id deps guard pred' msg' var' svc' r h hid
    refine ⟨by simp [Core.waits], ?_⟩
    intro id' guard' svc2 var2 kids heq
    obtain ⟨_, _, _, _, _, h2, h3, h4⟩ := (h hid).1 rfl
    cases heq
    cases h2
    exact ⟨rfl, rfl, h3, h4⟩
  noop := by
    intro id guard hid
    exact ⟨by simp [Core.waits], by simp⟩

theorem Compiled.deps_nil {parse : Text → Option Expr} {services : Text → Option SvcInst} {id : Text} {t : TypedAction}
    {x : Action} (h : Compiled parse services id t x) {k : Core} (hm : Made x k) : k.deps = [] := by
  cases h <;> cases hm <;> rfl

theorem fromSet_replier {parse : Text → Option Expr} {cfg : PluginConfig} {s : ActionSet} {b : Blueprint} {c : Ctx H}
    {p : Pipe H} (hb : Built c b p) (hfs : FromSet parse cfg s b) {x : Text} {head : TypedHead}
    {service var message : Text} {replies : List TypedAction}
    (hat : At cfg.services s x (.grpc head service var message replies)) {kind : SvcKind} {svc : Svc} {deny : Bool}
    (hsvc : cfg.services service = some (.call kind svc deny)) :
    Tasks (Replier x var svc replies.length) p [] := by
  refine fromSet_tasks hb hfs hat (fun k hk hid => absurd hid hk) ?_
  intro y deps k hco hm _
  cases hco with
  | grpc _ _ _ _ _ _ pred kind' svc' deny' msg acts hp hs hmm hl hseq hr =>
    rw [hsvc] at hs
    cases hs
    generalize hy : Action.withDeps deps _ = y at hm
    cases hm with
    | call head' _ _ _ _ _ acts' kids hlen hkids =>
      simp only [Action.withDeps, Action.grpc.injEq, SvcInst.call.injEq] at hy
      obtain ⟨rfl, ⟨rfl, rfl, rfl⟩, rfl, rfl, rfl⟩ := hy
      have hz : ∀ (i : Nat) (kid : Core), kids[i]? = some kid → ∃ (a : TypedAction) (y : Action),
          Compiled parse cfg.services (x ++ '.' :: natText i) a y ∧ Made y kid := by
        intro i kid hi
        obtain ⟨hi1, hi2⟩ := List.getElem?_eq_some_iff.1 hi
        have hi3 : i < acts.length := by omega
        have hi4 : i < replies.length := by omega
        refine ⟨replies[i], acts[i], hr i _ _ (by simp [hi4]) (by simp [hi3]), ?_⟩
        refine hkids (acts[i], kid) ?_
        rw [List.mem_iff_getElem]
        exact ⟨i, by rw [List.length_zip]; omega, by simp [hi2]⟩
      refine ⟨fun _ => ⟨_, _, _, _, _, rfl, ?_, ?_⟩, by simp⟩
      · apply List.ext_getElem?
        intro i
        unfold replyIds
        rw [List.getElem?_map, List.getElem?_map]
        by_cases hi : i < kids.length
        · obtain ⟨a, y, h1, h2⟩ := hz i kids[i] (by simp [hi])
          rw [List.getElem?_eq_getElem hi, List.getElem?_range (by omega)]
          simp [h2.id, h1.head_id]
        · rw [List.getElem?_eq_none (by omega), List.getElem?_eq_none (by simp; omega)]
          rfl
      · intro kid hkid
        obtain ⟨i, hi, rfl⟩ := List.mem_iff_getElem.1 hkid
        obtain ⟨a, y, h1, h2⟩ := hz i kids[i] (by simp [hi])
        exact h1.deps_nil h2
    | _ => simp [Action.withDeps] at hy

theorem Replier.binder {x var : Text} {svc : Svc} {n j : Nat} {k : Core} (h : Replier x var svc n k)
    (g : ParentOf x j k) : Binder x var (x ++ '.' :: natText j) svc k where
  own hid hw := by
    obtain ⟨deps, guard, pred, msg, kids, h1, _⟩ := (h hid).1 hw
    exact ⟨deps, guard, pred, msg, kids, h1⟩
  wait hid id guard svc' var' kids hk := ⟨((h hid).2 _ _ _ _ _ hk).1, ((h hid).2 _ _ _ _ _ hk).2.1⟩
  kids := g

/-- A new pipeline has no reply actions in its queue. -/
theorem fromSet_tops {parse : Text → Option Expr} {cfg : PluginConfig} {s : ActionSet} {b : Blueprint} {c : Ctx H}
    {p : Pipe H} (hb : Built c b p) (hfs : FromSet parse cfg s b) {x : Text} {j : Nat} (hx : Plainly x) :
    ∀ t ∈ p.queue, t.id ≠ x ++ '.' :: natText j := by
  have hxj : Plainly (x ++ '.' :: natText j) := by
    constructor
    · simp only [List.mem_append, List.mem_cons, not_or]
      exact ⟨hx.1, by decide, fun h => absurd (natText_digit h) (by decide)⟩
    · simp only [List.mem_append, List.mem_cons, not_or]
      exact ⟨hx.2, by decide, fun h => absurd (natText_digit h) (by decide)⟩
  intro t ht hid
  rcases hb.tops.mem t ht with ⟨fields, rfl⟩ | ⟨a, ha, hm⟩
  · refine hxj.1 ?_
    rw [← hid]
    show 't' ∈ "token_usage".toList
    decide
  · rw [← strip_id, hm.id] at hid
    obtain ⟨xs, hxs, hc⟩ := hfs.actions
    rw [hxs] at ha
    rcases List.mem_append.1 ha with ha | ha
    · obtain ⟨hl, hr⟩ := compileLoop_compiled parse cfg.services 0 _ xs hc
      obtain ⟨i, hi, rfl⟩ := List.mem_iff_getElem.1 ha
      have hi' : i < (s.actions.zip (computeDeps s.actions)).length := by omega
      obtain ⟨t, y, hst, hco, heq⟩ := hr i (s.actions.zip (computeDeps s.actions))[i].1
        (s.actions.zip (computeDeps s.actions))[i].2 _ (List.getElem?_eq_getElem hi') (List.getElem?_eq_getElem hi)
      rw [heq, withDeps_id, hco.head_id, Nat.zero_add] at hid
      exact dot_natText i (by rw [hid]; simp)
    · obtain ⟨head, service, var, rfl, h1, h2⟩ := devMode_shape (cfg := cfg) (a := a) (by simpa using ha)
      refine hxj.2 ?_
      rw [← hid]
      show 'k' ∈ head.id
      rw [h1]
      decide

/-- What a reply action does when it starts, in a context in which the response is in scope. -/
theorem bound_run {parse : Text → Option Expr} {cfg : PluginConfig} {factory : Factory} {host : H}
    {s : ActionSet} (hs : ServedBy o parse cfg factory host s) {x : Text} {head : TypedHead}
    {service var message : Text} {replies : List TypedAction}
    (hat : At cfg.services s x (.grpc head service var message replies)) {kind : SvcKind} {svc : Svc} {deny : Bool}
    (hsvc : cfg.services service = some (.call kind svc deny)) {j : Nat} {t : TypedAction} (hj : replies[j]? = some t)
    {R : Core → Prop} (hR : Closed R)
    (hon : ∀ y deps k, Compiled parse cfg.services (x ++ '.' :: natText j) t y → Made (y.withDeps deps) k → R k)
    (hoff : ∀ k, k.id ≠ x ++ '.' :: natText j → R k)
    {events : List (Event H)} {Q : List Effect → List Effect → Prop} (hm : ∀ pre post es, Q pre post → Q pre (post ++ es))
    (hkey : ∀ k (c : Ctx H) es w fs, R k → k.id = x ++ '.' :: natText j → k.waits = false →
      Acting o factory host events (c.push (.applied (x ++ '.' :: natText j))) →
      Heard o (Hearing o factory host events) x svc w c.log →
      (scopeVars c.bindings (x ++ '.' :: natText j)).lookup var = some w →
      (k.apply o (c.push (.applied (x ++ '.' :: natText j)))).2.log = c.log ++ [.applied (x ++ '.' :: natText j)] ++ es →
      Marks o (x ++ '.' :: natText j) (k.apply o (c.push (.applied (x ++ '.' :: natText j)))).1
        (k.apply o (c.push (.applied (x ++ '.' :: natText j)))).2 fs →
      Q c.log (es ++ fs)) : After (x ++ '.' :: natText j) Q (Filter.run o factory host events).log := by
  have hatj : At cfg.services s (x ++ '.' :: natText j) t := .reply hat hj
  by_cases hb : ∃ p, factory.build o { host := host } = .pipeline p
  · obtain ⟨p, hb⟩ := hb
    obtain ⟨b, hbuilt, hfs⟩ := servedBy_fromSet hs hb
    have hlog0 : (p.push .hits).ctx.log = [.hits] := by simp [Pipe.push, Ctx.push, hbuilt.quiet.log]
    have hbs0 : (p.push .hits).ctx.bindings = [] := hbuilt.quiet.bindings
    have hg := (bound_extra (o := o) (P := fun k => (Replier x var svc replies.length k ∧ ParentOf x j k) ∧ R k)
      (((replier_closed _ _ _ _).and (parentOf_closed x j)).and hR) hat.plainly.teardown hatj.plainly.teardown
      (fun k h => h.1.1.binder h.1.2) hm (fun k c es w fs hk => hkey k c es w fs hk.2)).run factory host events p hb ?_
    · refine hg.log (Q := After (x ++ '.' :: natText j) Q) ?_
      rintro q (⟨_, _, _, _, _, h⟩ | ⟨_, h⟩) <;> exact h
    · refine ⟨⟨?_, ?_⟩, ?_, ?_, ?_, ?_⟩
      · unfold Pipe.load
        rw [hlog0]
        have := fromSet_load hbuilt hfs hat.plainly
        show 0 + poolCount x (p.tasks []) ≤ 1
        omega
      · unfold Pipe.load
        rw [hlog0]
        have := fromSet_load hbuilt hfs hatj.plainly
        show 0 + poolCount _ (p.tasks []) ≤ 1
        omega
      · intro t ht
        exact ((fromSet_replier hbuilt hfs hat hsvc t ht).and (fromSet_parentOf hbuilt hfs x j t ht)).and
          (fromSet_tasks hbuilt hfs hatj hoff hon t ht)
      · rw [hbs0]
        exact ⟨by simp, by simp⟩
      · intro t ht hid
        rw [List.append_nil] at ht
        exact absurd hid (fromSet_tops hbuilt hfs hat.plainly t ht)
      · rw [hlog0]
        intro pre post h
        have := congrArg (Effect.applied (x ++ '.' :: natText j) ∈ ·) h
        simp at this
  · have hp := unrelated_run_idle (o := o) factory host events (fun p hp => hb ⟨p, hp⟩)
    intro pre post h
    have := hp (.applied (x ++ '.' :: natText j)) (by rw [h]; simp)
    simp [Effect.unrelated] at this

end Verif
