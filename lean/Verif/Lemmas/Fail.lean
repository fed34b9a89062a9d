import Verif.Lemmas.Deps
import Verif.Lemmas.Moments
/-! Failing gRPC actions. -/
set_option linter.unusedSimpArgs false
namespace Verif
open Spec

variable {H : Type} {o : Oracle H}

/-- The task of a gRPC action with its failure mode. -/
def guarded (d : Bool) : PTask → Bool
  | .failureMode (.core k) a => a == d && k.isCall
  | .tracing t => guarded d t
  | _ => false

/-- Only a failing task reports the failure of a call, of its own. -/
theorem does_callFailed {t : PTask} {out : Outcome} {es : List Effect} (h : TDoes t out es) (y : Text)
    (hy : .callFailed y ∈ es) : y = t.id := by
  induction h with
  | core h =>
    cases h with
    | stored id pred e path x terminal s v pre hp =>
      rcases hp with ⟨rfl, _⟩ | ⟨b, w, rfl, _⟩ <;> simp at hy
    | callFailed k h => simpa [PTask.id] using hy
    | _ => simp at hy
  | abort h ih => exact ih (by simpa using hy)
  | allow h ih => exact ih (by simpa using hy)
  | sent h ih => exact ih hy
  | done h ih => exact ih hy
  | again h ih => exact ih hy
  | stop h ih => exact ih hy
  | tracing h ih => exact ih hy

/-- What a gRPC task does. -/
theorem call_does {k : Core} {out : Outcome} {es : List Effect} (h : Does k out es) (hk : k.isCall = true) :
    (es = [.callFailed k.id] ∧ out = .failed) ∨
    ((∀ y, .callFailed y ∉ es) ∧ out ≠ .failed ∧ out.stops = false ∧
      ∀ tok t', out = .deferred tok t' → ∃ k', t' = .core k' ∧ k'.isCall = true) := by
  cases h with
  | callFailed => exact .inl ⟨rfl, rfl⟩
  | failed h h' => rw [h'] at hk; simp at hk
  | sent => 
    refine .inr ⟨by simp, by simp, rfl, ?_⟩
    intro tok t' ht
    simp only [Outcome.deferred.injEq] at ht
    exact ⟨_, ht.2.symm, rfl⟩
  | done | again | answered | replies => exact .inr ⟨by simp, by simp, rfl, by simp⟩
  | _ => simp [Core.isCall] at hk

/-- What a gRPC action with its failure mode does. -/
theorem guarded_does {d : Bool} {t : PTask} {out : Outcome} {es : List Effect} (h : TDoes t out es)
    (hg : guarded d t = true) :
    (es = [.callFailed t.id, .errors] ∧ ((d = true ∧ ∃ t', out = .terminate t' ∧ Traced defaultCore t') ∨
      (d = false ∧ out = .done))) ∨
    ((∀ y, .callFailed y ∉ es) ∧ out ≠ .failed ∧ out.stops = false ∧
      ∀ tok t', out = .deferred tok t' → guarded d t' = true) := by
  have hcore : ∀ {t a out es}, TDoes t out es → guarded d (.failureMode t a) = true →
      a = d ∧ ∃ k, t = .core k ∧ ((es = [.callFailed t.id] ∧ out = .failed) ∨
        ((∀ y, .callFailed y ∉ es) ∧ out ≠ .failed ∧ out.stops = false ∧
          ∀ tok t', out = .deferred tok t' → ∃ k', t' = .core k' ∧ k'.isCall = true)) := by
    intro t a out es h hg
    cases t with
    | core k =>
      simp only [guarded, Bool.and_eq_true, beq_iff_eq] at hg
      cases h with
      | core h => exact ⟨hg.1, k, rfl, call_does h hg.2⟩
    | _ => simp [guarded] at hg
  induction h with
  | core => simp [guarded] at hg
  | abort h ih =>
    obtain ⟨rfl, k, rfl, ⟨rfl, _⟩ | ⟨_, h, _⟩⟩ := hcore h hg
    · exact .inl ⟨rfl, .inl ⟨rfl, _, rfl, .core⟩⟩
    · simp at h
  | allow h ih =>
    obtain ⟨rfl, k, rfl, ⟨rfl, _⟩ | ⟨_, h, _⟩⟩ := hcore h hg
    · exact .inl ⟨rfl, .inr ⟨rfl, rfl⟩⟩
    · simp at h
  | sent h ih =>
    obtain ⟨rfl, k, rfl, ⟨_, h⟩ | ⟨h1, _, _, h4⟩⟩ := hcore h hg
    · simp at h
    · refine .inr ⟨h1, by simp, rfl, ?_⟩
      intro tok t' ht
      simp only [Outcome.deferred.injEq] at ht
      obtain ⟨rfl, rfl⟩ := ht
      obtain ⟨k', rfl, hk'⟩ := h4 _ _ rfl
      simp [guarded, hk']
  | done h ih =>
    obtain ⟨rfl, k, rfl, ⟨_, h⟩ | ⟨h1, _, _, h4⟩⟩ := hcore h hg
    · simp at h
    · exact .inr ⟨h1, by simp, rfl, by simp⟩
  | again h ih =>
    obtain ⟨rfl, k, rfl, ⟨_, h⟩ | ⟨h1, _, _, h4⟩⟩ := hcore h hg
    · simp at h
    · exact .inr ⟨h1, by simp, rfl, by simp⟩
  | stop h ih =>
    obtain ⟨rfl, k, rfl, ⟨_, h⟩ | ⟨h1, _, h3, h4⟩⟩ := hcore h hg
    · simp at h
    · simp [Outcome.stops] at h3
  | tracing h ih =>
    rename_i t out es
    rcases ih hg with ⟨h1, ⟨h2, t', rfl, h3⟩ | ⟨h2, rfl⟩⟩ | ⟨h1, h2, h3, h4⟩
    · exact .inl ⟨h1, .inl ⟨h2, _, rfl, .tracing h3⟩⟩
    · exact .inl ⟨h1, .inr ⟨h2, rfl⟩⟩
    · refine .inr ⟨h1, ?_, ?_, ?_⟩
      · cases out <;> simp_all [Outcome.traced]
      · cases out <;> simp_all [Outcome.traced, Outcome.stops]
      · intro tok t' ht
        cases out <;> simp [Outcome.traced] at ht
        obtain ⟨rfl, rfl⟩ := ht
        exact (h4 _ _ rfl : guarded d _ = true)

theorem traced_unique {k k' : Core} {t : PTask} (h : Traced k t) (h' : Traced k' t) : k = k' := by
  induction h with
  | core => cases h'; rfl
  | tracing h ih => cases h' with | tracing h' => exact ih h'

/-- What follows a failure of the action. -/
def Follow (d : Bool) (x : Text) (post : List Effect) : Prop :=
  if d then FailsClosed post else FailsOpen x post

theorem Follow.append {d : Bool} {x : Text} {a : List Effect} (h : Follow d x a) (b : List Effect) :
    Follow d x (a ++ b) := by
  unfold Follow at h ⊢
  split
  · rw [if_pos (by assumption)] at h
    obtain ⟨hs, acc, rest, rfl⟩ := h
    exact ⟨hs, acc, rest ++ b, rfl⟩
  · rw [if_neg (by assumption)] at h
    obtain ⟨rest, rfl⟩ := h
    exact ⟨rest ++ b, rfl⟩

/-- Failures of an action started once are followed up. -/
def Follows (d : Bool) (x : Text) (log : List Effect) : Prop :=
  ∀ pre post, log = pre ++ .callFailed x :: post → timesStarted x pre ≤ 1 → Follow d x post

theorem Follows.step {d : Bool} {x : Text} {a es : List Effect} (h : Follows d x a)
    (hes : ∀ u v, es = u ++ .callFailed x :: v → timesStarted x (a ++ u) ≤ 1 → Follow d x v) :
    Follows d x (a ++ es) := by
  intro pre post hlog hn
  rcases List.append_eq_append_iff.1 hlog with ⟨u, rfl, h4⟩ | ⟨bs, h3, h4⟩
  · exact hes u post h4 hn
  · cases bs with
    | nil =>
      simp only [List.append_nil, List.nil_append] at h3 h4
      subst h3
      exact hes [] post h4.symm (by simpa using hn)
    | cons y bs =>
      simp only [List.cons_append, List.cons.injEq] at h4
      obtain ⟨rfl, rfl⟩ := h4
      exact (h pre bs h3 hn).append es

theorem Follows.quiet {d : Bool} {x : Text} {a es : List Effect} (h : Follows d x a)
    (hes : .callFailed x ∉ es) : Follows d x (a ++ es) :=
  h.step fun u v hx _ => absurd (by rw [hx]; simp) hes

theorem timesStarted_append (x : Text) (a b : List Effect) :
    timesStarted x (a ++ b) = timesStarted x a + timesStarted x b := by
  simp [timesStarted]

/-- The state of an action with its failure mode. -/
structure Minded (d : Bool) (x : Text) (p : Pipe H) (todo : List PTask) : Prop where
  kids : Tasks (kidless x) p todo
  queued : ∀ t ∈ p.queue ++ todo, t.id = x → guarded d t = true ∨ 1 ≤ timesStarted x p.ctx.log
  sent : ∀ e ∈ p.deferred, e.2.id = x → guarded d e.2 = true ∨ 2 ≤ timesStarted x p.ctx.log
  evs : Follows d x p.ctx.log

theorem out_id {t t' : PTask} {out : Outcome} {es : List Effect} {x : Text} (h : TDoes t out es)
    (hk : kidless x t.strip) (ht : t' ∈ out.tasks) (hid : t'.id = x) : t.id = x := by
  rcases does_out h with h | ⟨t2, h1, h2, _⟩ | ⟨_, _, h3⟩
  · simp [h] at ht
  · rw [h1, List.mem_singleton] at ht
    subst ht
    rw [← h2, hid]
  · exact absurd (by rw [strip_id]; exact hid) (hk _ (h3 t' ht))

theorem timesStarted_one (x y : Text) (rest : List Effect) :
    timesStarted x (.applied y :: rest) = timesStarted x rest + if y = x then 1 else 0 := by
  simp [timesStarted, List.countP_cons]

theorem timesStarted_le (x : Text) (a b : List Effect) : timesStarted x a ≤ timesStarted x (a ++ b) := by
  rw [timesStarted_append]; omega

/-- The effects of a task of the action, in front of the bookkeeping `fs`. -/
theorem follows_task {d : Bool} {x : Text} {a es fs : List Effect} {t : PTask} {out : Outcome}
    (h : Follows d x a) (hdo : TDoes t out es) (hfs : Effect.callFailed x ∉ fs)
    (hg : t.id = x → guarded d t = true ∨ 2 ≤ timesStarted x a)
    (hf : t.id = x → ((d = true ∧ ∃ t', out = .terminate t' ∧ Traced defaultCore t') ∨
      (d = false ∧ out = .done)) → Follow d x (.errors :: fs)) :
    Follows d x (a ++ es ++ fs) := by
  rw [List.append_assoc]
  refine h.step ?_
  intro u v huv hn
  have hmem : Effect.callFailed x ∈ es := by
    have : Effect.callFailed x ∈ es ++ fs := by rw [huv]; simp
    rcases List.mem_append.1 this with h | h
    · exact h
    · exact absurd h hfs
  have hid := (does_callFailed hdo x hmem).symm
  rcases hg hid with hg | hg
  · rcases guarded_does hdo hg with ⟨hes, hout⟩ | ⟨h1, _⟩
    · rw [hid] at hes
      have := hf hid hout
      subst hes
      cases u with
      | nil =>
        simp only [List.nil_append, List.cons_append, List.cons.injEq, true_and] at huv
        rw [← huv]; exact this
      | cons y u =>
        simp only [List.cons_append, List.nil_append, List.cons.injEq] at huv
        obtain ⟨_, huv⟩ := huv
        exfalso
        cases u with
        | nil => simp at huv
        | cons y' u =>
          simp only [List.cons_append, List.cons.injEq] at huv
          exact hfs (by rw [huv.2]; simp)
    · exact absurd hmem (h1 x)
  · have := timesStarted_le x a u
    omega

theorem follows_stop {d : Bool} {n : Nat} {p : Pipe H} {a es : List Effect} {t t' : PTask} {c : Ctx H}
    (h : Follows d (natText n) a) (hlog : c.log = a ++ es) (hdo : TDoes t (.terminate t') es)
    (hg : t.id = natText n → guarded d t = true ∨ 2 ≤ timesStarted (natText n) a) :
    Follows d (natText n) (Pipe.terminate o { p with ctx := c } t').ctx.log := by
  rcases does_terminate hdo t' rfl with ⟨h1, hs, hh, b, rfl⟩ | ⟨h1, _⟩
  · rcases terminate_cases (o := o) (p := { p with ctx := c }) (.inl h1) with ⟨h2, _⟩ | ⟨hs', a', h2, _⟩
    · rw [h2]
      show Follows d _ (c.log ++ _)
      rw [hlog, List.append_assoc]
      exact h.quiet (by simp)
    · rw [h2]
      show Follows d _ (c.log ++ _ ++ _)
      rw [hlog, List.append_assoc, List.append_assoc]
      exact h.quiet (by simp)
  · rcases terminate_cases (o := o) (p := { p with ctx := c }) (.inr h1) with ⟨h2, h3⟩ | ⟨hs', a', h2, _⟩
    · exact absurd (traced_unique h1 h3) (by simp [defaultCore, defaultReply])
    · rw [h2]
      show Follows d _ (c.log ++ _ ++ _)
      rw [hlog, List.append_assoc _ [_, _]]
      refine follows_task h hdo (by simp) hg ?_
      rintro hx (⟨rfl, t'', h4, _⟩ | ⟨_, h4⟩)
      · exact ⟨hs', a', [], rfl⟩
      · simp at h4

theorem torn_other (p : Pipe H) (hd : p.deferred = []) (n : Nat) (e : Nat × PTask)
    (he : e ∈ (p.executeTeardown o).deferred) (hid : e.2.id = natText n) : False := by
  have key : ∀ (us : List Text) (q : Pipe H), (∀ e ∈ q.deferred, e.2.id ≠ natText n) →
      ∀ e ∈ (us.foldl (Pipe.runTeardownAction o) q).deferred, e.2.id ≠ natText n := by
    intro us
    induction us with
    | nil => intro q hq; exact hq
    | cons u us ih =>
      intro q hq
      refine ih _ ?_
      unfold Pipe.runTeardownAction
      dsimp only
      split
      · exact hq
      · rename_i token hh _
        intro e he
        rcases mem_mapInsert he with rfl | he
        · exact teardownId_ne token n
        · exact hq e he
  exact key _ _ (by simp [Pipe.replaceNoop, hd]) e he hid

theorem Minded.mono {d : Bool} {x : Text} {p q : Pipe H} {todo todo' : List PTask} {es : List Effect}
    (h : Minded d x p todo) (hlog : q.ctx.log = p.ctx.log ++ es) (hkids : Tasks (kidless x) q todo')
    (hq : ∀ t ∈ q.queue ++ todo', t.id = x → t ∈ p.queue ++ todo ∨ 1 ≤ timesStarted x q.ctx.log)
    (hd : ∀ e ∈ q.deferred, e.2.id = x → e ∈ p.deferred ∨ guarded d e.2 = true ∨ 2 ≤ timesStarted x q.ctx.log)
    (hevs : Follows d x q.ctx.log) : Minded d x q todo' := by
  have hmono : timesStarted x p.ctx.log ≤ timesStarted x q.ctx.log := by
    rw [hlog]; exact timesStarted_le _ _ _
  refine ⟨hkids, ?_, ?_, hevs⟩
  · intro t ht hid
    rcases hq t ht hid with h1 | h1
    · exact (h.queued t h1 hid).imp_right (fun h => Nat.le_trans h hmono)
    · exact .inr h1
  · intro e he hid
    rcases hd e he hid with h1 | h1
    · exact (h.sent e h1 hid).imp_right (fun h => Nat.le_trans h hmono)
    · exact h1

/-- Small changes. -/
theorem Minded.quiet {d : Bool} {x : Text} {p q : Pipe H} {es : List Effect}
    (h : Minded d x p []) (hlog : q.ctx.log = p.ctx.log ++ es) (hes : Effect.callFailed x ∉ es)
    (hq : q.queue = p.queue) (hd : q.deferred = p.deferred) : Minded d x q [] := by
  refine h.mono hlog ?_ (fun t ht _ => .inl (by rw [← hq]; exact ht)) (fun e he _ => .inl (by rw [← hd]; exact he))
    (by rw [hlog]; exact h.evs.quiet hes)
  intro t ht
  refine h.kids t ?_
  simpa [Pipe.tasks, hq, hd] using ht

theorem minded_extra (d : Bool) (n : Nat) : Extra o
    (fun (p : Pipe H) todo => Minded d (natText n) p todo)
    (fun p => Follows d (natText n) p.ctx.log) (fun p => Follows d (natText n) p.ctx.log) where
  opens p hl h :=
    ⟨(tasks_extra (o := o) (kidless_closed _)).opens p hl h.kids, by simpa using h.queued, h.sent, h.evs⟩
  skip p t ts hl h hd := by
    refine ⟨(tasks_extra (o := o) (kidless_closed _)).skip p t ts hl h.kids hd, ?_, h.sent, h.evs⟩
    intro t' ht'
    refine h.queued t' ?_
    simpa [or_assoc] using ht'
  go p t ts out c es hl h hd ha hs hlog hdo := by
    have hkids := (tasks_extra (o := o) (kidless_closed (natText n))).go p t ts out c es hl h.kids hd ha hs hlog hdo
    have hkid : kidless (natText n) t.strip := (h.kids t (by simp [Pipe.tasks])).here
    have hcount : t.id = natText n → timesStarted (natText n) p.ctx.log + 1 ≤ timesStarted (natText n) c.log := by
      intro hx
      rw [hlog, timesStarted_append, timesStarted_append, timesStarted_one, if_pos hx]; omega
    have hbase : Follows d (natText n) (p.ctx.log ++ [.applied t.id]) := h.evs.quiet (by simp)
    have hg2 : t.id = natText n → guarded d t = true ∨ 2 ≤ timesStarted (natText n) (p.ctx.log ++ [.applied t.id]) := by
      intro hx
      rcases h.queued t (by simp) hx with hg | hg
      · exact .inl hg
      · right; rw [timesStarted_append, timesStarted_one, if_pos hx]; omega
    have hold : ∀ t' ∈ p.queue ++ ts, t' ∈ p.queue ++ t :: ts := by
      intro t' ht'
      simp only [List.mem_append, List.mem_cons] at ht' ⊢
      rcases ht' with h | h
      · exact .inl h
      · exact .inr (.inr h)
    have hev : ∀ fs, Effect.callFailed (natText n) ∉ fs →
        (t.id = natText n → d = false → out = .done → FailsOpen (natText n) (.errors :: fs)) →
        Follows d (natText n) (c.log ++ fs) := by
      intro fs hfs hop
      rw [hlog]
      refine follows_task hbase hdo hfs hg2 ?_
      rintro hx (⟨_, t', h2, _⟩ | ⟨rfl, h2⟩)
      · rw [h2] at hs; simp [Outcome.stops] at hs
      · exact hop hx rfl h2
    cases out with
    | done =>
      refine h.mono (es := [.applied t.id] ++ es ++ [.completed t.id]) ?_ hkids
        (fun t' ht' _ => .inl (hold t' ht')) (fun e he _ => .inl he) ?_
      · show c.log ++ [.completed t.id] = _
        rw [hlog]; simp
      · refine hev [.completed t.id] (by simp) ?_
        intro hx _ _
        rw [hx]; exact ⟨[], rfl⟩
    | failed =>
      refine h.mono (es := [.applied t.id] ++ es ++ [.failed t.id]) ?_ hkids
        (fun t' ht' _ => .inl (hold t' ht')) (fun e he _ => .inl he) ?_
      · show c.log ++ [.failed t.id] = _
        rw [hlog]; simp
      · exact hev [.failed t.id] (by simp) (by simp)
    | requeued new =>
      refine h.mono (es := [.applied t.id] ++ es) (by rw [← List.append_assoc]; exact hlog) hkids ?_
        (fun e he _ => .inl he) (by simpa [Pipe.after] using hev [] (by simp) (by simp))
      intro t' ht' hid
      have ht2 : t' ∈ p.queue ++ ts ∨ t' ∈ new := by
        simp only [Pipe.after, List.mem_append] at ht' ⊢
        rcases ht' with (h | h) | h
        · exact .inl (.inl h)
        · exact .inr h
        · exact .inl (.inr h)
      rcases ht2 with h1 | h1
      · exact .inl (hold t' h1)
      · right
        have := hcount (out_id hdo hkid (t' := t') (by simpa [Outcome.tasks] using h1) hid)
        show 1 ≤ timesStarted _ c.log
        omega
    | deferred tok t' =>
      refine h.mono (es := [.applied t.id] ++ es) (by rw [← List.append_assoc]; exact hlog) hkids
        (fun t' ht' _ => .inl (hold t' ht')) ?_ (by simpa [Pipe.after, Pipe.defer] using hev [] (by simp) (by simp))
      intro e he hid
      rcases mem_mapInsert he with rfl | he
      · right
        have hid' := out_id hdo hkid (t' := t') (by simp [Outcome.tasks]) hid
        rcases h.queued t (by simp) hid' with hg | hg
        · rcases guarded_does hdo hg with ⟨_, ⟨_, t', h2, _⟩ | ⟨rfl, h2⟩⟩ | ⟨_, _, _, h4⟩
          · simp at h2
          · simp at h2
          · exact .inl (h4 _ _ rfl)
        · right
          have := hcount hid'
          show 2 ≤ timesStarted _ c.log
          omega
      · exact .inl he
    | terminate t' => simp [Outcome.stops] at hs
  stop p t ts t' c es hl h hd ha hlog hdo := by
    have hbase : Follows d (natText n) (p.ctx.log ++ [.applied t.id]) := h.evs.quiet (by simp)
    have hg2 : t.id = natText n → guarded d t = true ∨ 2 ≤ timesStarted (natText n) (p.ctx.log ++ [.applied t.id]) := by
      intro hx
      rcases h.queued t (by simp) hx with hg | hg
      · exact .inl hg
      · right; rw [timesStarted_append, timesStarted_one, if_pos hx]; omega
    exact follows_stop hbase hlog hdo hg2
  tear p hl h hq hd := by
    have ht := tornDown (o := o) p
    obtain ⟨es, h1, h2, _⟩ := ht.log
    have hk := (tasks_extra (o := o) (kidless_closed (natText n))).tear p hl h.kids hq hd
    refine h.mono h1 hk ?_ ?_ (by rw [h1]; exact h.evs.quiet fun he => by simpa [Effect.isTear] using h2 _ he)
    · intro t ht' _
      rw [ht.queue] at ht'
      exact .inl ht'
    · intro e he hid
      exfalso
      exact torn_other p hd n e he hid
  bury p hd h := by
    obtain ⟨es, h1, h2, _⟩ := (tornDown (o := o) p).log
    rw [h1]; exact h.quiet fun he => by simpa [Effect.isTear] using h2 _ he
  late p token s z hl h hg := h.quiet (es := [.responded token s z]) rfl (by simp) rfl rfl
  answer p token s z t out c es hl h hg ha hs hlog hdo := by
    have hkids := (tasks_extra (o := o) (kidless_closed (natText n))).answer p token s z t out c es hl h.kids hg ha hs hlog hdo
    have hmem := mapGet_mem hg
    have hkid : kidless (natText n) t.strip :=
      (h.kids t (by simp only [Pipe.tasks, List.mem_append, List.mem_map]; exact .inr ⟨_, hmem, rfl⟩)).here
    have hw : t.strip.waits = true := hl.deferW _ hmem
    have hbase : Follows d (natText n) (p.ctx.log ++ [.responded token s z]) := h.evs.quiet (by simp)
    have hg2 : t.id = natText n → guarded d t = true ∨
        2 ≤ timesStarted (natText n) (p.ctx.log ++ [.responded token s z]) := by
      intro hx
      exact (h.sent _ hmem hx).imp_right (fun h => Nat.le_trans h (timesStarted_le _ _ _))
    have hev : ∀ fs, Effect.callFailed (natText n) ∉ fs →
        (t.id = natText n → d = false → out = .done → FailsOpen (natText n) (.errors :: fs)) →
        Follows d (natText n) (c.log ++ fs) := by
      intro fs hfs hop
      rw [hlog]
      refine follows_task hbase hdo hfs hg2 ?_
      rintro hx (⟨_, t', h2, _⟩ | ⟨rfl, h2⟩)
      · rw [h2] at hs; simp [Outcome.stops] at hs
      · exact hop hx rfl h2
    have hdef : ∀ e ∈ (p.answering token s z).deferred, e ∈ p.deferred := fun e he => (List.mem_filter.1 he).1
    cases out with
    | done =>
      refine h.mono (es := [.responded token s z] ++ es ++ [.completed t.id]) ?_ hkids
        (fun t' ht' _ => .inl ht') (fun e he _ => .inl (hdef e he)) ?_
      · show c.log ++ [.completed t.id] = _
        rw [hlog]; simp
      · refine hev [.completed t.id] (by simp) ?_
        intro hx _ _
        rw [hx]; exact ⟨[], rfl⟩
    | failed =>
      refine h.mono (es := [.responded token s z] ++ es ++ [.failed t.id]) ?_ hkids
        (fun t' ht' _ => .inl ht') (fun e he _ => .inl (hdef e he)) ?_
      · show c.log ++ [.failed t.id] = _
        rw [hlog]; simp
      · exact hev [.failed t.id] (by simp) (by simp)
    | requeued new =>
      refine h.mono (es := [.responded token s z] ++ es ++ [.completed t.id]) ?_ hkids ?_
        (fun e he _ => .inl (hdef e he)) (hev [.completed t.id] (by simp) (by simp))
      · show c.log ++ [.completed t.id] = _
        rw [hlog]; simp
      · intro t' ht' hid
        simp only [Pipe.replied, List.append_nil, List.mem_append] at ht'
        rcases ht' with h1 | h1
        · exfalso
          rcases does_out hdo with h2 | ⟨t2, _, _, h4⟩ | ⟨_, _, h3⟩
          · simp only [Outcome.tasks] at h2; rw [h2] at h1; simp at h1
          · rw [hw] at h4; simp at h4
          · exact hkid _ (h3 t' (by simpa [Outcome.tasks] using h1)) (by rw [strip_id]; exact hid)
        · left; simpa [Pipe.answering] using h1
    | deferred tok t' =>
      exfalso
      rcases does_out hdo with h2 | ⟨t2, h2, h3, h4⟩ | ⟨_, ⟨_, h2⟩, _⟩
      · simp [Outcome.tasks] at h2
      · rw [hw] at h4; simp at h4
      · simp at h2
    | terminate t' => simp [Outcome.stops] at hs
  answerStop p token s z t t' c es hl h hg ha hlog hdo := by
    have hmem := mapGet_mem hg
    have hbase : Follows d (natText n) (p.ctx.log ++ [.responded token s z]) := h.evs.quiet (by simp)
    have hg2 : t.id = natText n → guarded d t = true ∨
        2 ≤ timesStarted (natText n) (p.ctx.log ++ [.responded token s z]) := by
      intro hx
      exact (h.sent _ hmem hx).imp_right (fun h => Nat.le_trans h (timesStarted_le _ _ _))
    exact follows_stop (p := { p.answering token s z with ctx := c }) hbase hlog hdo hg2
  frame p c' hl h hf := by
    obtain ⟨es, h1, h2⟩ := hf.log
    exact h.quiet (q := { p with ctx := c' }) h1 (fun he => by simpa [Effect.isFilter] using h2 _ he) rfl rfl
  frameD p c' hd h hf := by
    obtain ⟨es, h1, h2⟩ := hf.log
    show Follows d _ c'.log
    rw [h1]; exact h.quiet fun he => by simpa [Effect.isFilter] using h2 _ he
  lateD p token s z hd h hg := h.quiet (es := [.responded token s z]) (by simp)
  answerD p token s z id guard hd h hg := by
    rw [dropped_log, List.append_assoc]
    exact h.quiet (by simp)

/-- Calls in flight are among the deferred tasks. -/
def Held (p : Pipe H) : Prop :=
  ∀ tok x, InFlightFor p.ctx.log tok x → ∃ t, mapGet p.deferred tok = some t ∧ t.id = x ∧ t.strip.isCall = true

/-- What is known about a response: the history before it, its token, status and size, and the action. -/
abbrev Answer := List Effect → Nat → Nat → Nat → Text → Prop

/-- Responses of kind `F` to calls in flight are followed as `G` says. -/
def Reacts (F : Answer) (G : Text → List Effect → Prop) (log : List Effect) : Prop :=
  ∀ pre tok s z post x, log = pre ++ .responded tok s z :: post → F pre tok s z x → InFlightFor pre tok x →
    .ended ∉ pre → G x post

/-- Effects that send no calls of actions. -/
def Effect.calm : Effect → Bool
  | .dispatch .. => false
  | _ => true

theorem local_calm {e : Effect} (h : e.isLocal = true) : e.calm = true := by
  cases e <;> simp_all [Effect.isLocal, Effect.calm]

theorem inFlightFor_snoc {log : List Effect} {e : Effect} {tok : Nat} {x : Text}
    (h : InFlightFor (log ++ [e]) tok x) :
    (∃ g svc b rid, e = .dispatch x g tok svc b rid) ∨
    (InFlightFor log tok x ∧ (∀ s z, e ≠ .responded tok s z) ∧ sentToken e ≠ some tok) := by
  obtain ⟨pre, g, svc, b, rid, post, h1, h2, h3⟩ := h
  rcases split_snoc h1 with ⟨rfl, rfl, h4⟩ | ⟨v', rfl, h4⟩
  · exact .inl ⟨g, svc, b, rid, h4.symm⟩
  · refine .inr ⟨⟨pre, g, svc, b, rid, v', h4, ?_, ?_⟩, ?_, ?_⟩
    · intro s z hm; exact h2 s z (List.mem_append_left _ hm)
    · intro e' he'; exact h3 e' (List.mem_append_left _ he')
    · intro s z he; exact h2 s z (by rw [he]; simp)
    · exact h3 e (by simp)

theorem inFlightFor_calm {log es : List Effect} {tok : Nat} {x : Text} (hes : ∀ e ∈ es, e.calm = true)
    (h : InFlightFor (log ++ es) tok x) : InFlightFor log tok x := by
  induction es using snoc_ind with
  | nil => simpa using h
  | snoc es e ih =>
    rw [← List.append_assoc] at h
    rcases inFlightFor_snoc h with ⟨_, _, _, _, rfl⟩ | ⟨h, _⟩
    · simpa [Effect.calm] using hes _ (List.mem_append_right _ (List.mem_singleton.2 rfl))
    · exact ih (fun e he => hes e (List.mem_append_left _ he)) h

theorem Held.calm {p q : Pipe H} {es : List Effect} (h : Held p) (hlog : q.ctx.log = p.ctx.log ++ es)
    (hes : ∀ e ∈ es, e.calm = true) (hd : q.deferred = p.deferred) : Held q := by
  intro tok x hx
  rw [hlog] at hx
  rw [hd]
  exact h tok x (inFlightFor_calm hes hx)

section Reaction
variable {F : Answer} {G : Text → List Effect → Prop}

theorem Reacts.append {a es : List Effect} (hG : ∀ x a b, G x a → G x (a ++ b)) (h : Reacts F G a)
    (hes : ∀ u tok s z v x, es = u ++ .responded tok s z :: v → F (a ++ u) tok s z x →
      InFlightFor (a ++ u) tok x → .ended ∉ a ++ u → G x v) : Reacts F G (a ++ es) := by
  intro pre tok s z post x hlog hs hx hend
  rcases List.append_eq_append_iff.1 hlog with ⟨u, rfl, h4⟩ | ⟨bs, h3, h4⟩
  · exact hes u tok s z post x h4 hs hx hend
  · cases bs with
    | nil =>
      simp only [List.append_nil, List.nil_append] at h3 h4
      subst h3
      exact hes [] tok s z post x h4.symm (by simpa using hs) (by simpa using hx) (by simpa using hend)
    | cons y bs =>
      simp only [List.cons_append, List.cons.injEq] at h4
      obtain ⟨rfl, rfl⟩ := h4
      exact hG _ _ _ (h pre tok s z bs x h3 hs hx hend)

theorem Reacts.quiet {a es : List Effect} (hG : ∀ x a b, G x a → G x (a ++ b)) (h : Reacts F G a)
    (hes : ∀ tok s z, .responded tok s z ∉ es) : Reacts F G (a ++ es) :=
  h.append hG fun u tok s z v x hx => absurd (by rw [hx]; simp) (hes tok s z)

theorem Reacts.dead {a es : List Effect} (hG : ∀ x a b, G x a → G x (a ++ b)) (h : Reacts F G a)
    (he : Effect.ended ∈ a) : Reacts F G (a ++ es) :=
  h.append hG fun u tok s z v x hx _ _ hn => absurd (List.mem_append_left _ he) hn

end Reaction

theorem mapGet_insert_same {β : Type} (m : List (Nat × β)) (k : Nat) (v : β) :
    mapGet (mapInsert m k v) k = some v := by
  simp [mapGet, mapInsert]

theorem mapGet_insert_other {β : Type} (m : List (Nat × β)) (k k' : Nat) (v : β) (h : k' ≠ k) :
    mapGet (mapInsert m k v) k' = mapGet m k' := by
  simp only [mapGet, mapInsert]
  rw [List.find?_cons_of_neg (by simpa using (Ne.symm h))]
  rw [List.find?_filter]
  congr 2
  funext e
  by_cases he : e.1 = k'
  · simp [he, h]
  · simp [he]

theorem sent_call {t : PTask} {out : Outcome} {es : List Effect} (h : TDoes t out es) (tok : Nat) (p' : PTask)
    (ho : out = .deferred tok p') : p'.strip.isCall = true ∧ p'.id = t.id ∧
      ∃ g svc b rid, es = [.dispatch t.id g tok svc b rid] := by
  induction h generalizing p' with
  | core h =>
    cases h with
    | sent =>
      simp only [Outcome.deferred.injEq] at ho
      obtain ⟨rfl, rfl⟩ := ho
      exact ⟨rfl, rfl, _, _, _, _, rfl⟩
    | replied _ _ _ terminal => cases terminal <;> simp at ho
    | headers _ _ _ _ terminal => cases terminal <;> simp at ho
    | stored _ _ _ _ _ terminal => cases terminal <;> simp at ho
    | _ => simp at ho
  | sent h ih =>
    simp only [Outcome.deferred.injEq] at ho
    obtain ⟨rfl, rfl⟩ := ho
    have := ih _ rfl
    exact this
  | tracing h ih =>
    rename_i t out es
    cases out <;> simp only [Outcome.traced, Outcome.deferred.injEq, reduceCtorEq] at ho
    obtain ⟨rfl, rfl⟩ := ho
    have := ih _ rfl
    exact this
  | _ => simp at ho

/-- Responses with an error status make the call fail. -/
theorem pending_fails (t : PTask) (c : Ctx H) (s z : Nat) (hg : c.grpc = some (s, z)) (hs : s ≠ 0)
    (hw : t.strip.waits = true) (hc : t.strip.isCall = true) :
    ∃ fs, (t.apply o c).2.log = c.log ++ .callFailed t.id :: fs := by
  induction t with
  | core k =>
    cases k with
    | pending id guard svc var onReply =>
      refine ⟨[], ?_⟩
      show (applyPending o c id guard svc var onReply).2.log = _
      unfold applyPending processResponse
      rw [hg]
      simp only [if_pos hs]
      cases guard <;> rfl
    | _ => simp [PTask.strip, Core.waits, Core.isCall] at hw hc
  | failureMode t a ih =>
    obtain ⟨fs, hfs⟩ := ih hw hc
    show ∃ fs, (match t.apply o c with
      | (.failed, c) => if a then (Outcome.terminate defaultReply, c.push .errors) else (.done, c.push .errors)
      | (.deferred token p, c) => (.deferred token (.failureMode p a), c)
      | r => r).2.log = _ ++ .callFailed t.id :: fs
    generalize t.apply o c = r at hfs ⊢
    obtain ⟨out, c'⟩ := r
    cases out with
    | failed =>
      refine ⟨fs ++ [.errors], ?_⟩
      replace hfs : c'.log = c.log ++ Effect.callFailed t.id :: fs := hfs
      cases a <;> simp [Ctx.push, hfs]
    | _ => exact ⟨fs, hfs⟩
  | tracing t ih =>
    obtain ⟨fs, hfs⟩ := ih hw hc
    show ∃ fs, (match t.apply o c with
      | (.deferred token p, c) => (Outcome.deferred token (.tracing p), c)
      | (.requeued ts, c) => (.requeued (ts.map .tracing), c)
      | (.terminate t, c) => (.terminate (.tracing t), c)
      | r => r).2.log = _ ++ .callFailed t.id :: fs
    generalize t.apply o c = r at hfs ⊢
    obtain ⟨out, c'⟩ := r
    cases out <;> exact ⟨fs, hfs⟩

theorem mapGet_filter_other {β : Type} (m : List (Nat × β)) (k k' : Nat) (h : k' ≠ k) :
    mapGet (m.filter (fun e => e.1 ≠ k)) k' = mapGet m k' := by
  simp only [mapGet]
  rw [List.find?_filter]
  congr 2
  funext e
  by_cases he : e.1 = k'
  · simp [he, h]
  · simp [he]

/-- What the executor records after the response of a call was processed. -/
def Outcome.mark (id : Text) : Outcome → List Effect
  | .done => [.completed id]
  | .requeued _ => [.completed id]
  | .failed => [.failed id]
  | _ => []

/-- Applying the task of a call in flight to a response of kind `F` does what `G` says. -/
def Answers (o : Oracle H) (R : Nat → Nat → Nat → Ctx H → Prop) (P : Core → Prop) (F : Answer) (G : Text → List Effect → Prop) : Prop :=
  ∀ (t : PTask) (c : Ctx H) pre tok s z, t.strip.waits = true → t.strip.isCall = true → Core.All P t.strip →
    c.grpc = some (s, z) → R tok s z { c with grpc := none } → c.log = pre ++ [.responded tok s z] → F pre tok s z t.id →
    ∃ gs, (t.apply o c).2.log = c.log ++ gs ∧ G t.id (gs ++ (t.apply o c).1.mark t.id)

variable {S : Ctx H → Prop} {R : Nat → Nat → Nat → Ctx H → Prop}

theorem error_key : Answers o R (fun _ => True) (fun _ _ s _ _ => s ≠ 0)
    (fun x es => ∃ rest, es = .callFailed x :: rest) := by
  intro t c pre tok s z hw hc _ hg _ _ hs
  obtain ⟨fs, hfs⟩ := pending_fails (o := o) t c s z hg hs hw hc
  exact ⟨_, hfs, _, rfl⟩

/-- The reaction to the response of a call in flight. -/
theorem reacts_answer {p : Pipe H} {token s z : Nat} {t : PTask} {es fs : List Effect}
    {P : Core → Prop} {F : Answer} {G : Text → List Effect → Prop}
    (hG : ∀ x a b, G x a → G x (a ++ b)) (key : Answers o R P F G)
    (hR : R token s z (p.ctx.push (.responded token s z)))
    (hl : Live p []) (hT : Tasks P p []) (h : Held p) (hr : Reacts F G p.ctx.log) (hg : mapGet p.deferred token = some t)
    (hlog : (t.apply o (p.answering token s z).ctx).2.log = p.ctx.log ++ [.responded token s z] ++ es)
    (hloc : ∀ e ∈ es, e.isLocal = true) (hfs : ∀ tok s z, Effect.responded tok s z ∉ fs)
    (hm : ∃ r, fs = (t.apply o (p.answering token s z).ctx).1.mark t.id ++ r) :
    Reacts F G ((t.apply o (p.answering token s z).ctx).2.log ++ fs) := by
  rw [hlog, List.append_assoc, List.append_assoc]
  refine hr.append hG ?_
  intro u tok s' z' v x hu hs hx _
  cases u with
  | nil =>
    simp only [List.nil_append, List.cons_append, List.cons.injEq, Effect.responded.injEq] at hu
    obtain ⟨⟨rfl, rfl, rfl⟩, rfl⟩ := hu
    obtain ⟨t', ht', hid, hc⟩ := h token x (by simpa using hx)
    rw [hg] at ht'
    cases ht'
    subst hid
    obtain ⟨gs, hgs, hG'⟩ := key t (p.answering token s z).ctx p.ctx.log token s z
      (hl.deferW _ (mapGet_mem hg)) hc (hT t (by
        simp only [Pipe.tasks, List.mem_append, List.mem_map]
        exact .inr ⟨(token, t), mapGet_mem hg, rfl⟩)) rfl (by
          have : ({ (p.answering token s z).ctx with grpc := none } : Ctx H) = p.ctx.push (.responded token s z) := by
            have := hl.slot
            simp only [Pipe.answering, Ctx.push, ← this]
          rw [this]; exact hR) rfl (by simpa using hs)
    rw [hlog] at hgs
    have : es = gs := by simpa [Pipe.answering] using hgs
    obtain ⟨r, hr'⟩ := hm
    rw [this, hr', ← List.append_assoc]
    exact hG _ _ _ hG'
  | cons y u =>
    exfalso
    simp only [List.cons_append, List.nil_append, List.cons.injEq] at hu
    have hm : Effect.responded tok s' z' ∈ es ++ fs := by rw [hu.2]; simp
    rcases List.mem_append.1 hm with hm | hm
    · simpa [Effect.isLocal] using hloc _ hm
    · exact hfs _ _ _ hm

theorem held_extra {P : Core → Prop} {F : Answer} {G : Text → List Effect → Prop} (hP : Closed P)
    (hG : ∀ x a b, G x a → G x (a ++ b)) (key : Answers o R P F G) :
    ExtraAt o S R (fun (p : Pipe H) todo => (Held p ∧ Reacts F G p.ctx.log) ∧ Tasks P p todo)
    (fun p => Reacts F G p.ctx.log ∧ Effect.ended ∈ p.ctx.log)
    (fun p => Reacts F G p.ctx.log ∧ Effect.ended ∈ p.ctx.log) where
  opens p hl h := ⟨h.1, (tasks_extra (o := o) hP).opens p hl h.2⟩
  skip p t ts hl h hd := ⟨h.1, (tasks_extra (o := o) hP).skip p t ts hl h.2 hd⟩
  go p t ts out c es _ hl h hd ha hs hlog hdo := by
    refine ⟨?_, (tasks_extra (o := o) hP).go p t ts out c es hl h.2 hd ha hs hlog hdo⟩
    replace h := h.1
    have hres : ∀ tok s z, Effect.responded tok s z ∉ [.applied t.id] ++ es := by
      intro tok s z hm
      rcases List.mem_append.1 hm with hm | hm
      · simp at hm
      · rcases does_effects hdo with hloc | ⟨_, _, _, _, _, _, rfl, _⟩
        · simpa [Effect.isLocal] using hloc _ hm
        · simp at hm
    have hre : Reacts F G c.log := by rw [hlog, List.append_assoc]; exact h.2.quiet hG hres
    rcases does_effects hdo with hloc | ⟨g, tok, svc, b, rid, p', rfl, rfl, hid, _, _⟩
    · have hcalm : ∀ e ∈ [Effect.applied t.id] ++ es, e.calm = true := by
        intro e he
        rcases List.mem_append.1 he with he | he
        · simp only [List.mem_singleton] at he; subst he; rfl
        · exact local_calm (hloc e he)
      have hcalm' : ∀ y, y.calm = true → ∀ e ∈ [Effect.applied t.id] ++ es ++ [y], e.calm = true := by
        intro y hy e he
        rcases List.mem_append.1 he with he | he
        · exact hcalm e he
        · simp only [List.mem_singleton] at he; subst he; exact hy
      cases out with
      | done =>
        refine ⟨h.1.calm (es := [.applied t.id] ++ es ++ [.completed t.id]) ?_ (hcalm' _ rfl) rfl, hre.quiet hG (es := [.completed t.id]) (by simp)⟩
        show c.log ++ [.completed t.id] = _
        rw [hlog]; simp
      | failed =>
        refine ⟨h.1.calm (es := [.applied t.id] ++ es ++ [.failed t.id]) ?_ (hcalm' _ rfl) rfl, hre.quiet hG (es := [.failed t.id]) (by simp)⟩
        show c.log ++ [.failed t.id] = _
        rw [hlog]; simp
      | requeued new => exact ⟨h.1.calm (by rw [← List.append_assoc]; exact hlog) hcalm rfl, hre⟩
      | deferred tok t' =>
        exfalso
        obtain ⟨_, _, g, svc, b, rid, rfl⟩ := sent_call hdo tok t' rfl
        simpa [Effect.isLocal] using hloc _ (List.mem_singleton.2 rfl)
      | terminate t' => simp [Outcome.stops] at hs
    · refine ⟨?_, hre⟩
      intro tok' x hx
      replace hx : InFlightFor c.log tok' x := hx
      show ∃ t, mapGet (mapInsert p.deferred tok p') tok' = some t ∧ _
      rw [hlog] at hx
      rcases inFlightFor_snoc hx with ⟨g', svc', b', rid', heq⟩ | ⟨hx', _, h3⟩
      · simp only [Effect.dispatch.injEq] at heq
        obtain ⟨rfl, rfl, rfl, _⟩ := heq
        rw [mapGet_insert_same]
        exact ⟨p', rfl, hid, (sent_call hdo _ _ rfl).1⟩
      · have hne : tok' ≠ tok := by
          intro heq
          apply h3
          rw [heq]; rfl
        rw [mapGet_insert_other _ _ _ _ hne]
        exact h.1 tok' x (inFlightFor_calm (es := [.applied t.id]) (by simp [Effect.calm]) hx')
  stop p t ts t' c es _ hl h hd ha hlog hdo := by
    replace h := h.1
    refine ⟨?_, by rw [terminate_log]; simp⟩
    have hloc : ∀ e ∈ es, e.isLocal = true := by
      rcases does_effects hdo with hloc | ⟨_, _, _, _, _, _, _, h2, _⟩
      · exact hloc
      · simp at h2
    have hres : ∀ tok s z, Effect.responded tok s z ∉ [.applied t.id] ++ es := by
      intro tok s z hm
      rcases List.mem_append.1 hm with hm | hm
      · simp at hm
      · simpa [Effect.isLocal] using hloc _ hm
    have hre : Reacts F G c.log := by rw [hlog, List.append_assoc]; exact h.2.quiet hG hres
    rcases terminate_cases (o := o) (p := { p with ctx := c })
      ((does_terminate hdo t' rfl).imp (·.1) (·.1)) with ⟨h1, _⟩ | ⟨hs, a, h1, _⟩
    · rw [h1]; exact hre.quiet hG (by simp)
    · rw [h1, List.append_assoc]; exact hre.quiet hG (by simp)
  tear p hl h hq hd := by
    refine ⟨?_, (tasks_extra (o := o) hP).tear p hl h.2 hq hd⟩
    replace h := h.1
    obtain ⟨es, h1, h2, _⟩ := (tornDown (o := o) p).log
    refine ⟨?_, by rw [h1]; exact h.2.quiet hG fun _ _ _ he => by simpa [Effect.isTear] using h2 _ he⟩
    intro tok x hx
    rw [h1] at hx
    obtain ⟨t, ht, _⟩ := h.1 tok x (inFlightFor_calm (fun e he => by
      have := h2 e he
      cases e <;> simp_all [Effect.isTear, Effect.calm]) hx)
    rw [hd] at ht
    simp [mapGet] at ht
  bury p hd h := by
    obtain ⟨es, h1, h2, _⟩ := (tornDown (o := o) p).log
    rw [h1]
    exact ⟨h.1.dead hG h.2, List.mem_append_left _ h.2⟩
  late p token s z hl h hg := by
    refine ⟨?_, h.2⟩
    replace h := h.1
    refine ⟨?_, ?_⟩
    · intro tok x hx
      rcases inFlightFor_snoc hx with ⟨_, _, _, _, heq⟩ | ⟨hx', _⟩
      · simp at heq
      · exact h.1 tok x hx'
    · refine h.2.append hG (es := [.responded token s z]) ?_
      intro u tok s' z' v x hu _ hx _
      cases u with
      | nil =>
        simp only [List.nil_append, List.cons.injEq, Effect.responded.injEq] at hu
        obtain ⟨⟨rfl, rfl, rfl⟩, rfl⟩ := hu
        obtain ⟨t, ht, _⟩ := h.1 token x (by simpa using hx)
        rw [hg] at ht; simp at ht
      | cons y u => simp at hu
  answer p token s z t out c es hR hl h hg ha hs hlog hdo := by
    refine ⟨?_, (tasks_extra (o := o) hP).answer p token s z t out c es hl h.2 hg ha hs hlog hdo⟩
    have hT := h.2
    replace h := h.1
    have hw : t.strip.waits = true := hl.deferW _ (mapGet_mem hg)
    have hloc : ∀ e ∈ es, e.isLocal = true := by
      rcases does_effects hdo with hloc | ⟨_, _, _, _, _, _, _, _, _, h2, _⟩
      · exact hloc
      · rw [hw] at h2; simp at h2
    have hheld : ∀ q : Pipe H, q.deferred = (p.answering token s z).deferred →
        ∀ fs, (∀ e ∈ fs, e.calm = true) → q.ctx.log = c.log ++ fs → Held q := by
      intro q hqd fs hfs hql tok x hx
      rw [hql, hlog, List.append_assoc] at hx
      have hx2 := inFlightFor_calm (es := es ++ fs) (fun e he => by
        rcases List.mem_append.1 he with he | he
        · exact local_calm (hloc e he)
        · exact hfs e he) hx
      rcases inFlightFor_snoc hx2 with ⟨_, _, _, _, heq⟩ | ⟨hx', h4, _⟩
      · simp at heq
      · obtain ⟨t', ht', h5⟩ := h.1 tok x hx'
        refine ⟨t', ?_, h5⟩
        rw [hqd]
        have hne : tok ≠ token := by
          rintro rfl
          exact h4 s z rfl
        show mapGet (p.deferred.filter _) tok = _
        rw [mapGet_filter_other _ _ _ hne]
        exact ht'
    have hre : ∀ fs, (∀ tok s z, Effect.responded tok s z ∉ fs) → out.mark t.id = fs →
        Reacts F G (c.log ++ fs) := by
      intro fs hfs hm
      have := reacts_answer (o := o) (s := s) (z := z) hG key hR hl hT h.1 h.2 hg (by rw [ha]; exact hlog) hloc hfs
        ⟨[], by rw [ha, hm]; simp⟩
      rw [ha] at this
      exact this
    cases out with
    | done => exact ⟨hheld _ rfl [.completed t.id] (by simp [Effect.calm]) rfl, hre [.completed t.id] (by simp) rfl⟩
    | requeued new => exact ⟨hheld _ rfl [.completed t.id] (by simp [Effect.calm]) rfl, hre [.completed t.id] (by simp) rfl⟩
    | failed => exact ⟨hheld _ rfl [.failed t.id] (by simp [Effect.calm]) rfl, hre [.failed t.id] (by simp) rfl⟩
    | deferred tok t' =>
      exfalso
      obtain ⟨_, _, g, svc, b, rid, rfl⟩ := sent_call hdo tok t' rfl
      simpa [Effect.isLocal] using hloc _ (List.mem_singleton.2 rfl)
    | terminate t' => simp [Outcome.stops] at hs
  answerStop p token s z t t' c es hR hl h hg ha hlog hdo := by
    have hT := h.2
    replace h := h.1
    refine ⟨?_, by rw [terminate_log]; simp⟩
    have hloc : ∀ e ∈ es, e.isLocal = true := by
      rcases does_effects hdo with hloc | ⟨_, _, _, _, _, _, _, h2, _⟩
      · exact hloc
      · simp at h2
    have hre : ∀ fs, (∀ tok s z, Effect.responded tok s z ∉ fs) → Reacts F G (c.log ++ fs) := by
      intro fs hfs
      have := reacts_answer (o := o) (s := s) (z := z) hG key hR hl hT h.1 h.2 hg (by rw [ha]; exact hlog) hloc hfs
        ⟨fs, by rw [ha]; rfl⟩
      rw [ha] at this
      exact this
    rcases terminate_cases (o := o) (p := { p.answering token s z with ctx := c })
      ((does_terminate hdo t' rfl).imp (·.1) (·.1)) with ⟨h1, _⟩ | ⟨hs, a, h1, _⟩
    · rw [h1]; exact hre _ (by simp)
    · rw [h1, List.append_assoc]; exact hre _ (by simp)
  frame p c' hl h hf := by
    refine ⟨?_, h.2⟩
    replace h := h.1
    obtain ⟨es, h1, h2⟩ := hf.log
    refine ⟨h.1.calm (q := { p with ctx := c' }) h1 (fun e he => by
      have := h2 e he; cases e <;> simp_all [Effect.isFilter, Effect.calm]) rfl, ?_⟩
    show Reacts F G c'.log
    rw [h1]; exact h.2.quiet hG fun _ _ _ he => by simpa [Effect.isFilter] using h2 _ he
  frameD p c' hd h hf := by
    obtain ⟨es, h1, h2⟩ := hf.log
    show Reacts F G c'.log ∧ _ ∈ c'.log
    rw [h1]
    exact ⟨h.1.dead hG h.2, List.mem_append_left _ h.2⟩
  lateD p token s z hd h hg := ⟨h.1.dead hG (es := [_]) h.2, List.mem_append_left _ h.2⟩
  answerD p token s z id guard hd h hg := by
    rw [dropped_log, List.append_assoc]
    exact ⟨h.1.dead hG h.2, List.mem_append_left _ h.2⟩

/-- The tasks of a new pipeline carry the failure mode of the service. -/
theorem tops_guarded {as : List Action} {ts : List PTask} (h : Tops as ts) {n : Nat} {deny : Bool}
    (ha : ∀ y ∈ as, y.head.id = natText n →
      ∃ head kind svc var msg acts, y = .grpc head (.call kind svc deny) var msg acts) :
    ∀ t ∈ ts, t.id = natText n → guarded deny t = true := by
  induction h with
  | nil => simp
  | cons a as ts ts' h hs ih =>
    intro t ht hid
    rcases List.mem_append.1 ht with ht | ht
    · cases h with
      | call head kind svc deny' var msg acts k pre w hk hp =>
        rcases List.mem_append.1 ht with ht | ht
        · rcases hp with rfl | ⟨fields, rfl⟩
          · simp at ht
          · simp only [List.mem_singleton] at ht
            subst ht
            exact absurd hid (natText_ne (c := 't') (show 't' ∈ "token_usage".toList by decide) rfl)
        · simp only [List.mem_singleton] at ht
          subst ht
          have hid' : k.id = natText n := by cases w <;> exact hid
          rw [hk.id] at hid'
          obtain ⟨_, _, _, _, _, _, heq⟩ := ha _ List.mem_cons_self hid'
          cases heq
          cases hk
          cases w <;> simp [guarded, Core.isCall]
      | other _ k hk hne =>
        simp only [List.mem_singleton] at ht
        subst ht
        obtain ⟨_, _, _, _, _, _, heq⟩ := ha _ List.mem_cons_self (by rw [← hk.id]; exact hid)
        exact absurd heq (hne _ _ _ _ _ _ _)
    · exact ih (fun y hy => ha y (List.mem_cons_of_mem _ hy)) t ht hid

theorem inFlightFor_hits (tok : Nat) (x : Text) : ¬InFlightFor [.hits] tok x := by
  rintro ⟨u, g, svc, b, rid, v, hx, _⟩
  have : Effect.dispatch x g tok svc b rid ∈ [Effect.hits] := by rw [hx]; simp
  simp at this

theorem reacts_hits (F : Answer) (G : Text → List Effect → Prop) : Reacts F G [.hits] := by
  intro u tok s z v x hx
  have : Effect.responded tok s z ∈ [Effect.hits] := by rw [hx]; simp
  simp at this

theorem reacts_log {F : Answer} {G : Text → List Effect → Prop} {P : Core → Prop} {f : Filter H}
    (hg : Ghost (Holds (fun (p : Pipe H) todo => (Held p ∧ Reacts F G p.ctx.log) ∧ Tasks P p todo)
      (fun p => Reacts F G p.ctx.log ∧ Effect.ended ∈ p.ctx.log)) f) : Reacts F G f.log := by
  refine hg.log (Q := Reacts F G) ?_
  rintro q (⟨_, h⟩ | ⟨_, h⟩)
  · exact h.1.2
  · exact h.1

end Verif
