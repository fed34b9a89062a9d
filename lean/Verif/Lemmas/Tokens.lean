import Verif.Lemmas.Teardown
/-! The tokens of deferred tasks are the tokens of the calls in flight, even if the host reuses tokens. -/
set_option linter.unusedSimpArgs false
namespace Verif
open Spec

variable {H : Type} {o : Oracle H}

/-- The tokens in flight. -/
def flying (log : List Effect) : List Nat := (inFlight log).map Prod.fst

theorem mem_flying_snoc {log : List Effect} {e : Effect} {tok : Nat} : tok ∈ flying (log ++ [e]) ↔
    sentToken e = some tok ∨ (tok ∈ flying log ∧ ∀ s z, e ≠ .responded tok s z) := by
  simp only [flying, inFlight_snoc]
  cases e with
  | dispatch id guard token svc bytes rid =>
    simp only [track, List.map_cons, List.mem_cons, sentToken, Option.some.injEq, ne_eq, reduceCtorEq,
      not_false_eq_true, implies_true, and_true]
    exact or_congr_left eq_comm
  | exported token =>
    simp only [track, List.map_cons, List.mem_cons, sentToken, Option.some.injEq, ne_eq, reduceCtorEq,
      not_false_eq_true, implies_true, and_true]
    exact or_congr_left eq_comm
  | responded token s z =>
    simp only [track, List.mem_map, List.mem_filter, sentToken, reduceCtorEq, false_or, ne_eq,
      Effect.responded.injEq, decide_eq_true_eq]
    constructor
    · rintro ⟨c, ⟨hc, hne⟩, rfl⟩
      exact ⟨⟨c, hc, rfl⟩, fun _ _ h => hne h.1.symm⟩
    · rintro ⟨⟨c, hc, rfl⟩, h⟩
      exact ⟨c, ⟨hc, fun he => h s z ⟨he.symm, rfl, rfl⟩⟩, rfl⟩
  | _ => simp [track, sentToken]

theorem mem_flying_neutral {log es : List Effect} (h : ∀ e ∈ es, e.neutral = true) (tok : Nat) :
    tok ∈ flying (log ++ es) ↔ tok ∈ flying log := by
  rw [flying, inFlight_neutral _ h]; rfl

/-- A deferred task for each token in flight, and no others. -/
def Keyed (p : Pipe H) : Prop := ∀ tok, tok ∈ p.deferred.map Prod.fst ↔ tok ∈ flying p.ctx.log

theorem Keyed.neutral {p q : Pipe H} {es : List Effect} (h : Keyed p) (hl : q.ctx.log = p.ctx.log ++ es)
    (hes : ∀ e ∈ es, e.neutral = true) (hd : q.deferred = p.deferred) : Keyed q := by
  intro tok
  rw [hl, mem_flying_neutral hes, hd]
  exact h tok

theorem mem_keys_insert {β : Type} (m : List (Nat × β)) (k : Nat) (v : β) (tok : Nat) :
    tok ∈ (mapInsert m k v).map Prod.fst ↔ tok = k ∨ tok ∈ m.map Prod.fst := by
  simp only [mapInsert, List.map_cons, List.mem_cons, List.mem_map, List.mem_filter]
  constructor
  · rintro (h | ⟨e, ⟨he, _⟩, rfl⟩)
    · exact .inl h
    · exact .inr ⟨e, he, rfl⟩
  · rintro (h | ⟨e, he, rfl⟩)
    · exact .inl h
    · by_cases hk : e.1 = k
      · exact .inl hk
      · exact .inr ⟨e, ⟨he, by simpa using hk⟩, rfl⟩

theorem mem_keys_filter {β : Type} (m : List (Nat × β)) (k : Nat) (tok : Nat) :
    tok ∈ (m.filter (fun e => e.1 ≠ k)).map Prod.fst ↔ tok ≠ k ∧ tok ∈ m.map Prod.fst := by
  simp only [List.mem_map, List.mem_filter]
  constructor
  · rintro ⟨e, ⟨he, hk⟩, rfl⟩
    exact ⟨by simpa using hk, e, he, rfl⟩
  · rintro ⟨hk, e, he, rfl⟩
    exact ⟨e, ⟨he, by simpa using hk⟩, rfl⟩

theorem keyed_tear (p : Pipe H) (h : Keyed p) : Keyed (p.executeTeardown o) := by
  unfold Pipe.executeTeardown
  dsimp only
  refine foldl_ind Keyed _ ?_ _ _ ?_
  · intro q u hq
    unfold Pipe.runTeardownAction
    dsimp only
    split
    · exact hq.neutral (es := [.teardown]) rfl (by simp [Effect.neutral]) rfl
    · rename_i token h' hx
      intro tok
      show tok ∈ (mapInsert q.deferred token _).map Prod.fst ↔ tok ∈ flying (q.ctx.log ++ [.teardown] ++ [.exported token])
      rw [mem_keys_insert, mem_flying_snoc, mem_flying_neutral (by simp [Effect.neutral]), hq tok]
      simp [sentToken, eq_comm]
  · intro tok
    show tok ∈ (List.map _ p.deferred).map Prod.fst ↔ _
    rw [List.map_map]
    exact h tok

theorem does_neutral {t : PTask} {out : Outcome} {es : List Effect} (h : TDoes t out es)
    (hn : ∀ tok t', out ≠ .deferred tok t') : ∀ e ∈ es, e.neutral = true := by
  rcases does_effects h with hloc | ⟨g, tok, svc, b, rid, p', rfl, rfl, _⟩
  · intro e he
    have := hloc e he
    cases e <;> simp_all [Effect.isLocal, Effect.neutral]
  · exact absurd rfl (hn _ _)

theorem terminate_neutral {p : Pipe H} {t : PTask} {es : List Effect} {t' : PTask}
    (h : TDoes t (.terminate t') es) :
    ∃ fs, (p.terminate o t').ctx.log = p.ctx.log ++ fs ∧ (∀ e ∈ fs, e.neutral = true) := by
  rcases terminate_cases (o := o) (p := p)
    ((does_terminate h t' rfl).imp (·.1) (·.1)) with ⟨h1, _⟩ | ⟨hs, a, h1, _⟩
  · exact ⟨_, h1, by simp [Effect.neutral]⟩
  · exact ⟨_, by rw [h1, List.append_assoc], by simp [Effect.neutral]⟩

theorem keyed_answering {p : Pipe H} {token s z : Nat} (h : Keyed p) : Keyed (p.answering token s z) := by
  intro tok
  show tok ∈ (p.deferred.filter _).map Prod.fst ↔ tok ∈ flying (p.ctx.log ++ [.responded token s z])
  rw [mem_keys_filter, mem_flying_snoc, h tok]
  constructor
  · rintro ⟨h1, h2⟩
    exact .inr ⟨h2, by simp; intro heq; exact absurd heq.symm h1⟩
  · rintro (h1 | ⟨h1, h2⟩)
    · simp [sentToken] at h1
    · refine ⟨?_, h1⟩
      rintro rfl
      exact h2 s z rfl

theorem keyed_extra : Extra o (fun (p : Pipe H) _ => Keyed p) Keyed Keyed where
  opens p hl h := h
  skip p t ts hl h hd := h
  go p t ts out c es hl h hd ha hs hlog hdo := by
    by_cases hdef : ∃ tok t', out = .deferred tok t'
    · obtain ⟨tok, t', rfl⟩ := hdef
      obtain ⟨_, _, g, svc, b, rid, rfl⟩ := sent_call hdo tok t' rfl
      intro tok'
      show tok' ∈ (mapInsert p.deferred tok t').map Prod.fst ↔ tok' ∈ flying c.log
      rw [hlog, mem_keys_insert, mem_flying_snoc, mem_flying_neutral (by simp [Effect.neutral]), h tok']
      simp [sentToken, eq_comm]
    · have hn := does_neutral hdo (fun tok t' h => hdef ⟨tok, t', h⟩)
      have key : ∀ (q : Pipe H) fs, q.ctx.log = c.log ++ fs → (∀ e ∈ fs, e.neutral = true) →
          q.deferred = p.deferred → Keyed q := by
        intro q fs hq hfs hd
        refine h.neutral (es := [.applied t.id] ++ es ++ fs) (by rw [hq, hlog]; simp) ?_ hd
        intro e he
        simp only [List.mem_append, List.mem_singleton] at he
        rcases he with (rfl | he) | he
        · rfl
        · exact hn e he
        · exact hfs e he
      cases out with
      | done => exact key _ [.completed t.id] rfl (by simp [Effect.neutral]) rfl
      | failed => exact key _ [.failed t.id] rfl (by simp [Effect.neutral]) rfl
      | requeued new => exact key _ [] (by simp [Pipe.after]) (by simp) rfl
      | deferred tok t' => exact absurd ⟨_, _, rfl⟩ hdef
      | terminate t' => simp [Outcome.stops] at hs
  stop p t ts t' c es hl h hd ha hlog hdo := by
    obtain ⟨fs, h1, h2⟩ := terminate_neutral (o := o) (p := { p with ctx := c }) hdo
    refine h.neutral (es := [.applied t.id] ++ es ++ fs) (by rw [h1]; show c.log ++ fs = _; rw [hlog]; simp) ?_ rfl
    intro e he
    simp only [List.mem_append, List.mem_singleton] at he
    rcases he with (rfl | he) | he
    · rfl
    · exact does_neutral hdo (by simp) e he
    · exact h2 e he
  tear p hl h hq hd := keyed_tear p h
  bury p hd h := keyed_tear p h
  late p token s z hl h hg := by
    intro tok
    show tok ∈ p.deferred.map _ ↔ tok ∈ flying (p.ctx.log ++ [.responded token s z])
    rw [mem_flying_snoc, h tok]
    constructor
    · intro h1
      refine .inr ⟨h1, ?_⟩
      intro s' z' heq
      cases heq
      exact mapGet_none hg ((h token).2 h1)
    · rintro (h1 | ⟨h1, h2⟩)
      · simp [sentToken] at h1
      · exact h1
  answer p token s z t out c es hl h hg ha hs hlog hdo := by
    have hw : t.strip.waits = true := hl.deferW _ (mapGet_mem hg)
    have hnd : ∀ tok t', out ≠ .deferred tok t' := by
      rintro tok t' rfl
      rcases does_effects hdo with hloc | ⟨_, _, _, _, _, _, _, _, _, h2, _⟩
      · obtain ⟨_, _, g, svc, b, rid, rfl⟩ := sent_call hdo tok t' rfl
        simpa [Effect.isLocal] using hloc _ (List.mem_singleton.2 rfl)
      · rw [hw] at h2; simp at h2
    have key : ∀ (q : Pipe H) fs, q.ctx.log = c.log ++ fs → (∀ e ∈ fs, e.neutral = true) →
        q.deferred = (p.answering token s z).deferred → Keyed q := by
      intro q fs hq hfs hd
      refine (keyed_answering (token := token) (s := s) (z := z) h).neutral (es := es ++ fs)
        (by rw [hq, hlog]; simp [Pipe.answering]) ?_ hd
      intro e he
      rcases List.mem_append.1 he with he | he
      · exact does_neutral hdo hnd e he
      · exact hfs e he
    cases out with
    | done => exact key _ [.completed t.id] rfl (by simp [Effect.neutral]) rfl
    | failed => exact key _ [.failed t.id] rfl (by simp [Effect.neutral]) rfl
    | requeued new => exact key _ [.completed t.id] rfl (by simp [Effect.neutral]) rfl
    | deferred tok t' => exact absurd rfl (hnd _ _)
    | terminate t' => simp [Outcome.stops] at hs
  answerStop p token s z t t' c es hl h hg ha hlog hdo := by
    obtain ⟨fs, h1, h2⟩ := terminate_neutral (o := o) (p := { p.answering token s z with ctx := c }) hdo
    refine (keyed_answering (token := token) (s := s) (z := z) h).neutral (es := es ++ fs)
      (by rw [h1]; show c.log ++ fs = _; rw [hlog]; simp [Pipe.answering]) ?_ rfl
    intro e he
    rcases List.mem_append.1 he with he | he
    · exact does_neutral hdo (by simp) e he
    · exact h2 e he
  frame p c' hl h hf := by
    obtain ⟨es, h1, h2⟩ := hf.log
    exact h.neutral (q := { p with ctx := c' }) h1 (fun e he => isFilter_neutral (h2 e he)) rfl
  frameD p c' hd h hf := by
    obtain ⟨es, h1, h2⟩ := hf.log
    exact h.neutral (q := { p with ctx := c' }) h1 (fun e he => isFilter_neutral (h2 e he)) rfl
  lateD p token s z hd h hg := by
    intro tok
    show tok ∈ p.deferred.map _ ↔ tok ∈ flying (p.ctx.log ++ [.responded token s z])
    rw [mem_flying_snoc, h tok]
    constructor
    · intro h1
      refine .inr ⟨h1, ?_⟩
      intro s' z' heq
      cases heq
      exact mapGet_none hg ((h token).2 h1)
    · rintro (h1 | ⟨h1, h2⟩)
      · simp [sentToken] at h1
      · exact h1
  answerD p token s z id guard hd h hg := by
    refine (keyed_answering (token := token) (s := s) (z := z) h).neutral (es := [.completed id])
      (by rw [dropped_log]; rfl) (by simp [Effect.neutral]) ?_
    rfl

end Verif
