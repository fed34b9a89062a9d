import Verif.Lemmas.Places
import Verif.Lemmas.Deps
import Verif.Lemmas.Moments
/-! The request id and the tracking header. -/
set_option linter.unusedSimpArgs false
namespace Verif
open Spec

variable {H : Type} {o : Oracle H}

/-- The request id determined at a point of the history, in a context of which `F` holds. -/
def IdFrom (o : Oracle H) (F : Ctx H → Prop) (log : List Effect) (r : Text) : Prop :=
  ∃ c : Ctx H, F c ∧ c.log = log ∧ c.requestId = none ∧ (requestId o c).1 = r

/-- How the request id may change during an action. -/
def IdStep (o : Oracle H) (c : Ctx H) (after : Option Text) : Prop :=
  after = c.requestId ∨ c.requestId = none ∧ ∃ r, after = some r ∧ IdFrom o (Asked o c) c.log r

theorem IdStep.asked {c c' : Ctx H} {r : Option Text} (h : IdStep o c' r) (ha : Asked o c c') (hl : c'.log = c.log)
    (hr : c'.requestId = c.requestId) : IdStep o c r := by
  rcases h with h | ⟨h1, r, h2, d, h3, h4, h5⟩
  · exact .inl (h.trans hr)
  · exact .inr ⟨hr.symm.trans h1, r, h2, d, ha.trans h3, h4.trans hl, h5⟩

theorem evalExpr_rid (c : Ctx H) (id : Text) (e : Expr) : (evalExpr o c id e).2.requestId = c.requestId := by
  unfold evalExpr
  split
  · rfl
  · split
    · rfl
    · rfl
    · dsimp only
      repeat' split
      all_goals rfl

theorem testPred_rid (c : Ctx H) (id : Text) (e : Expr) : (testPred o c id e).2.requestId = c.requestId := by
  have := evalExpr_rid (o := o) c id e
  unfold testPred
  split <;> simp_all

theorem requestId_step (c : Ctx H) : IdStep o c (requestId o c).2.requestId := by
  cases h : c.requestId with
  | some r => left; simp [requestId, h]
  | none => exact .inr ⟨h, _, requestId_some o c, c, .none, rfl, h, rfl⟩

theorem dispatchValue_step (c : Ctx H) (svc : Svc) (v : Val) :
    IdStep o c (dispatchValue o c svc v).2.requestId := by
  have := requestId_step (o := o) c
  unfold dispatchValue
  split
  · exact .inl rfl
  · dsimp only
    split <;> exact this

theorem applyGrpc_step (c : Ctx H) (id deps guard pred msg var svc onReply) :
    IdStep o c (applyGrpc o c id deps guard pred msg var svc onReply).2.requestId := by
  unfold applyGrpc
  have h1 := testPred_rid (o := o) c id pred
  have l1 := testPred_log o c id pred
  have a1 := testPred_asked (o := o) c id pred
  generalize testPred o c id pred = r at h1 l1 a1
  obtain ⟨a, c1⟩ := r
  dsimp only at h1 l1 a1
  cases a with
  | pending => dsimp only; split <;> exact .inl h1
  | err => exact .inl h1
  | available b =>
    cases b with
    | false => exact .inl h1
    | true =>
      dsimp only
      have h2 := evalExpr_rid (o := o) c1 id msg
      have l2 := evalExpr_log o c1 id msg
      have a2 := evalExpr_asked (o := o) c1 id msg
      generalize evalExpr o c1 id msg = r at h2 l2 a2
      obtain ⟨a, c2⟩ := r
      dsimp only at h2 l2 a2
      cases a with
      | pending => dsimp only; split <;> exact .inl (h2.trans h1)
      | err => exact .inl (h2.trans h1)
      | available v =>
        dsimp only
        have h3 := (dispatchValue_step (o := o) c2 svc v).asked (a1.trans a2) (l2.trans l1) (h2.trans h1)
        generalize dispatchValue o c2 svc v = r at h3
        obtain ⟨a, c3⟩ := r
        rcases a with _ | ⟨bytes, rid, token⟩
        · exact h3
        · cases guard <;> exact h3

/-- With the request id known whenever there is a tracking header, a reply does not change it. -/
theorem finishReply_rid (c : Ctx H) (fields terminal) (hr : c.trackerId ≠ none → c.requestId ≠ none) :
    (finishReply o c fields terminal).2.requestId = c.requestId := by
  have h : (tracker o c).2.requestId = c.requestId := by
    unfold tracker
    split
    · rfl
    · rename_i name hn
      cases hc : c.requestId with
      | none => exact absurd hc (hr (by rw [hn]; simp))
      | some r => simp [requestId, hc]
  unfold finishReply
  dsimp only
  split
  · split <;> exact h
  · exact h

theorem applySendReply_rid (c : Ctx H) (id pred e terminal) (hr : c.trackerId ≠ none → c.requestId ≠ none) :
    (applySendReply o c id pred e terminal).2.requestId = c.requestId := by
  unfold applySendReply
  have h1 := testPred_rid (o := o) c id pred
  have t1 := (testPred_ext o c id pred).tracker
  generalize testPred o c id pred = r at h1 t1
  obtain ⟨a, c1⟩ := r
  dsimp only at h1 t1
  cases a with
  | pending => exact h1
  | err => exact h1
  | available b =>
    cases b with
    | false => exact h1
    | true =>
      dsimp only
      have h2 := evalExpr_rid (o := o) c1 id e
      have t2 := (evalExpr_ext o c1 id e).tracker
      generalize evalExpr o c1 id e = r at h2 t2
      obtain ⟨a, c2⟩ := r
      dsimp only at h2 t2
      split
      · rename_i _ fields _ heq
        cases heq
        exact (finishReply_rid (o := o) c2 fields terminal (by rw [t2, t1, h2, h1]; exact hr)).trans (h2.trans h1)
      · rename_i _ _ heq
        cases heq
        exact h2.trans h1

theorem applyHeaders_rid (c : Ctx H) (id pred e target terminal) :
    (applyHeaders o c id pred e target terminal).2.requestId = c.requestId := by
  unfold applyHeaders
  have h1 := testPred_rid (o := o) c id pred
  generalize testPred o c id pred = r at h1
  obtain ⟨a, c1⟩ := r
  dsimp only at h1
  cases a with
  | pending => exact h1
  | err => exact h1
  | available b =>
    cases b with
    | false => exact h1
    | true =>
      dsimp only
      have h2 := evalExpr_rid (o := o) c1 id e
      generalize evalExpr o c1 id e = r at h2
      obtain ⟨a, c2⟩ := r
      dsimp only at h2
      rw [h1] at h2
      cases a with
      | pending => exact h2
      | err => exact h2
      | available v =>
        dsimp only
        repeat' split
        all_goals exact h2

theorem applyFail_rid (c : Ctx H) (id pred terminal) :
    (applyFail o c id pred terminal).2.requestId = c.requestId := by
  unfold applyFail
  have h1 := testPred_rid (o := o) c id pred
  generalize testPred o c id pred = r at h1
  obtain ⟨a, c1⟩ := r
  dsimp only at h1
  cases a with
  | pending => dsimp only; split <;> exact h1
  | err => exact h1
  | available b => cases b <;> dsimp only <;> first | exact h1 | (split <;> exact h1)

theorem setBody_rid (c : Ctx H) (s : Source) (b : Body) : (c.setBody s b).requestId = c.requestId := by
  cases s <;> rfl

theorem storeFinish_rid (c : Ctx H) (source parser) :
    (storeFinish o c source parser).ctx.requestId = c.requestId := by
  unfold storeFinish
  dsimp only
  repeat' split
  all_goals simp [ReadResult.ctx, setBody_rid]

theorem storeRead_rid (c : Ctx H) (source parser) :
    (storeRead o c source parser).ctx.requestId = c.requestId := by
  unfold storeRead
  dsimp only
  repeat' split
  all_goals first
    | rfl
    | exact (storeFinish_rid ..).trans rfl

theorem storeBody_rid (c : Ctx H) (s : ParseState) : (storeBody o c s).ctx.requestId = c.requestId := by
  have hc : ∀ source fields, (createParser o c source fields).2.requestId = c.requestId := by
    intro source fields
    unfold createParser
    dsimp only
    repeat' split
    all_goals rfl
  unfold storeBody
  split
  · rfl
  · exact storeRead_rid ..
  · rename_i source fields
    have := hc source fields
    split <;> rename_i heq <;> rw [heq] at this
    · rw [storeRead_rid]; exact this
    · exact this
    · exact this

theorem applyStore_rid (c : Ctx H) (id pred value path x terminal state) :
    (applyStore o c id pred value path x terminal state).2.requestId = c.requestId := by
  unfold applyStore
  dsimp only
  have h0 := storeBody_rid (o := o) c state
  generalize storeBody o c state = r at h0
  cases r with
  | requeue s c1 => exact h0
  | fail c1 => exact h0
  | ready s c1 =>
    dsimp only [ReadResult.ctx] at h0 ⊢
    have h1 := testPred_rid (o := o) c1 id pred
    generalize testPred o c1 id pred = r at h1
    obtain ⟨a, c2⟩ := r
    dsimp only at h1
    rw [h0] at h1
    cases a with
    | pending => exact h1
    | err => exact h1
    | available b =>
      cases b with
      | false => exact h1
      | true =>
        dsimp only
        have h2 := evalExpr_rid (o := o) c2 id value
        generalize evalExpr o c2 id value = r at h2
        obtain ⟨a, c3⟩ := r
        dsimp only at h2
        rw [h1] at h2
        cases a with
        | pending => exact h2
        | err => exact h2
        | available v =>
          dsimp only [storeValue]
          repeat' split
          all_goals exact h2

theorem applyTokenUsage_rid (c : Ctx H) (strategy fields) :
    (applyTokenUsage o c strategy fields).2.requestId = c.requestId := by
  have hf : ∀ (c : Ctx H) s, (tokenFinish o c s fields).2.requestId = c.requestId := by
    intro c s
    unfold tokenFinish
    split <;> rfl
  unfold applyTokenUsage
  dsimp only
  have h0 : (chooseStrategy o c strategy).2.requestId = c.requestId := by
    unfold chooseStrategy
    repeat' split
    all_goals rfl
  generalize chooseStrategy o c strategy = r at h0
  obtain ⟨a, c1⟩ := r
  dsimp only at h0
  cases a with
  | pending => exact h0
  | err => exact h0
  | available s =>
    dsimp only
    repeat' split
    all_goals first
      | exact h0
      | (rw [hf]; exact h0)

theorem applyPending_rid (c : Ctx H) (id guard svc var onReply) :
    (applyPending o c id guard svc var onReply).2.requestId = c.requestId := by
  unfold applyPending
  dsimp only
  have : (processResponse o c id svc var onReply).2.requestId = c.requestId := by
    unfold processResponse
    dsimp only
    repeat' split
    all_goals rfl
  cases guard <;> exact this

/-- Only calls determine the request id. -/
theorem apply_idStep (c : Ctx H) (k : Core) (hr : c.trackerId ≠ none → c.requestId ≠ none) :
    (k.apply o c).2.requestId = c.requestId ∨ k.waits = false ∧ IdStep o c (k.apply o c).2.requestId := by
  cases k with
  | grpc => exact .inr ⟨rfl, applyGrpc_step ..⟩
  | sendReply => exact .inl (applySendReply_rid _ _ _ _ _ hr)
  | headers => exact .inl (applyHeaders_rid ..)
  | store => exact .inl (applyStore_rid ..)
  | fail => exact .inl (applyFail_rid ..)
  | tokenUsage => exact .inl (applyTokenUsage_rid ..)
  | pending => exact .inl (applyPending_rid ..)
  | noop id guard =>
    left
    simp only [Core.apply, applyNoop]
    cases guard <;> rfl
  | noopTerminal => exact .inl rfl

/-- The tracking header does not change. -/
theorem apply_tracker (c : Ctx H) (k : Core) : (k.apply o c).2.trackerId = c.trackerId := by
  have h := core_res o c k
  generalize k.apply o c = r at h
  obtain ⟨out, c'⟩ := r
  cases h with
  | plain es hw hx hl ho => exact hx.tracker
  | sent _ _ _ _ _ _ _ _ _ _ _ _ hk hp hx hr => exact hx.tracker
  | answered _ _ _ _ _ _ hk hx hl ho => exact hx.tracker
  | dropped _ _ hk hx => exact hx.tracker

/-- A request id that is known does not change. -/
theorem apply_rid (c : Ctx H) (k : Core) (r : Text) (h : c.requestId = some r) :
    (k.apply o c).2.requestId = some r := by
  rcases apply_idStep (o := o) c k (by simp [h]) with hs | ⟨_, hs | ⟨hn, _⟩⟩
  · rw [hs, h]
  · rw [hs, h]
  · rw [hn] at h; simp at h

/-- Neither history, tracking header nor request id changed. -/
structure Steady (o : Oracle H) (c c' : Ctx H) : Prop where
  steps : Prepared o c c'
  log : c'.log = c.log
  tracker : c'.trackerId = c.trackerId
  rid : c'.requestId = c.requestId

theorem Steady.refl (c : Ctx H) : Steady o c c := ⟨.none, rfl, rfl, rfl⟩

theorem Steady.host (c : Ctx H) (h : H) (hs : Prepared o c (c.withHost h)) : Steady o c (c.withHost h) :=
  ⟨hs, rfl, rfl, rfl⟩

theorem Steady.trans {a b c : Ctx H} (h : Steady o a b) (g : Steady o b c) : Steady o a c :=
  ⟨h.steps.trans g.steps, g.log.trans h.log, g.tracker.trans h.tracker, g.rid.trans h.rid⟩

theorem evalExpr_steady (c : Ctx H) (id : Text) (e : Expr) : Steady o c (evalExpr o c id e).2 :=
  ⟨evalExpr_prepared c id e, evalExpr_log o c id e, (evalExpr_ext o c id e).tracker, evalExpr_rid c id e⟩

theorem testPred_steady (c : Ctx H) (id : Text) (e : Expr) : Steady o c (testPred o c id e).2 :=
  ⟨testPred_prepared c id e, testPred_log o c id e, (testPred_ext o c id e).tracker, testPred_rid c id e⟩

theorem testAllLoop_steady (c : Ctx H) (ps : List Expr) : Steady o c (testAllLoop o c ps).2 := by
  induction ps generalizing c with
  | nil => exact .refl c
  | cons p ps ih =>
    have h := testPred_steady (o := o) c [] p
    unfold testAllLoop
    split <;> rename_i heq <;> rw [heq] at h
    · exact h.trans (ih _)
    · exact h
    · exact h
    · exact h

theorem testAll_steady (c : Ctx H) (ps : List Expr) : Steady o c (testAll o c ps).2 := by
  unfold testAll
  split
  · exact .refl c
  · exact (Steady.host c _ (Prepared.none.ensured ps)).trans (testAllLoop_steady _ _)

theorem firstMatch_steady (c : Ctx H) (bs : List Blueprint) : Steady o c (firstMatch o c bs).2 := by
  induction bs generalizing c with
  | nil => exact .refl c
  | cons b bs ih =>
    have h := testAll_steady (o := o) c b.routePredicates
    unfold firstMatch
    split <;> rename_i heq <;> rw [heq] at h
    · exact h
    · exact h.trans (ih _)
    · exact h
    · exact h

theorem select_steady (f : Factory) (c : Ctx H) : Steady o c (f.select o c).2 := by
  have h : Steady o c (getHostname o c).2 := by
    have hp := Prepared.none.hostname (o := o) (a := c)
    unfold getHostname
    split <;> rename_i heq <;> rw [heq] at hp <;> exact Steady.host c _ hp
  unfold Factory.select
  split
  · rename_i heq; rw [heq] at h; exact h
  · rename_i hostname c1 heq; rw [heq] at h
    split
    · exact h
    · rename_i candidates _
      have h2 := firstMatch_steady (o := o) c1 candidates
      split
      · rename_i heq; rw [heq] at h2
        have h3 := h.trans h2
        split <;> exact h3
      · exact h.trans h2

/-- Not an action of a tracing service. -/
def CallsOnly (a : Action) : Prop := ∀ head u var msg acts, a ≠ .grpc head (.tracing u) var msg acts

mutual

theorem toCore_steady (a : Action) (ha : Action.All CallsOnly a) (c : Ctx H) (k : Core) (c' : Ctx H)
    (h : a.toCore o c = some (k, c')) : Steady o c c' := by
  match a, ha with
  | .grpc head service var msg onReply, ha =>
    unfold Action.toCore at h
    split at h
    · simp at h
    · rename_i children c1 heq
      have h1 := toCoreList_steady onReply ha.sub c children c1 heq
      split at h
      · simp only [Option.some.injEq, Prod.mk.injEq] at h
        obtain ⟨rfl, rfl⟩ := h
        exact h1.trans ((testPred_steady c1 _ _).trans (evalExpr_steady _ _ _))
      · exact absurd rfl (ha.here _ _ _ _ _)
  | .deny head e, _ =>
    simp only [Action.toCore, Option.some.injEq, Prod.mk.injEq] at h
    rw [← h.2]; exact .refl _
  | .headers head t e, _ =>
    simp only [Action.toCore, Option.some.injEq, Prod.mk.injEq] at h
    rw [← h.2]; exact .refl _
  | .store head p e x, _ =>
    simp only [Action.toCore, Option.some.injEq, Prod.mk.injEq] at h
    rw [← h.2]; exact .refl _
  | .fail head, _ =>
    simp only [Action.toCore, Option.some.injEq, Prod.mk.injEq] at h
    rw [← h.2]; exact .refl _

theorem toCoreList_steady (as : List Action) (ha : ∀ a ∈ as, Action.All CallsOnly a) (c : Ctx H)
    (ks : List Core) (c' : Ctx H) (h : toCoreList o c as = some (ks, c')) : Steady o c c' := by
  match as, ha with
  | [], _ =>
    simp only [toCoreList, Option.some.injEq, Prod.mk.injEq] at h
    rw [← h.2]; exact .refl _
  | a :: as, ha =>
    unfold toCoreList at h
    split at h
    · simp at h
    · rename_i k c1 heq
      have hq := toCore_steady a (ha a (by simp)) c k c1 heq
      split at h
      · simp at h
      · rename_i ks' c2 heq2
        have h3 := toCoreList_steady as (fun b hb => ha b (by simp [hb])) c1 ks' c2 heq2
        simp only [Option.some.injEq, Prod.mk.injEq] at h
        rw [← h.2]
        exact hq.trans h3

end

theorem actionTasks_steady (c : Ctx H) (rd : List Expr) (w : Bool) (a : Action) (ha : Action.All CallsOnly a)
    (ts td c') (h : actionTasks o c rd w a = some (ts, td, c')) : Steady o c c' := by
  unfold actionTasks at h
  split at h
  · simp at h
  · rename_i t c1 heq
    have hs := toCore_steady a ha c t c1 heq
    split at h <;> (simp only [Option.some.injEq, Prod.mk.injEq] at h; rw [← h.2.2]; exact hs)

theorem tasksLoop_steady (rd : List Expr) (w : Bool) (as : List Action)
    (ha : ∀ a ∈ as, Action.All CallsOnly a) (c : Ctx H) (ts td c')
    (h : tasksLoop o c rd w as = some (ts, td, c')) : Steady o c c' := by
  induction as generalizing c ts td c' with
  | nil =>
    simp only [tasksLoop, Option.some.injEq, Prod.mk.injEq] at h
    rw [← h.2.2]; exact .refl _
  | cons a as ih =>
    unfold tasksLoop at h
    split at h
    · simp at h
    · rename_i ts1 td1 c1 heq
      have q1 := actionTasks_steady c rd w a (ha a (by simp)) ts1 td1 c1 heq
      split at h
      · simp at h
      · rename_i ts2 td2 c2 heq2
        have q2 := ih (fun b hb => ha b (by simp [hb])) c1 ts2 td2 c2 heq2
        simp only [Option.some.injEq, Prod.mk.injEq] at h
        rw [← h.2.2]
        exact q1.trans q2

theorem tasksLoop_append (rd : List Expr) (w : Bool) (as bs : List Action) (c : Ctx H) (ts td c')
    (h : tasksLoop o c rd w (as ++ bs) = some (ts, td, c')) :
    ∃ ts1 td1 c1 ts2 td2, tasksLoop o c rd w as = some (ts1, td1, c1) ∧
      tasksLoop o c1 rd w bs = some (ts2, td2, c') ∧ ts = ts1 ++ ts2 ∧ td = td1 ++ td2 := by
  induction as generalizing c ts td c' with
  | nil => exact ⟨[], [], c, ts, td, rfl, h, rfl, rfl⟩
  | cons a as ih =>
    rw [List.cons_append] at h
    unfold tasksLoop at h
    split at h
    · simp at h
    · rename_i ts1 td1 c1 heq
      split at h
      · simp at h
      · rename_i ts2 td2 c2 heq2
        simp only [Option.some.injEq, Prod.mk.injEq] at h
        obtain ⟨rfl, rfl, rfl⟩ := h
        obtain ⟨us, ud, d, vs, vd, h1, h2, rfl, rfl⟩ := ih c1 _ _ _ heq2
        refine ⟨ts1 ++ us, td1 ++ ud, d, vs, vd, ?_, h2, by simp, by simp⟩
        simp only [tasksLoop, heq, h1]

/-- The identifier of the action of developer mode. -/
def devId : Text := "kuadrant.devMode".toList

/-- What a new pipeline knows about tracking. -/
structure Begun (o : Oracle H) (cfg : PluginConfig) (host : H) (p : Pipe H) : Prop where
  log : p.ctx.log = []
  tracker : p.ctx.trackerId = trackingHeader cfg
  untracked : trackingHeader cfg = none → p.ctx.requestId = none
  tracked : ∀ name, trackingHeader cfg = some name → ∃ r e, p.ctx.requestId = some r ∧
    IdFrom o (Prepared o { host := host }) [] r ∧
    o.parse (trackingSource name r) = some e ∧
    Tasks (fun k => k.id = devId → k = .headers devId truePred e .response false) p []

/-- Actions from the configuration are calls and have other identifiers than developer mode. -/
def Ordinary (a : Action) : Prop := CallsOnly a ∧ a.head.id ≠ devId

theorem Compiled.ordinary {parse : Text → Option Expr} {services : Text → Option SvcInst} {id : Text}
    {t : TypedAction} {x : Action} (h : Compiled parse services id t x) (hid : ∀ c ∈ id, c.isDigit = true ∨ c = '.') :
    Action.All Ordinary x := by
  have hne : ∀ y : Text, (∀ c ∈ y, c.isDigit = true ∨ c = '.') → y ≠ devId := by
    rintro y hy rfl
    have := hy 'k' (by decide)
    simp at this
  induction h with
  | grpc id h service var message onReply pred kind svc deny msg replies hp hs hm hl hseq hr ih =>
    refine .mk _ ⟨by simp [CallsOnly], hne _ hid⟩ ?_
    intro head svc' var' msg' acts heq b hbm
    cases heq
    obtain ⟨i, hi, rfl⟩ := List.mem_iff_getElem.1 hbm
    have hi' : i < onReply.length := by omega
    refine ih i onReply[i] _ (by simp [hi']) (by simp [hi]) ?_
    intro c hc
    simp only [List.mem_append, List.mem_cons] at hc
    rcases hc with hc | hc | hc
    · exact hid c hc
    · exact .inr hc
    · exact .inl (natText_digit hc)
  | deny id h e pred x hp he => exact .mk _ ⟨by simp [CallsOnly], hne _ hid⟩ (by simp)
  | headers id h target e pred x hp he => exact .mk _ ⟨by simp [CallsOnly], hne _ hid⟩ (by simp)
  | store id h path e x pred y hp he => exact .mk _ ⟨by simp [CallsOnly], hne _ hid⟩ (by simp)
  | fail id h pred hp => exact .mk _ ⟨by simp [CallsOnly], hne _ hid⟩ (by simp)

theorem fromSet_ordinary {parse : Text → Option Expr} {cfg : PluginConfig} {s : ActionSet} {b : Blueprint}
    (hfs : FromSet parse cfg s b) :
    ∃ xs, b.actions = xs ++ (devModeAction cfg).toList ∧ ∀ a ∈ xs, Action.All Ordinary a := by
  obtain ⟨xs, hxs, hc⟩ := hfs.actions
  refine ⟨xs, hxs, ?_⟩
  intro a ha
  obtain ⟨hl, hr⟩ := compileLoop_compiled parse cfg.services 0 _ xs hc
  obtain ⟨i, hi, rfl⟩ := List.mem_iff_getElem.1 ha
  have hi' : i < (s.actions.zip (computeDeps s.actions)).length := by omega
  have hi1 : i < s.actions.length := by
    rw [List.length_zip] at hi'; omega
  have hi2 : i < (computeDeps s.actions).length := by
    rw [List.length_zip] at hi'; omega
  obtain ⟨t, y, hst, hco, heq⟩ := hr i s.actions[i] (computeDeps s.actions)[i] xs[i]
    (by rw [List.getElem?_zip_eq_some]; simp [hi1, hi2]) (by simp [hi])
  rw [heq]
  refine (hco.ordinary (fun c hc => .inl (natText_digit hc))).withDeps ?_
  rintro ⟨h1, h2⟩
  refine ⟨?_, by rwa [withDeps_id]⟩
  intro head u var msg acts h
  cases y <;> simp only [Action.withDeps, Action.grpc.injEq, reduceCtorEq] at h
  rename_i svc _ _ _
  obtain ⟨_, rfl, _⟩ := h
  exact h1 _ _ _ _ _ rfl

theorem tops_all {as : List Action} {ts : List PTask} (h : Tops as ts) {P : Core → Prop} {R : Action → Prop}
    (hacts : ∀ a ∈ as, Action.All R a) (hRP : ∀ a k, R a → Made a k → P k)
    (htok : ∀ fields, P (.tokenUsage none fields)) : ∀ t ∈ ts, Core.All P t.strip := by
  intro t ht
  rcases h.mem t ht with ⟨fields, rfl⟩ | ⟨a, ha, hm⟩
  · exact .mk _ (htok fields) (by simp [Core.children, PTask.strip])
  · exact hm.all hRP (hacts a ha)

theorem Core.All.imp {P Q : Core → Prop} (hPQ : ∀ k, P k → Q k) {k : Core} (h : Core.All P k) : Core.All Q k := by
  induction h with
  | mk k h _ ih => exact .mk _ (hPQ _ h) ih

theorem begun_tracing {cfg : PluginConfig} {header : Text} {host : H} {d c2 : Ctx H} {rd : List Expr} {w : Bool}
    {head : Head} {u : Option Text} {ts1 ts2 : List PTask} {td1 td2 : List Text}
    (hh : cfg.headerIdentifier = some header) (ht : trackingHeader cfg = cfg.headerIdentifier)
    (hs : Prepared o { host := host } d) (hlog : d.log = []) (hrid : d.requestId = none)
    (hids : ∀ t ∈ ts1, Core.All (fun k => k.id ≠ devId) t.strip)
    (h : tasksLoop o d rd w [.grpc { head with id := devId } (.tracing u) header truePred []] = some (ts2, td2, c2)) :
    Begun o cfg host { ctx := c2, queue := ts1 ++ ts2, teardown := td1 ++ td2 } := by
  simp only [tasksLoop, actionTasks, Action.toCore, toCoreList] at h
  cases hp : o.parse (trackingSource header (requestId o { d with trackerId := some header }).1) with
  | none => simp [hp] at h
  | some e =>
    simp only [hp, Option.some.injEq, Prod.mk.injEq] at h
    obtain ⟨rfl, rfl, rfl⟩ := h
    refine ⟨?_, ?_, ?_, ?_⟩
    · rw [(requestId_ext o _).log]; simp [hlog]
    · rw [(requestId_ext o _).tracker, ht, hh]
    · rw [ht, hh]; simp
    · intro name hn
      rw [ht, hh] at hn
      cases hn
      refine ⟨_, e, requestId_some o _, ⟨{ d with trackerId := some header }, hs.named header, hlog, hrid, rfl⟩, hp, ?_⟩
      intro t htm
      simp only [Pipe.tasks, List.append_nil, List.map_nil, List.mem_append, List.mem_singleton] at htm
      rcases htm with htm | rfl
      · exact (hids t htm).imp fun k hk h => absurd h hk
      · exact .mk _ (fun _ => rfl) (by simp [PTask.strip, Core.children])

theorem build_begun (cfg : PluginConfig) (f : Factory) (host : H) (p : Pipe H)
    (h : f.build o { host := host } = .pipeline p)
    (hsel : ∀ b, (f.select o { host := host }).1 = .found b → ∃ xs, b.actions = xs ++ (devModeAction cfg).toList ∧
      ∀ a ∈ xs, Action.All Ordinary a) : Begun o cfg host p := by
  unfold Factory.build at h
  have hq := select_steady (o := o) f { host := host }
  split at h
  · simp at h
  · simp at h
  · rename_i b c1 heq
    rw [heq] at hq
    obtain ⟨xs, hxs, hord⟩ := hsel b (by rw [heq])
    dsimp only at h
    split at h
    · simp at h
    · rename_i ts td c2 heq2
      split at h
      · simp at h
      · simp only [Build.pipeline.injEq] at h
        subst h
        unfold Blueprint.toTasks at heq2
        rw [hxs] at heq2
        generalize { b with actions := b.actions }.tracingEnabled = w at heq2
        obtain ⟨ts1, td1, d, ts2, td2, h1, h2, rfl, rfl⟩ := tasksLoop_append _ _ _ _ _ _ _ _ heq2
        have hs1 : Steady o { host := host } d := hq.trans ((Steady.host c1 _ (Prepared.none.headers .request)).trans
          (tasksLoop_steady _ _ _ (fun a ha => (hord a ha).imp fun _ h => h.1) _ _ _ _ h1))
        have htops := (tasksLoop_tops o _ _ _ _ _ _ _ h1).1
        have hids : ∀ t ∈ ts1, Core.All (fun k => k.id ≠ devId) t.strip :=
          tops_all htops hord (fun a k ha hm => by rw [hm.id]; exact ha.2) (fun _ => show "token_usage".toList ≠ devId by decide)
        have hlog : d.log = [] := hs1.log
        have hrid : d.requestId = none := hs1.rid
        have htr : d.trackerId = none := hs1.tracker
        unfold devModeAction at h2
        cases hh : cfg.headerIdentifier with
        | none =>
          rw [hh] at h2
          simp only [Option.map_none, Option.toList_none, tasksLoop, Option.some.injEq, Prod.mk.injEq] at h2
          obtain ⟨rfl, rfl, rfl⟩ := h2
          refine ⟨hlog, ?_, fun _ => hrid, ?_⟩
          · show d.trackerId = _
            rw [htr]
            unfold trackingHeader
            rw [hh]
            split <;> rfl
          · intro name
            unfold trackingHeader
            rw [hh]
            split <;> simp
        | some header =>
          rw [hh] at h2
          simp only [Option.map_some, Option.toList_some] at h2
          cases hsv : cfg.tracingService.bind cfg.services with
          | some inst =>
            cases inst with
            | call kind svc deny =>
              rw [hsv] at h2
              simp only [Option.getD_some, tasksLoop, actionTasks, Action.toCore, toCoreList] at h2
              simp only [Option.some.injEq, Prod.mk.injEq] at h2
              obtain ⟨_, _, h3⟩ := h2
              have hs2 : Steady o d c2 := by
                rw [← h3]; exact (testPred_steady d _ _).trans (evalExpr_steady _ _ _)
              have hs := hs1.trans hs2
              refine ⟨hs.log, ?_, fun _ => hs.rid, ?_⟩
              · rw [hs.tracker]; simp [trackingHeader, hsv]
              · simp [trackingHeader, hsv]
            | tracing u =>
              rw [hsv] at h2
              exact begun_tracing (head := { id := devId, pred := truePred, guard := true }) hh (by simp [trackingHeader, hsv, hh]) hs1.steps hlog hrid hids h2
          | none =>
            rw [hsv] at h2
            exact begun_tracing (head := { id := devId, pred := truePred, guard := true }) hh (by simp [trackingHeader, hsv, hh]) hs1.steps hlog hrid hids h2

/-- Pipelines of a compiled configuration. -/
theorem tryFrom_begun {parse : Text → Option Expr} {cfg : PluginConfig} {f : Factory}
    (hf : Factory.tryFrom parse cfg = some f) {host : H} {p : Pipe H}
    (h : f.build o { host := host } = .pipeline p) : Begun o cfg host p := by
  refine build_begun cfg f host p h ?_
  intro b hb
  rcases servedBy_exists hf hb with ⟨s, _, b', b2, h1, h2, rfl⟩ | ⟨a, ha, hb'⟩
  · rw [hb] at h1
    cases h1
    exact fromSet_ordinary (compile_fromSet parse cfg s b2 h2)
  · exact ⟨[], by rw [hb', ha]; rfl, by simp⟩

theorem servedBy_begun {parse : Text → Option Expr} {cfg : PluginConfig} {f : Factory} {host : H}
    {s : ActionSet} (hs : ServedBy o parse cfg f host s) {p : Pipe H}
    (h : f.build o { host := host } = .pipeline p) : Begun o cfg host p := by
  refine build_begun cfg f host p h ?_
  intro b hb
  obtain ⟨b', b2, h1, h2, rfl⟩ := hs
  rw [hb] at h1
  cases h1
  exact fromSet_ordinary (compile_fromSet parse cfg s b2 h2)

/-- `Q` holds of what precedes and follows each start of action `x`. -/
def After (x : Text) (Q : List Effect → List Effect → Prop) (log : List Effect) : Prop :=
  ∀ pre post, log = pre ++ .applied x :: post → Q pre post

theorem After.append {x : Text} {Q : List Effect → List Effect → Prop} {log es : List Effect}
    (hm : ∀ pre post es, Q pre post → Q pre (post ++ es)) (h : After x Q log) (he : Effect.applied x ∉ es) :
    After x Q (log ++ es) := by
  intro pre post hx
  rcases List.append_eq_append_iff.1 hx with ⟨r, h1, h2⟩ | ⟨r, h1, h2⟩
  · cases r with
    | nil => exact absurd (by rw [h2]; simp) he
    | cons y r => exact absurd (by rw [h2]; simp) he
  · cases r with
    | nil =>
      simp only [List.nil_append] at h2
      exact absurd (by rw [← h2]; simp) he
    | cons y r =>
      simp only [List.cons_append, List.cons.injEq] at h2
      obtain ⟨rfl, rfl⟩ := h2
      exact hm _ _ _ (h pre r h1)

theorem After.start {x : Text} {Q : List Effect → List Effect → Prop} {log es : List Effect}
    (hm : ∀ pre post es, Q pre post → Q pre (post ++ es)) (h : After x Q log) (hq : Q log es)
    (he : Effect.applied x ∉ es) : After x Q (log ++ [.applied x] ++ es) := by
  intro pre post hx
  rw [List.append_assoc] at hx
  rcases List.append_eq_append_iff.1 hx with ⟨r, h1, h2⟩ | ⟨r, h1, h2⟩
  · cases r with
    | nil =>
      simp only [List.append_nil, List.nil_append, List.singleton_append, List.cons.injEq, true_and] at h1 h2
      rw [h1, ← h2]
      exact hq
    | cons y r =>
      simp only [List.nil_append, List.cons_append, List.cons.injEq] at h2
      exact absurd (by rw [h2.2]; simp) he
  · cases r with
    | nil =>
      simp only [List.append_nil, List.nil_append, List.singleton_append, List.cons.injEq, true_and] at h1 h2
      rw [← h1, h2]
      exact hq
    | cons y r =>
      simp only [List.cons_append, List.cons.injEq] at h2
      obtain ⟨rfl, rfl⟩ := h2
      exact hm _ _ _ (h pre r h1)

theorem core_unapplied {k : Core} {out : Outcome} {es : List Effect} (h : Does k out es) (x : Text) :
    Effect.applied x ∉ es := by
  cases h with
  | stored _ _ _ path _ _ _ v pre hp =>
    rcases hp with ⟨rfl, _⟩ | ⟨b, w, rfl, _⟩ <;> simp
  | _ => simp

/-- What action `x` does when it starts, given an invariant `J` of contexts. -/
theorem CtxInv.after {S : Ctx H → Prop} {R : Nat → Nat → Nat → Ctx H → Prop} {P : Core → Prop} {J : Ctx H → Prop}
    (h : CtxInv o P J) {x : Text}
    {Q : List Effect → List Effect → Prop} (hm : ∀ pre post es, Q pre post → Q pre (post ++ es))
    (hx : ∀ k c es, P k → k.id = x → k.waits = false → J c → S (c.push (.applied x)) →
      (k.apply o (c.push (.applied x))).2.log = c.log ++ [.applied x] ++ es → Q c.log es) :
    CtxInvAt o S R P (fun c => J c ∧ After x Q c.log) where
  closed := h.closed
  start k c hk hc hw hJ hS := by
    refine ⟨h.start k c hk hc hw hJ.1, ?_⟩
    obtain ⟨es, h1, h2⟩ := core_does o (c.push (.applied k.id)) k
    have h1' : (k.apply o (c.push (.applied k.id))).2.log = c.log ++ [.applied k.id] ++ es := h1
    rw [h1']
    by_cases hid : k.id = x
    · rw [hid] at h1' hS ⊢
      exact hJ.2.start hm (hx k c es hk hid hw hJ.1 hS h1') (core_unapplied h2 x)
    · rw [List.append_assoc]
      refine hJ.2.append hm ?_
      have := core_unapplied h2 x
      simp only [List.singleton_append, List.mem_cons, Effect.applied.injEq]
      rintro (he | he)
      · exact hid he.symm
      · exact this he
  respond k c token s z hk hw hJ _ _ := by
    refine ⟨h.respond k c token s z hk hw hJ.1, ?_⟩
    obtain ⟨es, h1, h2⟩ := core_does o
      { c with grpc := some (s, z), log := c.log ++ [.responded token s z] } k
    rw [h1]
    show After x Q (c.log ++ [.responded token s z] ++ es)
    rw [List.append_assoc]
    refine hJ.2.append hm ?_
    have := core_unapplied h2 x
    simpa using this
  last c hJ := by
    refine ⟨h.last c hJ.1, ?_⟩
    obtain ⟨es, h1, h2⟩ := core_does o c defaultCore
    rw [h1]
    exact hJ.2.append hm (core_unapplied h2 x)
  aside c c' hJ ha := by
    refine ⟨h.aside c c' hJ.1 ha, ?_⟩
    obtain ⟨es, h1, h2⟩ := ha.log
    rw [h1]
    refine hJ.2.append hm ?_
    intro he
    have := h2 _ he
    simp [Effect.plain, Effect.isFilter] at this

/-- The tracking header is fixed. -/
theorem tracker_inv {P : Core → Prop} (hP : Closed P) (t : Option Text) :
    CtxInv o P (fun c => c.trackerId = t) where
  closed := hP
  start k c _ _ _ h := by rw [apply_tracker]; exact h
  respond k c _ _ _ _ _ h := by rw [apply_tracker]; exact h
  last c h := by rw [apply_tracker]; exact h
  aside c c' h ha := by rw [ha.tracker]; exact h

/-- Action `x`, before it waits for a response, is the task `K`. -/
def OnlyAt (x : Text) (K : Core) (k : Core) : Prop := k.id = x → k.waits = false → k = K

theorem onlyAt_closed (x : Text) (K : Core) (h1 : ∀ id pred e path y terminal s, K ≠ .store id pred e path y terminal s)
    (h2 : ∀ s fields, K ≠ .tokenUsage s fields) : Closed (OnlyAt x K) where
  again k k' h ha := by
    cases ha with
    | same => exact h
    | store id pred e path y terminal s s' => intro hid _; exact absurd (h hid rfl).symm (h1 _ _ _ _ _ _ _)
    | tokenUsage => intro hid _; exact absurd (h hid rfl).symm (h2 _ _)
  sent := by simp [OnlyAt, Core.waits]
  noop := by simp [OnlyAt, Core.waits]

theorem CtxInv.after_run {P : Core → Prop} {J : Ctx H → Prop} (h : CtxInv o P J) {x : Text}
    {Q : List Effect → List Effect → Prop} (hm : ∀ pre post es, Q pre post → Q pre (post ++ es))
    {factory : Factory} {host : H} {events : List (Event H)}
    (hx : ∀ k c es, P k → k.id = x → k.waits = false → J c → Acting o factory host events (c.push (.applied x)) →
      (k.apply o (c.push (.applied x))).2.log = c.log ++ [.applied x] ++ es → Q c.log es)
    {p : Pipe H} (hb : factory.build o { host := host } = .pipeline p)
    (ht : Tasks P p []) (hj : J (p.push .hits).ctx) :
    After x Q (Filter.run o factory host events).log := by
  obtain ⟨b, _, hbuilt⟩ := build_built o factory _ p hb
  have hlog0 : (p.push .hits).ctx.log = [.hits] := by simp [Pipe.push, Ctx.push, hbuilt.quiet.log]
  refine ((h.after hm hx).extra.run factory host events p hb ⟨ht, hj, ?_⟩).log (Q := After x Q) ?_
  · rw [hlog0]
    intro pre post he
    have : Effect.applied x ∈ [Effect.hits] := by rw [he]; simp
    simp at this
  · rintro q (⟨_, _, _, h⟩ | ⟨_, _, h⟩) <;> exact h

/-- Reading off an invariant of contexts. -/
theorem CtxInv.run {P : Core → Prop} {J : Ctx H → Prop} (h : CtxInv o P J)
    {factory : Factory} {host : H} {p : Pipe H} (hb : factory.build o { host := host } = .pipeline p)
    (ht : Tasks P p []) (hj : J (p.push .hits).ctx) (events : List (Event H)) {Q : List Effect → Prop}
    (hQ : ∀ c, J c → Q c.log) : Q (Filter.run o factory host events).log := by
  refine (h.extra.run factory host p hb ⟨ht, hj⟩ events).log (Q := Q) ?_
  rintro q (⟨_, _, h⟩ | ⟨_, h⟩) <;> exact hQ _ h

/-- The tracking header of a reply. -/
def tracked (t : Option Text) (r : Text) : Headers := t.toList.map (·, r)

theorem finishReply_log (c : Ctx H) (fields : List (Text × Val)) (terminal : Bool) :
    ∃ r accepted, (finishReply o c fields terminal).2.log = c.log ++
      [.denied, .reply (readDeny fields).1 ((readDeny fields).2.1 ++ tracked c.trackerId r)
        (readDeny fields).2.2 accepted] ∧
      (c.trackerId ≠ none → (finishReply o c fields terminal).2.requestId = some r) := by
  have hl : (finishReply o c fields terminal).2 =
      (((tracker o c).2.push .denied).withHost (o.sendReply ((tracker o c).2.push .denied) (readDeny fields).1
        (withTracker (readDeny fields).2.1 (tracker o c).1) (readDeny fields).2.2).2).push
        (.reply (readDeny fields).1 (withTracker (readDeny fields).2.1 (tracker o c).1) (readDeny fields).2.2
          (o.sendReply ((tracker o c).2.push .denied) (readDeny fields).1
            (withTracker (readDeny fields).2.1 (tracker o c).1) (readDeny fields).2.2).1) := by
    unfold finishReply
    dsimp only
    split
    · split <;> rfl
    · rfl
  rw [hl]
  refine ⟨(requestId o c).1, (o.sendReply ((tracker o c).2.push .denied) (readDeny fields).1
    (withTracker (readDeny fields).2.1 (tracker o c).1) (readDeny fields).2.2).1, ?_, ?_⟩
  · have hw : withTracker (readDeny fields).2.1 (tracker o c).1 =
        (readDeny fields).2.1 ++ tracked c.trackerId (requestId o c).1 := by
      unfold tracker tracked
      cases c.trackerId <;> simp [withTracker]
    rw [← hw]
    simp only [Ctx.push, Ctx.withHost, tracker_log, List.append_assoc, List.cons_append, List.nil_append]
  · intro hn
    show (tracker o c).2.requestId = _
    unfold tracker
    cases ht : c.trackerId with
    | none => exact absurd ht hn
    | some name => exact requestId_some o c

theorem fieldValue_lookup (fields : List (Text × Val)) (name : Text) :
    fieldValue fields name = fields.lookup name := by
  induction fields with
  | nil => rfl
  | cons e es ih =>
    obtain ⟨k, v⟩ := e
    simp only [fieldValue, List.find?, List.lookup] at *
    by_cases hk : k = name
    · subst hk; simp
    · have : (name == k) = false := by simp; exact fun h => hk h.symm
      simp only [hk, decide_false, this]
      exact ih

theorem headerPairs_lists (hs : Headers) :
    headerPairs (.list (hs.map fun p => .list [.str p.1, .str p.2])) = hs := by
  simp only [headerPairs]
  induction hs with
  | nil => rfl
  | cons p hs ih => simp [headerPair, ih]

theorem sendReply_log (c : Ctx H) (id pred e terminal) :
    (applySendReply o c id pred e terminal).2.log = c.log ∨
    ∃ st hs r body accepted, (applySendReply o c id pred e terminal).2.log = c.log ++
      [.denied, .reply st (hs ++ tracked c.trackerId r) body accepted] ∧
      (c.trackerId ≠ none → (applySendReply o c id pred e terminal).2.requestId = some r) := by
  unfold applySendReply
  have h1 := testPred_steady (o := o) c id pred
  generalize testPred o c id pred = r at h1
  obtain ⟨a, c1⟩ := r
  dsimp only at h1
  cases a with
  | pending => exact .inl h1.log
  | err => exact .inl h1.log
  | available b =>
    cases b with
    | false => exact .inl h1.log
    | true =>
      dsimp only
      have h2 := evalExpr_steady (o := o) c1 id e
      generalize evalExpr o c1 id e = r at h2
      obtain ⟨a, c2⟩ := r
      dsimp only at h2
      have h3 := h1.trans h2
      split
      · rename_i _ fields _ heq
        cases heq
        obtain ⟨r, accepted, h4, h5⟩ := finishReply_log (o := o) c2 fields terminal
        rw [h3.log, h3.tracker] at h4
        rw [h3.tracker] at h5
        exact .inr ⟨_, _, r, _, accepted, h4, h5⟩
      · rename_i _ _ heq
        cases heq
        exact .inl h3.log

/-- Is the effect a call? -/
def Effect.isSend : Effect → Bool
  | .dispatch .. => true
  | _ => false

/-- Is the effect a direct reply? -/
def Effect.isReply : Effect → Bool
  | .reply .. => true
  | _ => false

/-- All uses of the request id agree with the context, and the id was determined before the first call. -/
structure SameId (o : Oracle H) (F : Ctx H → Prop) (T : Option Text) (c : Ctx H) : Prop where
  tracker : c.trackerId = T
  calls : ∀ id g tok svc b rid, .dispatch id g tok svc b rid ∈ c.log → c.requestId = some rid
  replies : ∀ name, T = some name → ∀ st hs b a, .reply st hs b a ∈ c.log →
    ∃ hs' r, c.requestId = some r ∧ hs = hs' ++ [(name, r)]
  ready : T ≠ none → c.requestId ≠ none
  origin : ∀ r, c.requestId = some r → ∃ pre post, c.log = pre ++ post ∧ IdFrom o F pre r ∧
    (∀ e ∈ pre, e.isSend = false) ∧ (T ≠ none → pre = [])

theorem SameId.grow {F : Ctx H → Prop} {T : Option Text} {c c' : Ctx H} {es : List Effect} (h : SameId o F T c)
    (hl : c'.log = c.log ++ es) (ht : c'.trackerId = c.trackerId) 
    (hr : c'.requestId = c.requestId ∨ c.requestId = none ∧ ∃ r, c'.requestId = some r ∧ IdFrom o F c.log r)
    (hc : ∀ id g tok svc b rid, .dispatch id g tok svc b rid ∈ es → c'.requestId = some rid)
    (hp : ∀ st hs b a, .reply st hs b a ∈ es → ∃ hs' r, hs = hs' ++ tracked c.trackerId r ∧
      (c.trackerId ≠ none → c'.requestId = some r)) : SameId o F T c' := by
  have hkeep : ∀ r, c.requestId = some r → c'.requestId = some r := by
    intro r h'
    rcases hr with hr | ⟨hr, _⟩
    · rw [hr]; exact h'
    · rw [hr] at h'; simp at h'
  constructor
  · rw [ht]; exact h.tracker
  · intro id g tok svc b rid hm
    rw [hl] at hm
    rcases List.mem_append.1 hm with hm | hm
    · exact hkeep _ (h.calls _ _ _ _ _ _ hm)
    · exact hc _ _ _ _ _ _ hm
  · intro name hn st hs b a hm
    rw [hl] at hm
    rcases List.mem_append.1 hm with hm | hm
    · obtain ⟨hs', r, h1, h2⟩ := h.replies name hn _ _ _ _ hm
      exact ⟨hs', r, hkeep _ h1, h2⟩
    · obtain ⟨hs', r, h1, h2⟩ := hp _ _ _ _ hm
      rw [h.tracker, hn] at h1 h2
      exact ⟨hs', r, h2 (by simp), h1⟩
  · intro hT
    have := h.ready hT
    cases hrid : c.requestId with
    | none => exact absurd hrid this
    | some r => rw [hkeep r hrid]; simp
  · intro r h'
    rcases hr with hr | ⟨hn, r', hr', hf⟩
    · rw [hr] at h'
      obtain ⟨pre, post, h1, h2⟩ := h.origin r h'
      exact ⟨pre, post ++ es, by rw [hl, h1, List.append_assoc], h2⟩
    · rw [hr'] at h'
      cases h'
      refine ⟨c.log, es, hl, hf, ?_, ?_⟩
      · intro e he
        cases e <;> try rfl
        have := h.calls _ _ _ _ _ _ he
        rw [hn] at this
        simp at this
      · intro hT
        exact absurd hn (h.ready hT)

theorem SameId.apply' {F : Ctx H → Prop} {T : Option Text} {c : Ctx H} (h : SameId o F T c) (k : Core)
    (hs : (k.apply o c).2.requestId = c.requestId ∨
      c.requestId = none ∧ ∃ r, (k.apply o c).2.requestId = some r ∧ IdFrom o F c.log r) :
    SameId o F T (k.apply o c).2 := by
  obtain ⟨es, h1, h2⟩ := core_does o c k
  refine h.grow h1 (apply_tracker c k) hs ?_ ?_
  · intro id g tok svc b rid hm
    have hres := core_res o c k
    generalize k.apply o c = r at h1 h2 hres
    obtain ⟨out, c'⟩ := r
    dsimp only at h1 h2 hres ⊢
    cases hres with
    | plain es' hw hx hl ho =>
      rw [hx.log] at h1
      have := List.append_cancel_left h1
      subst this
      simpa [Effect.isLocal] using hl _ hm
    | sent _ _ _ _ _ _ _ _ token bytes rid' _ hk hp hx hr =>
      rw [hx.log] at h1
      have := List.append_cancel_left h1
      subst this
      simp only [List.mem_singleton, Effect.dispatch.injEq] at hm
      rw [hm.2.2.2.2.2]; exact hr
    | answered _ _ _ _ _ es' hk hx hl ho =>
      rw [hx.log] at h1
      have := List.append_cancel_left h1
      subst this
      simpa [Effect.isLocal] using hl _ hm
    | dropped _ _ hk hx =>
      rw [hx.log] at h1
      have := List.append_cancel_left h1
      subst this
      simp at hm
  · intro st hs b a hm
    have hsend : ∃ id pred e terminal, k = .sendReply id pred e terminal := by
      generalize (k.apply o c).1 = out at h2
      cases h2 with
      | replied | refused => exact ⟨_, _, _, _, rfl⟩
      | stored _ _ _ path _ _ _ v pre hp =>
        rcases hp with ⟨rfl, _⟩ | ⟨b, w, rfl, _⟩ <;> simp at hm
      | _ => simp at hm
    obtain ⟨id, pred, e, terminal, rfl⟩ := hsend
    rcases sendReply_log (o := o) c id pred e terminal with h3 | ⟨st', hs', r, body, acc, h3, h4⟩
    · have h5 : c.log = c.log ++ es := by rw [← h1]; exact h3.symm
      have : es = [] := by simpa using h5
      subst this
      simp at hm
    · have h5 := h3.symm.trans h1
      have := List.append_cancel_left h5
      subst this
      simp only [List.mem_cons, reduceCtorEq, Effect.reply.injEq, List.not_mem_nil, or_false, false_or] at hm
      exact ⟨hs', r, hm.2.1, h4⟩

theorem SameId.apply {F : Ctx H → Prop} {T : Option Text} {c : Ctx H} (h : SameId o F T c) (k : Core)
    (hF : k.waits = false → ∀ c', Asked o c c' → F c') : SameId o F T (k.apply o c).2 := by
  refine h.apply' k ?_
  rcases apply_idStep (o := o) c k (by rw [h.tracker]; exact h.ready) with hs | ⟨hw, hs | ⟨hn, r, hr, d, h3, h4⟩⟩
  · exact .inl hs
  · exact .inl hs
  · exact .inr ⟨hn, r, hr, d, hF hw d h3, h4⟩

theorem SameId.plain {F : Ctx H → Prop} {T : Option Text} {c c' : Ctx H} {es : List Effect} (h : SameId o F T c)
    (hl : c'.log = c.log ++ es) (ht : c'.trackerId = c.trackerId) (hr : c'.requestId = c.requestId)
    (he : ∀ e ∈ es, e.isSend = false ∧ e.isReply = false) : SameId o F T c' := by
  refine h.grow hl ht (.inl hr) ?_ ?_
  · intro id g tok svc b rid hm
    have := (he _ hm).1
    simp [Effect.isSend] at this
  · intro st hs b a hm
    have := (he _ hm).2
    simp [Effect.isReply] at this

theorem sameId_inv {S F : Ctx H → Prop} {R : Nat → Nat → Nat → Ctx H → Prop} {P : Core → Prop} (hP : Closed P)
    (T : Option Text) (hF : ∀ a c, S a → Asked o a c → F c) : CtxInvAt o S R P (SameId o F T) where
  closed := hP
  start k c _ _ _ h hS := by
    have h' : SameId o F T (c.push (.applied k.id)) := h.plain (es := [.applied k.id]) rfl rfl rfl
      (by simp [Effect.isSend, Effect.isReply])
    exact h'.apply k fun _ c' ha => hF _ c' hS ha
  respond k c token s z _ hw h _ _ := by
    have h' : SameId o F T { c with grpc := some (s, z), log := c.log ++ [.responded token s z] } :=
      h.plain (es := [.responded token s z]) rfl rfl rfl (by simp [Effect.isSend, Effect.isReply])
    exact h'.apply k fun hn => by rw [hw] at hn; cases hn
  last c h := h.apply' _ (.inl (applySendReply_rid (o := o) c _ _ _ _ (by rw [h.tracker]; exact h.ready)))
  aside c c' h ha := by
    obtain ⟨es, h1, h2⟩ := ha.log
    refine h.plain h1 ha.tracker ha.rid ?_
    intro e he
    have := h2 e he
    cases e <;> simp_all [Effect.plain, Effect.isFilter, Effect.isSend, Effect.isReply]

/-- A known request id stays. -/
theorem rid_inv {P : Core → Prop} (hP : Closed P) (r : Text) :
    CtxInv o P (fun c => c.requestId = some r) where
  closed := hP
  start k c _ _ _ h := apply_rid _ _ _ h
  respond k c _ _ _ _ _ h := apply_rid _ _ _ h
  last c h := apply_rid _ _ _ h
  aside c c' h ha := by rw [ha.rid]; exact h

theorem begun_sameId {F : Ctx H → Prop} {cfg : PluginConfig} {host : H} {p : Pipe H} (h : Begun o cfg host p)
    (hF : ∀ c, Prepared o { host := host } c → F c) : SameId o F (trackingHeader cfg) (p.push .hits).ctx := by
  constructor
  · exact h.tracker
  · intro id g tok svc b rid hm
    simp [Pipe.push, Ctx.push, h.log] at hm
  · intro name hn st hs b a hm
    simp [Pipe.push, Ctx.push, h.log] at hm
  · intro hT
    cases hn : trackingHeader cfg with
    | none => exact absurd hn hT
    | some name =>
      obtain ⟨r, e, h1, _⟩ := h.tracked name hn
      show p.ctx.requestId ≠ none
      rw [h1]; simp
  · intro r hr
    have hr : p.ctx.requestId = some r := hr
    cases hn : trackingHeader cfg with
    | none => rw [h.untracked hn] at hr; simp at hr
    | some name =>
      obtain ⟨r', e, h1, ⟨d, h2, h3⟩, _⟩ := h.tracked name hn
      rw [h1] at hr
      cases hr
      exact ⟨[], [.hits], by simp [Pipe.push, Ctx.push, h.log], ⟨d, hF d h2, h3⟩, by simp, fun _ => rfl⟩

/-- Reading off an invariant of the contexts that occur. -/
theorem CtxInvAt.run {P : Core → Prop} {J : Ctx H → Prop} {factory : Factory} {host : H} {events : List (Event H)}
    (h : CtxInvAt o (Acting o factory host events) (Hearing o factory host events) P J)
    {p : Pipe H} (hb : factory.build o { host := host } = .pipeline p)
    (ht : Tasks P p []) (hj : J (p.push .hits).ctx) {Q : List Effect → Prop}
    (hQ : ∀ c, J c → Q c.log) : Q (Filter.run o factory host events).log := by
  refine (h.extra.run factory host events p hb ⟨ht, hj⟩).log (Q := Q) ?_
  rintro q (⟨_, _, h⟩ | ⟨_, h⟩) <;> exact hQ _ h

theorem CtxInvAt.and {S : Ctx H → Prop} {R : Nat → Nat → Nat → Ctx H → Prop} {P : Core → Prop} {I J : Ctx H → Prop}
    (h : CtxInvAt o S R P I) (g : CtxInvAt o S R P J) : CtxInvAt o S R P (fun c => I c ∧ J c) where
  closed := h.closed
  start k c hk hc hw hi hS := ⟨h.start k c hk hc hw hi.1 hS, g.start k c hk hc hw hi.2 hS⟩
  respond k c token s z hk hw hi hg hR :=
    ⟨h.respond k c token s z hk hw hi.1 hg hR, g.respond k c token s z hk hw hi.2 hg hR⟩
  last c hi := ⟨h.last c hi.1, g.last c hi.2⟩
  aside c c' hi ha := ⟨h.aside c c' hi.1 ha, g.aside c c' hi.2 ha⟩

theorem CtxInv.and {P : Core → Prop} {I J : Ctx H → Prop} (h : CtxInv o P I) (g : CtxInv o P J) :
    CtxInv o P (fun c => I c ∧ J c) where
  closed := h.closed
  start k c hk hc hw hi := ⟨h.start k c hk hc hw hi.1, g.start k c hk hc hw hi.2⟩
  respond k c token s z hk hw hi := ⟨h.respond k c token s z hk hw hi.1, g.respond k c token s z hk hw hi.2⟩
  last c hi := ⟨h.last c hi.1, g.last c hi.2⟩
  aside c c' hi ha := ⟨h.aside c c' hi.1 ha, g.aside c c' hi.2 ha⟩

theorem tracking_headers (c : Ctx H) (id : Text) (e : Expr) (name r : Text) (hs : Headers) (h : H)
    (he : e.lit = some (.list [.list [.str name, .str r]])) (h1 : o.getHeaders c .response = (.available hs, h))
    (h2 : ∀ new, (o.setHeaders (c.withHost h) .response new).1 = .available ()) :
    ∃ new, (applyHeaders o c id truePred e .response false).2.log = c.log ++ [.headersSet .response new] ∧
      new.filter (fun p => p.1 = name) = [(name, r)] := by
  refine ⟨Headers.set hs name r, ?_, ?_⟩
  · unfold applyHeaders
    have ht : testPred o c id truePred = (.available true, c) := by
      simp [testPred, evalExpr, truePred]
    have he' : evalExpr o c id e = (.available (.list [.list [.str name, .str r]]), c) := by
      simp [evalExpr, he]
    rw [ht]
    dsimp only
    rw [he']
    dsimp only
    have hp : headerPairs (.list [.list [.str name, .str r]]) = [(name, r)] := rfl
    rw [hp]
    simp only [List.isEmpty_cons, Bool.false_eq_true, if_false]
    rw [h1]
    dsimp only
    have := h2 (setAll hs [(name, r)])
    generalize hq : o.setHeaders (c.withHost h) .response (setAll hs [(name, r)]) = g at this
    obtain ⟨a, h'⟩ := g
    dsimp only at this
    subst this
    rfl
  · simp [Headers.set, List.filter_filter]

end Verif
