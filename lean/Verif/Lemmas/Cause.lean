import Verif.Lemmas.Truth
import Verif.Lemmas.Places
import Verif.Lemmas.Identity
import Verif.Lemmas.Joint
import Verif.Spec.Cause
/-! Where effects come from. -/
set_option linter.unusedSimpArgs false
namespace Verif
open Spec

variable {H : Type} {o : Oracle H}

/-! ### Values -/

theorem evalExpr_values (c : Ctx H) (id : Text) (e : Expr) : (evalExpr o c id e).2.values = c.values := by
  unfold evalExpr
  repeat' split
  all_goals first | rfl | (dsimp only; repeat' split) <;> rfl

theorem testPred_values (c : Ctx H) (id : Text) (e : Expr) : (testPred o c id e).2.values = c.values := by
  have h := evalExpr_values (o := o) c id e
  unfold testPred
  split <;> rename_i heq <;> rw [heq] at h <;> exact h

theorem requestId_values (c : Ctx H) : (requestId o c).2.values = c.values := by
  unfold requestId
  repeat' split
  all_goals first | rfl | (dsimp only; repeat' split) <;> rfl

theorem dispatchValue_values (c : Ctx H) (svc : Svc) (v : Val) : (dispatchValue o c svc v).2.values = c.values := by
  unfold dispatchValue
  have h := requestId_values (o := o) c
  split
  · rfl
  · dsimp only
    split <;> exact h

theorem storeFinish_values (c : Ctx H) (source parser) :
    (storeFinish o c source parser).ctx.values = c.values := by
  unfold storeFinish
  dsimp only
  repeat' split
  all_goals first | rfl | (cases source <;> rfl)

theorem storeRead_values (c : Ctx H) (source parser) :
    (storeRead o c source parser).ctx.values = c.values := by
  unfold storeRead
  dsimp only
  repeat' split
  all_goals first | rfl | exact storeFinish_values _ _ _

theorem storeBody_values (c : Ctx H) (s : ParseState) : (storeBody o c s).ctx.values = c.values := by
  have hc : ∀ source fields, (createParser o c source fields).2.values = c.values := by
    intro source fields
    unfold createParser
    dsimp only
    repeat' split
    all_goals rfl
  unfold storeBody
  split
  · rfl
  · exact storeRead_values _ _ _
  · rename_i source fields
    have h := hc source fields
    generalize createParser o c source fields = r at h ⊢
    obtain ⟨a, c1⟩ := r
    cases a with
    | available p => exact (storeRead_values _ _ _).trans h
    | pending => exact h
    | err => exact h

/-! ### What tasks do and why -/

/-- The predicate was true and then the expression had the value. -/
def Gave (o : Oracle H) (c : Ctx H) (id : Text) (pred e : Expr) (v : Val) (c2 : Ctx H) : Prop :=
  ∃ c1, testPred o c id pred = (.available true, c1) ∧ evalExpr o c1 id e = (.available v, c2)

theorem Gave.log {c : Ctx H} {id : Text} {pred e : Expr} {v : Val} {c2 : Ctx H} (h : Gave o c id pred e v c2) :
    c2.log = c.log := by
  obtain ⟨c1, h1, h2⟩ := h
  have := testPred_log o c id pred
  rw [h1] at this
  have h3 := evalExpr_log o c1 id e
  rw [h2] at h3
  exact h3.trans this

theorem Gave.values {c : Ctx H} {id : Text} {pred e : Expr} {v : Val} {c2 : Ctx H} (h : Gave o c id pred e v c2) :
    c2.values = c.values := by
  obtain ⟨c1, h1, h2⟩ := h
  have := testPred_values (o := o) c id pred
  rw [h1] at this
  have h3 := evalExpr_values (o := o) c1 id e
  rw [h2] at h3
  exact h3.trans this

/-- Effects of a task, with their reasons. -/
inductive Why (o : Oracle H) (c : Ctx H) : Core → List Effect → Prop
  | quiet (k es) (h : ∀ e ∈ es, e.acts = false) : Why o c k es
  | call {id deps guard pred msg var svc r v c2 bytes token rid} (h : Gave o c id pred msg v c2)
      (hb : o.encode c2 svc v = some bytes) :
      Why o c (.grpc id deps guard pred msg var svc r) [.dispatch id guard token svc bytes rid]
  | headers {id pred e target terminal v c2 old} (h : Gave o c id pred e v c2)
      (ho : (o.getHeaders c2 target).1 = .available old) :
      Why o c (.headers id pred e target terminal) [.headersSet target (setAll old (headerPairs v))]
  | value {id pred e path terminal s v c1 c2} (hl : c1.log = c.log) (hv : c1.values = c.values)
      (hr : ∃ s', storeBody o c s = .ready s' c1)
      (h : Gave o c1 id pred e v c2) : Why o c (.store id pred e path false terminal s) [.stored path v]
  | exported {id pred e path terminal s v c1 c2 bytes written} (hl : c1.log = c.log) (hv : c1.values = c.values)
      (hr : ∃ s', storeBody o c s = .ready s' c1)
      (h : Gave o c1 id pred e v c2) (hb : o.toBytes v = some bytes) :
      Why o c (.store id pred e path true terminal s) [.attrSet path bytes written, .stored path v]
  | reply {id pred e terminal name fields c2 r accepted} (h : Gave o c id pred e (.struct name fields) c2) :
      Why o c (.sendReply id pred e terminal) [.denied, .reply (readDeny fields).1
        ((readDeny fields).2.1 ++ tracked c.trackerId r) (readDeny fields).2.2 accepted]

theorem Why.nothing (c : Ctx H) (k : Core) : Why o c k [] := .quiet k [] (by simp)

/-- A task's effects have reasons, and only they change the stored values. -/
def Explained (o : Oracle H) (c : Ctx H) (k : Core) (d : Ctx H) : Prop :=
  ∃ es, d.log = c.log ++ es ∧ Why o c k es ∧ d.values = es.foldl noteStored c.values

theorem Explained.none {c d : Ctx H} {k : Core} (h : d.log = c.log) (hv : d.values = c.values) : Explained o c k d :=
  ⟨[], by simp [h], .nothing c k, hv⟩

theorem Explained.plain {c d : Ctx H} {k : Core} (e : Effect) (he : e.acts = false)
    (h : d.log = c.log ++ [e]) (hv : d.values = c.values) : Explained o c k d := by
  refine ⟨[e], h, .quiet k _ (by simpa using he), ?_⟩
  rw [hv]
  cases e <;> first | rfl | simp [Effect.acts] at he

theorem explained_grpc (c : Ctx H) (id deps guard pred msg var svc r) :
    Explained o c (.grpc id deps guard pred msg var svc r)
      (applyGrpc o c id deps guard pred msg var svc r).2 := by
  have hfail : ∀ d : Ctx H, d.log = c.log → d.values = c.values →
      Explained o c (.grpc id deps guard pred msg var svc r) (d.push (.callFailed id)) := fun d h1 h2 =>
    .plain (.callFailed id) rfl (by simp [Ctx.push, h1]) h2
  unfold applyGrpc
  have h1 := testPred_log o c id pred
  have g1 := testPred_values (o := o) c id pred
  cases h : testPred o c id pred with
  | mk a c1 =>
  rw [h] at h1 g1
  cases a with
  | pending =>
    dsimp only; split
    · exact hfail _ h1 g1
    · exact .none h1 g1
  | err => exact hfail _ h1 g1
  | available b =>
    cases b with
    | false => exact .none h1 g1
    | true =>
      dsimp only
      cases h' : evalExpr o c1 id msg with
      | mk a c2 =>
      have h2 := evalExpr_log o c1 id msg
      have g2 := evalExpr_values (o := o) c1 id msg
      rw [h'] at h2 g2
      replace h2 : c2.log = c.log := h2.trans h1
      replace g2 : c2.values = c.values := g2.trans g1
      cases a with
      | pending =>
        dsimp only; split
        · exact hfail _ h2 g2
        · exact .none h2 g2
      | err => exact hfail _ h2 g2
      | available v =>
        dsimp only
        have h3 := dispatchValue_log o c2 svc v
        have g3 := dispatchValue_values (o := o) c2 svc v
        cases hd : dispatchValue o c2 svc v with
        | mk a c3 =>
        rw [hd] at h3 g3
        cases a with
        | none => exact hfail _ (h3.trans h2) (g3.trans g2)
        | some x =>
          obtain ⟨bytes, rid, token⟩ := x
          refine ⟨[.dispatch id guard token svc bytes rid], ?_, .call ⟨c1, h, h'⟩ ?_, ?_⟩
          · have h4 : c3.log = c.log := h3.trans h2
            cases guard <;> simp [Ctx.push, Ctx.raise, h4]
          · unfold dispatchValue at hd
            split at hd
            · simp at hd
            · rename_i bytes' hb
              dsimp only at hd
              split at hd
              · simp at hd
              · simp only [Prod.mk.injEq, Option.some.injEq] at hd
                rw [hb, hd.1.1]
          · cases guard <;> exact g3.trans g2

theorem explained_headers (c : Ctx H) (id pred e target terminal) :
    Explained o c (.headers id pred e target terminal) (applyHeaders o c id pred e target terminal).2 := by
  unfold applyHeaders
  have h1 := testPred_log o c id pred
  have g1 := testPred_values (o := o) c id pred
  cases h : testPred o c id pred with
  | mk a c1 =>
  rw [h] at h1 g1
  cases a with
  | pending => exact .none h1 g1
  | err => exact .none h1 g1
  | available b =>
    cases b with
    | false => exact .none h1 g1
    | true =>
      dsimp only
      cases h' : evalExpr o c1 id e with
      | mk a c2 =>
      have h2 := evalExpr_log o c1 id e
      have g2 := evalExpr_values (o := o) c1 id e
      rw [h'] at h2 g2
      replace h2 : c2.log = c.log := h2.trans h1
      replace g2 : c2.values = c.values := g2.trans g1
      cases a with
      | pending => exact .none h2 g2
      | err => exact .none h2 g2
      | available v =>
        dsimp only
        split
        · exact .none h2 g2
        · cases hg : o.getHeaders c2 target with
          | mk a hh =>
          cases a with
          | pending => exact .none h2 g2
          | err => exact .none h2 g2
          | available old =>
            dsimp only
            cases hs : o.setHeaders (c2.withHost hh) target (setAll old (headerPairs v)) with
            | mk a hh' =>
            cases a with
            | pending => exact .none h2 g2
            | err => exact .none h2 g2
            | available _ =>
              refine ⟨[.headersSet target (setAll old (headerPairs v))], ?_, .headers ⟨c1, h, h'⟩ (by rw [hg]), ?_⟩
              · cases terminal <;> simp [Ctx.push, Ctx.withHost, h2]
              · cases terminal <;> exact g2

theorem explained_storeValue {c c1 c3 : Ctx H} {id : Text} {pred e : Expr} {path : Text} {terminal : Bool}
    {s : ParseState} {v : Val} {c2 : Ctx H} (hl : c1.log = c.log) (hv : c1.values = c.values)
    (hr : ∃ s', storeBody o c s = .ready s' c1)
    (h : Gave o c1 id pred e v c2) (h1 : c3.log = c.log) (h2 : c3.values = c.values) :
    Explained o c (.store id pred e path false terminal s) (storeValue c3 path v terminal).2 := by
  refine ⟨[.stored path v], ?_, .value hl hv hr h, ?_⟩
  · unfold storeValue; cases terminal <;> simp [Ctx.push, h1]
  · unfold storeValue; cases terminal <;> simp [Ctx.push, noteStored, h2]

theorem explained_exported {c c1 c3 : Ctx H} {id : Text} {pred e : Expr} {path : Text} {terminal : Bool}
    {s : ParseState} {v : Val} {c2 : Ctx H} {bytes : Bytes} (w : Bool) (hl : c1.log = c.log)
    (hv : c1.values = c.values) (hr : ∃ s', storeBody o c s = .ready s' c1)
    (h : Gave o c1 id pred e v c2) (hb : o.toBytes v = some bytes) (h1 : c3.log = c.log) (h2 : c3.values = c.values) :
    Explained o c (.store id pred e path true terminal s)
      (storeValue (c3.push (.attrSet path bytes w)) path v terminal).2 := by
  refine ⟨[.attrSet path bytes w, .stored path v], ?_, .exported hl hv hr h hb, ?_⟩
  · unfold storeValue; cases terminal <;> simp [Ctx.push, h1]
  · unfold storeValue; cases terminal <;> simp [Ctx.push, noteStored, h2]

theorem explained_store (c : Ctx H) (id pred e path x terminal s) :
    Explained o c (.store id pred e path x terminal s) (applyStore o c id pred e path x terminal s).2 := by
  unfold applyStore
  dsimp only
  have h0 := (storeBody_ext o c s).log
  have g0 := storeBody_values (o := o) c s
  rw [List.append_nil] at h0
  cases hs : storeBody o c s with
  | requeue s' c' => rw [hs] at h0 g0; exact .none h0 g0
  | fail c' => rw [hs] at h0 g0; exact .none h0 g0
  | ready s' c0 =>
  rw [hs] at h0 g0
  replace h0 : c0.log = c.log := h0
  replace g0 : c0.values = c.values := g0
  dsimp only
  have h1 := testPred_log o c0 id pred
  have g1 := testPred_values (o := o) c0 id pred
  cases h : testPred o c0 id pred with
  | mk a c1 =>
  rw [h] at h1 g1
  replace h1 : c1.log = c.log := h1.trans h0
  replace g1 : c1.values = c.values := g1.trans g0
  cases a with
  | pending => exact .none h1 g1
  | err => exact .none h1 g1
  | available b =>
    cases b with
    | false => exact .none h1 g1
    | true =>
      dsimp only
      cases h' : evalExpr o c1 id e with
      | mk a c2 =>
      have h2 := evalExpr_log o c1 id e
      have g2 := evalExpr_values (o := o) c1 id e
      rw [h'] at h2 g2
      replace h2 : c2.log = c.log := h2.trans h1
      replace g2 : c2.values = c.values := g2.trans g1
      cases a with
      | pending => exact .none h2 g2
      | err => exact .none h2 g2
      | available v =>
        dsimp only
        cases x with
        | false => exact explained_storeValue h0 g0 ⟨_, hs⟩ ⟨c1, h, h'⟩ h2 g2
        | true =>
          rw [if_pos rfl]
          cases hb : o.toBytes v with
          | none => exact .none h2 g2
          | some bytes =>
            dsimp only
            cases ha : o.setAttr c2 path bytes with
            | mk a hh =>
            cases a with
            | err => exact .none h2 g2
            | pending => exact explained_exported false h0 g0 ⟨_, hs⟩ ⟨c1, h, h'⟩ hb h2 g2
            | available _ => exact explained_exported true h0 g0 ⟨_, hs⟩ ⟨c1, h, h'⟩ hb h2 g2

theorem tracker_values (c : Ctx H) : (tracker o c).2.values = c.values := by
  unfold tracker
  have := requestId_values (o := o) c
  split
  · rfl
  · exact this

theorem explained_reply (c : Ctx H) (id pred e terminal) :
    Explained o c (.sendReply id pred e terminal) (applySendReply o c id pred e terminal).2 := by
  unfold applySendReply
  have h1 := testPred_log o c id pred
  have g1 := testPred_values (o := o) c id pred
  have t1 := (testPred_ext o c id pred).tracker
  cases h : testPred o c id pred with
  | mk a c1 =>
  rw [h] at h1 g1 t1
  cases a with
  | pending => exact .none h1 g1
  | err => exact .none h1 g1
  | available b =>
    cases b with
    | false => exact .none h1 g1
    | true =>
      dsimp only
      cases h' : evalExpr o c1 id e with
      | mk a c2 =>
      have h2 := evalExpr_log o c1 id e
      have g2 := evalExpr_values (o := o) c1 id e
      have t2 := (evalExpr_ext o c1 id e).tracker
      rw [h'] at h2 g2 t2
      replace h2 : c2.log = c.log := h2.trans h1
      replace g2 : c2.values = c.values := g2.trans g1
      replace t2 : c2.trackerId = c.trackerId := t2.trans t1
      split
      · rename_i name fields c3 heq
        cases heq
        obtain ⟨r, acc, h3, _⟩ := finishReply_log (o := o) c2 fields terminal
        rw [h2, t2] at h3
        refine ⟨_, h3, .reply ⟨c1, h, h'⟩, ?_⟩
        have := tracker_values (o := o) c2
        rw [← g2, ← this]
        unfold finishReply
        dsimp only
        repeat' split
        all_goals rfl
      · rename_i c3 _ heq
        cases heq
        exact .none h2 g2

theorem explained_fail (c : Ctx H) (id pred terminal) :
    Explained o c (.fail id pred terminal) (applyFail o c id pred terminal).2 := by
  unfold applyFail
  have h1 := testPred_log o c id pred
  have g1 := testPred_values (o := o) c id pred
  cases h : testPred o c id pred with
  | mk a c1 =>
  rw [h] at h1 g1
  cases a with
  | pending =>
    dsimp only
    split <;> exact .none h1 g1
  | err => exact .none h1 g1
  | available b =>
    cases b with
    | false => exact .none h1 g1
    | true =>
      cases terminal
      · exact .none h1 g1
      · exact .plain .errors rfl (congrArg (· ++ [Effect.errors]) h1) g1

theorem explained_token (c : Ctx H) (s fields) :
    Explained o c (.tokenUsage s fields) (applyTokenUsage o c s fields).2 := by
  have hf : ∀ (d : Ctx H) s, (tokenFinish o d s fields).2.log = d.log ∧ (tokenFinish o d s fields).2.values = d.values := by
    intro d s
    unfold tokenFinish
    split <;> exact ⟨rfl, rfl⟩
  have hc : (chooseStrategy o c s).2.log = c.log ∧ (chooseStrategy o c s).2.values = c.values := by
    unfold chooseStrategy
    repeat' split
    all_goals exact ⟨rfl, rfl⟩
  unfold applyTokenUsage
  dsimp only
  cases h : chooseStrategy o c s with
  | mk a c1 =>
  rw [h] at hc
  cases a with
  | pending => exact .none hc.1 hc.2
  | err => exact .none hc.1 hc.2
  | available s' =>
    dsimp only
    split
    · split
      · exact .none ((hf _ _).1.trans hc.1) ((hf _ _).2.trans hc.2)
      · exact .none ((hf _ _).1.trans hc.1) ((hf _ _).2.trans hc.2)
      · exact .none hc.1 hc.2
      · exact .none hc.1 hc.2
    · exact .none ((hf _ _).1.trans hc.1) ((hf _ _).2.trans hc.2)

theorem explained_pending (c : Ctx H) (id guard svc var r) :
    Explained o c (.pending id guard svc var r) (applyPending o c id guard svc var r).2 := by
  have key : ((processResponse o c id svc var r).2.log = c.log ∨
      (processResponse o c id svc var r).2.log = c.log ++ [.callFailed id]) ∧
      (processResponse o c id svc var r).2.values = c.values := by
    unfold processResponse
    repeat' split
    all_goals dsimp only
    all_goals repeat' split
    all_goals simp [Ctx.push, Ctx.withHost]
  unfold applyPending
  dsimp only
  obtain ⟨h, hv⟩ := key
  generalize processResponse o c id svc var r = q at h hv ⊢
  rcases h with h | h
  · cases guard <;> exact .none h hv
  · cases guard <;> exact .plain (.callFailed id) rfl h hv

theorem explained_core (c : Ctx H) (k : Core) : Explained o c k (k.apply o c).2 := by
  cases k with
  | grpc => exact explained_grpc ..
  | sendReply => exact explained_reply ..
  | headers => exact explained_headers ..
  | store => exact explained_store ..
  | fail => exact explained_fail ..
  | tokenUsage => exact explained_token ..
  | pending => exact explained_pending ..
  | noop id guard => cases guard <;> exact .none rfl rfl
  | noopTerminal => exact .none rfl rfl

/-! ### The tasks of a request -/

/-- The tasks that belong to an action set. -/
inductive Known (o : Oracle H) (parse : Text → Option Expr) (cfg : PluginConfig) (s : ActionSet) : Core → Prop
  | grpc {x head service var message replies pred msg kind svc deny deps r}
      (hat : At cfg.services s x (.grpc head service var message replies))
      (hp : parse head.predicate = some pred) (hm : parse message = some msg)
      (hs : cfg.services service = some (.call kind svc deny)) :
      Known o parse cfg s (.grpc x deps head.guard pred msg var svc r)
  | headers {x head target source pred e} (hat : At cfg.services s x (.headers head target source))
      (hp : parse head.predicate = some pred) (he : parse source = some e) :
      Known o parse cfg s (.headers x pred e target head.terminal)
  | store {x head path source y pred e state} (hat : At cfg.services s x (.store head path source y))
      (hp : parse head.predicate = some pred) (he : parse source = some e) :
      Known o parse cfg s (.store x pred e path y head.terminal state)
  | deny {x head source pred e} (hat : At cfg.services s x (.deny head source))
      (hp : parse head.predicate = some pred) (he : parse source = some e) :
      Known o parse cfg s (.sendReply x pred e head.terminal)
  | fail (id pred terminal) : Known o parse cfg s (.fail id pred terminal)
  | token (state fields) : Known o parse cfg s (.tokenUsage state fields)
  | waits (k : Core) (h : k.waits = true) : Known o parse cfg s k
  | tracking {name r e} (hn : trackingHeader cfg = some name) (he : o.parse (trackingSource name r) = some e) :
      Known o parse cfg s (.headers devModeId truePred e .response false)
  | devCall {header service kind svc deny deps var r} (hh : cfg.headerIdentifier = some header)
      (ht : cfg.tracingService = some service) (hs : cfg.services service = some (.call kind svc deny)) :
      Known o parse cfg s (.grpc devModeId deps true truePred truePred var svc r)

theorem known_closed (parse : Text → Option Expr) (cfg : PluginConfig) (s : ActionSet) :
    Closed (Known o parse cfg s) where
  again k k' h ha := by
    cases ha with
    | same => exact h
    | store id pred e path y terminal st st' =>
      cases h with
      | store hat hp he => exact .store hat hp he
      | waits _ h => simp [Core.waits] at h
    | tokenUsage => exact .token _ _
  sent _ _ _ _ _ _ _ _ _ := .waits _ rfl
  noop _ _ := .waits _ rfl

theorem core_all_and {P Q : Core → Prop} {k : Core} (h : Core.All P k) (g : Core.All Q k) :
    Core.All (fun k => P k ∧ Q k) k := by
  induction h with
  | mk k hp hs ih => exact .mk k ⟨hp, g.here⟩ fun c hc => ih c hc (g.sub c hc)

/-- The action belongs to the set or is that of developer mode. -/
def Origin (parse : Text → Option Expr) (cfg : PluginConfig) (s : ActionSet) (a : Action) : Prop :=
  (∃ t y deps, At cfg.services s a.head.id t ∧ Compiled parse cfg.services a.head.id t y ∧ a = y.withDeps deps) ∨
    devModeAction cfg = some a

theorem Compiled.origin {parse : Text → Option Expr} {cfg : PluginConfig} {s : ActionSet} {id : Text}
    {t : TypedAction} {x : Action} (h : Compiled parse cfg.services id t x) (hat : At cfg.services s id t) :
    Action.All (Origin parse cfg s) x := by
  induction h with
  | grpc id h service var message onReply pred kind svc deny msg replies hp hs hm hl hseq hr ih =>
    refine .mk _ (.inl ⟨_, _, [], hat, .grpc _ _ _ _ _ _ _ _ _ _ _ _ hp hs hm hl hseq hr, rfl⟩) ?_
    intro head svc' var' msg' acts heq b hbm
    cases heq
    obtain ⟨i, hi, rfl⟩ := List.mem_iff_getElem.1 hbm
    have hi' : i < onReply.length := by omega
    exact ih i onReply[i] _ (by simp [hi']) (by simp [hi]) (.reply hat (by simp [hi']))
  | deny id h e pred x hp he => exact .mk _ (.inl ⟨_, _, [], hat, .deny _ _ _ _ _ hp he, rfl⟩) (by simp)
  | headers id h target e pred x hp he =>
    exact .mk _ (.inl ⟨_, _, [], hat, .headers _ _ _ _ _ _ hp he, rfl⟩) (by simp)
  | store id h path e x pred y hp he =>
    exact .mk _ (.inl ⟨_, _, [], hat, .store _ _ _ _ _ _ _ hp he, rfl⟩) (by simp)
  | fail id h pred hp => exact .mk _ (.inl ⟨_, _, [], hat, .fail _ _ _ hp, rfl⟩) (by simp)

theorem fromSet_origin {parse : Text → Option Expr} {cfg : PluginConfig} {s : ActionSet} {b : Blueprint}
    (hfs : FromSet parse cfg s b) : ∀ a ∈ b.actions, Action.All (Origin parse cfg s) a := by
  refine set_all hfs ?_ ?_
  · intro i a deps ha hd t x hst hco
    have hat : At cfg.services s (natText i) t := .top ha (standsFor_iff.1 hst)
    refine (hco.origin hat).withDeps ?_
    intro _
    refine .inl ⟨t, x, deps, ?_, ?_, rfl⟩
    · rw [withDeps_id, hco.head_id]; exact hat
    · rw [withDeps_id, hco.head_id]; exact hco
  · intro a ha
    obtain ⟨head, service, var, rfl, h1, h2⟩ := devMode_shape ha
    refine .mk _ (.inr ha) ?_
    intro _ _ _ _ acts heq b hb
    cases heq
    simp at hb

theorem fromSet_known {parse : Text → Option Expr} {cfg : PluginConfig} {s : ActionSet} {b : Blueprint} {c : Ctx H}
    {p : Pipe H} (hb : Built c b p) (hfs : FromSet parse cfg s b) (hbeg : Begun o cfg host p) :
    Tasks (Known o parse cfg s) p [] := by
  have h1 : Tasks (fun k => Known o parse cfg s k ∨ (k.id = devId ∧ (trackingHeader cfg).isSome)) p [] := by
    refine built_all' hb (R := Origin parse cfg s) (fromSet_origin hfs) ?_ fun _ => .inl (.token _ _)
    rintro a k (⟨t, y, deps, hat, hco, ha⟩ | hdev) hm
    · generalize a.head.id = x at hat hco
      subst ha
      left
      cases hco with
      | grpc _ h service var message onReply pred kind svc deny msg replies hp hs hmsg =>
        cases hm
        exact .grpc hat hp hmsg hs
      | deny _ _ _ _ _ hp he => cases hm; exact .deny hat hp he
      | headers _ _ _ _ _ _ hp he => cases hm; exact .headers hat hp he
      | store _ _ _ _ _ _ _ hp he => cases hm; exact .store hat hp he
      | fail _ _ _ hp => cases hm; exact .fail _ _ _
    · unfold devModeAction at hdev
      cases hh : cfg.headerIdentifier with
      | none => simp [hh] at hdev
      | some header =>
        simp only [hh, Option.map_some, Option.some.injEq] at hdev
        cases hsv : cfg.tracingService.bind cfg.services with
        | none =>
          rw [hsv] at hdev
          subst hdev
          cases hm
          exact .inr ⟨rfl, by simp [trackingHeader, hsv, hh]⟩
        | some inst =>
          rw [hsv] at hdev
          subst hdev
          obtain ⟨service, hs1, hs2⟩ := Option.bind_eq_some_iff.1 hsv
          cases inst with
          | tracing u => cases hm; exact .inr ⟨rfl, by simp [trackingHeader, hsv, hh]⟩
          | call kind svc deny =>
            cases hm
            exact .inl (.devCall hh hs1 hs2)
  cases ht : trackingHeader cfg with
  | none =>
    refine fun t ht' => (h1 t ht').imp ?_
    rintro k (h | ⟨_, h⟩)
    · exact h
    · simp [ht] at h
  | some name =>
    obtain ⟨r, e, _, _, he, h2⟩ := hbeg.tracked name ht
    refine fun t ht' => (core_all_and (h1 t ht') (h2 t ht')).imp ?_
    rintro k ⟨h | ⟨h, _⟩, g⟩
    · exact h
    · rw [g h]; exact .tracking ht he

/-! ### The invariant -/

/-- Everything in the log has a cause. -/
structure Justified (o : Oracle H) (V F : Ctx H → Prop) (parse : Text → Option Expr) (cfg : PluginConfig)
    (s : ActionSet) (c : Ctx H) : Prop where
  values : c.values = storedIn c.log
  tracker : c.trackerId = trackingHeader cfg
  cause : ∀ pre e post, c.log = pre ++ e :: post → e.acts = true → CausedIn o V F parse cfg s pre e

theorem split_cause {Q : List Effect → Effect → Prop} {log es : List Effect}
    (h : ∀ pre e post, log = pre ++ e :: post → e.acts = true → Q pre e)
    (hes : ∀ pre e post, es = pre ++ e :: post → e.acts = true → Q (log ++ pre) e) :
    ∀ pre e post, log ++ es = pre ++ e :: post → e.acts = true → Q pre e := by
  intro pre e post hx ha
  rcases List.append_eq_append_iff.1 hx with ⟨r, h1, h2⟩ | ⟨r, h1, h2⟩
  · rw [h1]
    exact hes r e post h2 ha
  · cases r with
    | nil =>
      simp only [List.append_nil, List.nil_append] at h1 h2
      have := hes [] e post (by simpa using h2.symm) ha
      rw [List.append_nil, h1] at this
      exact this
    | cons y r =>
      simp only [List.cons_append, List.cons.injEq] at h2
      obtain ⟨rfl, rfl⟩ := h2
      exact h pre e r h1 ha

theorem split_quiet {Q : List Effect → Effect → Prop} {log es : List Effect}
    (h : ∀ pre e post, log = pre ++ e :: post → e.acts = true → Q pre e) (hes : ∀ e ∈ es, e.acts = false) :
    ∀ pre e post, log ++ es = pre ++ e :: post → e.acts = true → Q pre e :=
  split_cause h fun pre e post hx ha => by
    have := hes e (by rw [hx]; simp)
    rw [ha] at this
    simp at this

theorem split_one {Q : List Effect → Effect → Prop} {log : List Effect} {e : Effect} (h : Q log e) :
    ∀ pre e' post, [e] = pre ++ e' :: post → e'.acts = true → Q (log ++ pre) e' := by
  intro pre e' post hx _
  cases pre with
  | nil =>
    simp only [List.nil_append, List.cons.injEq] at hx
    rw [List.append_nil, ← hx.1]
    exact h
  | cons a pre => simp at hx

theorem split_two {Q : List Effect → Effect → Prop} {log : List Effect} {e1 e2 : Effect}
    (h1 : e1.acts = true → Q log e1) (h2 : Q (log ++ [e1]) e2) :
    ∀ pre e' post, [e1, e2] = pre ++ e' :: post → e'.acts = true → Q (log ++ pre) e' := by
  intro pre e' post hx ha
  cases pre with
  | nil =>
    simp only [List.nil_append, List.cons.injEq] at hx
    rw [List.append_nil, ← hx.1]
    exact h1 (by rw [hx.1]; exact ha)
  | cons a pre =>
    simp only [List.cons_append, List.cons.injEq] at hx
    obtain ⟨rfl, hx⟩ := hx
    cases pre with
    | nil =>
      simp only [List.nil_append, List.cons.injEq] at hx
      rw [← hx.1]
      exact h2
    | cons a pre => simp at hx

theorem storedIn_append (log es : List Effect) : storedIn (log ++ es) = es.foldl noteStored (storedIn log) := by
  simp [storedIn, List.foldl_append]

theorem noteStored_quiet {es : List Effect} (h : ∀ e ∈ es, e.acts = false) (m : List (Text × Val)) :
    es.foldl noteStored m = m := by
  induction es with
  | nil => rfl
  | cons e es ih =>
    have he := h e (by simp)
    have : noteStored m e = m := by cases e <;> first | rfl | simp [Effect.acts] at he
    rw [List.foldl_cons, this]
    exact ih fun e he => h e (by simp [he])

theorem plain_quiet {es : List Effect} (h : ∀ e ∈ es, e.plain = true) : ∀ e ∈ es, e.acts = false := by
  intro e he
  have := h e he
  cases e <;> simp_all [Effect.plain, Effect.isFilter, Effect.acts]

theorem trackingPair_tracked {cfg : PluginConfig} {t : Option Text} (h : t = trackingHeader cfg) (r : Text) :
    trackingPair cfg (tracked t r) := by
  subst h
  unfold trackingPair tracked
  cases trackingHeader cfg with
  | none => rfl
  | some name => exact ⟨r, rfl⟩

theorem justified_inv (parse : Text → Option Expr) (cfg : PluginConfig) (s : ActionSet)
    (hrep : ∀ old pairs, Replaced old pairs (setAll old pairs)) {V F S : Ctx H → Prop}
    {R : Nat → Nat → Nat → Ctx H → Prop} {Q : Core → Prop} {I : Ctx H → Prop}
    (hJ : Joint o Q I) (hV : ∀ c id, I c → S (c.push (.applied id)) → V (c.push (.applied id)))
    (hF : ∀ c id pred e path x terminal state state' c1, Q (.store id pred e path x terminal state) → I c →
      S (c.push (.applied id)) → storeBody o (c.push (.applied id)) state = .ready state' c1 → F c1) :
    JointAt o S R (fun k => Known o parse cfg s k ∧ Q k) (fun c => Justified o V F parse cfg s c ∧ I c) where
  noop id guard := ⟨(known_closed parse cfg s).noop id guard, hJ.noop id guard⟩
  start k c hall hw hji hS := by
    obtain ⟨hj, hi⟩ := hji
    have hk := hall.here.1
    have hq := hall.here.2
    have hJs := hJ.start k c (Core.All.imp (fun _ h => h.2) hall) hw hi
    refine ⟨⟨?_, hJs.1⟩, fun t ht => core_all_and
      ((core_res o (c.push (.applied k.id)) k).all (known_closed parse cfg s) (Core.All.imp (fun _ h => h.1) hall) t ht)
      (hJs.2 t ht)⟩
    obtain ⟨es, h1, h2, h3⟩ := explained_core (o := o) (c.push (.applied k.id)) k
    have hlog : (k.apply o (c.push (.applied k.id))).2.log = (c.log ++ [.applied k.id]) ++ es := h1
    have hval : c.values = storedIn (c.log ++ [.applied k.id]) := by rw [storedIn_append]; exact hj.values
    have hev : ∀ {W : Ctx H → Prop} {pred e v} {c1 c2 : Ctx H}, c1.log = c.log ++ [.applied k.id] →
        c1.values = c.values → W c1 →
        Gave o c1 k.id pred e v c2 → EvaluatedIn o W (c.log ++ [.applied k.id]) k.id pred e v c2 :=
      fun hl hv hV ⟨d, g1, g2⟩ => ⟨_, d, hl, hv.trans hval, hV, by rw [← testPred_tests]; exact g1, g2⟩
    refine ⟨?_, (apply_tracker _ _).trans hj.tracker, ?_⟩
    · rw [h3, hlog, storedIn_append, ← hval]; rfl
    · rw [hlog]
      refine split_cause (split_quiet hj.cause (es := [.applied k.id]) (by simp [Effect.acts])) ?_
      cases h2 with
      | quiet _ _ h =>
        intro pre e post hx ha
        have := h e (by rw [hx]; simp)
        rw [ha] at this
        simp at this
      | call h hb =>
        have hv := hev (c1 := c.push (.applied _)) rfl rfl (hV _ _ hi hS) h
        cases hk with
        | grpc hat hp hm hs => exact split_one (.call hat hp hm hs hv hb)
        | waits _ h => simp [Core.waits] at h
        | devCall hh ht hs =>
          obtain ⟨d1, d2, hl, _, hk, g1, g2⟩ := hv
          have : evalExpr o d2 devModeId truePred = (.available (.bool true), d2) := rfl
          have g3 := this.symm.trans g2
          cases g3
          have : tests o d1 devModeId truePred = (.available true, d1) := rfl
          have g4 := this.symm.trans g1
          cases g4
          exact split_one (.devCall hh ht hs hl hk hb)
      | headers h ho =>
        have hv := hev (c1 := c.push (.applied _)) rfl rfl (hV _ _ hi hS) h
        cases hk with
        | headers hat hp he => exact split_one (.headers hat hp he hv ho (hrep _ _))
        | waits _ h => simp [Core.waits] at h
        | tracking hn he => exact split_one (.tracking hn he hv ho (hrep _ _))
      | value hl hvv hr h =>
        obtain ⟨_, hr⟩ := hr
        have hv := hev hl hvv (hF _ _ _ _ _ _ _ _ _ _ hq hi hS hr) h
        cases hk with
        | store hat hp he => exact split_one (.value hat hp he hv)
        | waits _ h => simp [Core.waits] at h
      | exported hl hvv hr h hb =>
        obtain ⟨_, hr⟩ := hr
        have hv := hev hl hvv (hF _ _ _ _ _ _ _ _ _ _ hq hi hS hr) h
        cases hk with
        | store hat hp he =>
          exact split_two (fun _ => .attribute hat hp he hv hb) (.exported hat hp he hv hb)
        | waits _ h => simp [Core.waits] at h
      | reply h =>
        have hv := hev (c1 := c.push (.applied _)) rfl rfl (hV _ _ hi hS) h
        cases hk with
        | deny hat hp he =>
          exact split_two (by simp [Effect.acts]) (.deny hat hp he hv (trackingPair_tracked hj.tracker _))
        | waits _ h => simp [Core.waits] at h
  respond k c token st z hall hw hji _ := by
    obtain ⟨hj, hi⟩ := hji
    have hJs := hJ.respond k c token st z (Core.All.imp (fun _ h => h.2) hall) hw hi
    refine ⟨⟨?_, hJs.1⟩, fun t ht => core_all_and
      ((core_res o _ k).all (known_closed parse cfg s) (Core.All.imp (fun _ h => h.1) hall) t ht)
      (hJs.2 t ht)⟩
    obtain ⟨es, h1, h2, h3⟩ := explained_core (o := o)
      { c with grpc := some (st, z), log := c.log ++ [.responded token st z] } k
    have hq : ∀ e ∈ es, e.acts = false := by
      cases h2 with
      | quiet _ _ h => exact h
      | _ => simp [Core.waits] at hw
    refine ⟨?_, (apply_tracker _ _).trans hj.tracker, ?_⟩
    · rw [h3, h1, storedIn_append, noteStored_quiet hq, noteStored_quiet hq]
      show c.values = storedIn (c.log ++ _)
      rw [storedIn_append]; exact hj.values
    · rw [h1]
      exact split_quiet (split_quiet hj.cause (es := [.responded token st z]) (by simp [Effect.acts])) hq
  last c hji := by
    obtain ⟨hj, hi⟩ := hji
    refine ⟨?_, hJ.last c hi⟩
    obtain ⟨hs, acc, h1, h2⟩ := defaultCore_apply (o := o) c
    obtain ⟨es, g1, g2, g3⟩ := explained_core (o := o) c defaultCore
    rw [h1] at g1
    have := List.append_cancel_left g1
    subst this
    refine ⟨by rw [g3, h1, storedIn_append, ← hj.values], (apply_tracker _ _).trans hj.tracker, ?_⟩
    rw [h1]
    refine split_cause hj.cause (split_two (by simp [Effect.acts]) ?_)
    refine .error ?_
    rw [h2]
    have : withTracker [] (tracker o c).1 = tracked c.trackerId (requestId o c).1 := by
      unfold tracker tracked
      cases c.trackerId <;> simp [withTracker]
    rw [this]
    exact trackingPair_tracked hj.tracker _
  aside c c' hji ha hreq hresp := by
    obtain ⟨hj, hi⟩ := hji
    refine ⟨?_, hJ.aside c c' hi ha hreq hresp⟩
    obtain ⟨es, h1, h2⟩ := ha.log
    have hq := plain_quiet h2
    refine ⟨?_, ha.tracker.trans hj.tracker, ?_⟩
    · rw [ha.values, h1, storedIn_append, noteStored_quiet hq]; exact hj.values
    · rw [h1]; exact split_quiet hj.cause hq

theorem justified_enters {V F : Ctx H → Prop} {parse : Text → Option Expr} {cfg : PluginConfig} {s : ActionSet}
    (e : Event H) {c : Ctx H} (h : Justified o V F parse cfg s c) : Justified o V F parse cfg s (e.enters c) := by
  obtain ⟨h1, h2, h3⟩ := h
  cases e <;> exact ⟨h1, h2, h3⟩

/-- The invariant without knowledge of the contexts. -/
theorem trivial_joint (o : Oracle H) : Joint o (fun _ => True) (fun _ : Ctx H => True) where
  noop _ _ := trivial
  start k c h _ _ := ⟨trivial, (core_res o (c.push (.applied k.id)) k).all (P := fun _ => True)
    ⟨fun _ _ _ _ => trivial, fun _ _ _ _ _ _ _ _ _ => trivial, fun _ _ => trivial⟩ h⟩
  respond k _ _ _ _ h _ _ := ⟨trivial, (core_res o _ k).all (P := fun _ => True)
    ⟨fun _ _ _ _ => trivial, fun _ _ _ _ _ _ _ _ _ => trivial, fun _ _ => trivial⟩ h⟩
  last _ _ := trivial
  aside _ _ _ _ _ _ := trivial

end Verif
