import Verif.Lemmas.Reply
import Verif.Lemmas.Schedule
/-! The callback in which a call with reply actions is answered. -/
set_option linter.unusedSimpArgs false
namespace Verif
open Spec

variable {H : Type} {o : Oracle H}

/-- The kids of a call are the compiled reply actions. -/
structure KidsOf (parse : Text → Option Expr) (services : Text → Option SvcInst) (x : Text)
    (replies : List TypedAction) (kids : List Core) : Prop where
  len : kids.length = replies.length
  kid : ∀ (i : Nat) kid, kids[i]? = some kid → ∃ a y, replies[i]? = some a ∧
    Compiled parse services (x ++ '.' :: natText i) a y ∧ Made y kid

theorem KidsOf.id {parse : Text → Option Expr} {services : Text → Option SvcInst} {x : Text}
    {replies : List TypedAction} {kids : List Core} (h : KidsOf parse services x replies kids) {i : Nat} {kid : Core}
    (hi : kids[i]? = some kid) : kid.id = x ++ '.' :: natText i := by
  obtain ⟨a, y, _, h2, h3⟩ := h.kid i kid hi
  rw [h3.id, h2.head_id]

theorem KidsOf.deps {parse : Text → Option Expr} {services : Text → Option SvcInst} {x : Text}
    {replies : List TypedAction} {kids : List Core} (h : KidsOf parse services x replies kids) {kid : Core}
    (hi : kid ∈ kids) : kid.deps = [] := by
  obtain ⟨i, h1, rfl⟩ := List.mem_iff_getElem.1 hi
  obtain ⟨a, y, _, h2, h3⟩ := h.kid i kids[i] (by simp [h1])
  exact h2.deps_nil h3

theorem KidsOf.ids {parse : Text → Option Expr} {services : Text → Option SvcInst} {x : Text}
    {replies : List TypedAction} {kids : List Core} (h : KidsOf parse services x replies kids) :
    kids.map Core.id = replyIds x replies.length := by
  apply List.ext_getElem?
  intro i
  unfold replyIds
  rw [List.getElem?_map, List.getElem?_map]
  have hlen := h.len
  by_cases hi : i < kids.length
  · have := h.id (i := i) (kid := kids[i]) (by simp [hi])
    rw [List.getElem?_eq_getElem hi, List.getElem?_range (by omega)]
    simp [this]
  · rw [List.getElem?_eq_none (by omega), List.getElem?_eq_none (by simp; omega)]
    rfl

/-- The kids of the call `x` satisfy `K`. -/
def KidsAre (x : Text) (K : List Core → Prop) (k : Core) : Prop := k.id = x → k.isCall = true → K k.children

theorem kidsAre_closed (x : Text) (K : List Core → Prop) : Closed (KidsAre x K) where
  again k k' h ha := by
    cases ha with
    | same => exact h
    | store => intro _ h; cases h
    | tokenUsage => intro _ h; cases h
  sent := fun _ _ _ _ _ _ _ _ h => h
  noop := by
    intro id guard _ h
    cases h

theorem fromSet_kidsOf {parse : Text → Option Expr} {cfg : PluginConfig} {s : ActionSet} {b : Blueprint} {c : Ctx H}
    {p : Pipe H} (hb : Built c b p) (hfs : FromSet parse cfg s b) {x : Text} {head : TypedHead}
    {service var message : Text} {replies : List TypedAction}
    (hat : At cfg.services s x (.grpc head service var message replies)) {kind : SvcKind} {svc : Svc} {deny : Bool}
    (hsvc : cfg.services service = some (.call kind svc deny)) :
    Tasks (KidsAre x (KidsOf parse cfg.services x replies)) p [] := by
  refine fromSet_tasks hb hfs hat (fun k hk hid => absurd hid hk) ?_
  intro y deps k hco hm _
  cases hco with
  | grpc _ _ _ _ _ _ pred kind' svc' deny' msg acts hp hs hmm hl hseq hr =>
    rw [hsvc] at hs
    cases hs
    generalize hy : Action.withDeps deps _ = y at hm
    cases hm with
    | call head' _ _ _ _ _ acts' kids hlen hkids =>
      simp only [Action.withDeps, Action.grpc.injEq, SvcInst.call.injEq] at hy
      obtain ⟨rfl, ⟨rfl, rfl, rfl⟩, rfl, rfl, rfl⟩ := hy
      intro _
      show KidsOf parse cfg.services x replies kids
      refine ⟨by omega, ?_⟩
      intro i kid hi
      obtain ⟨hi1, hi2⟩ := List.getElem?_eq_some_iff.1 hi
      have hi3 : i < acts.length := by omega
      have hi4 : i < replies.length := by omega
      refine ⟨replies[i], acts[i], by simp [hi4], hr i _ _ (by simp [hi4]) (by simp [hi3]), ?_⟩
      refine hkids (acts[i], kid) ?_
      rw [List.mem_iff_getElem]
      exact ⟨i, by rw [List.length_zip]; omega, by simp [hi2]⟩
    | _ => simp [Action.withDeps] at hy

/-- The tasks a call puts into the queue have tracing decorators only. -/
theorem requeued_traced (t : PTask) (c : Ctx H) {x : Text} {guard : Bool} {svc : Svc} {var : Text}
    {kids : List Core} (hk : t.strip = .pending x guard svc var kids) (ts : List PTask)
    (h : (t.apply o c).1 = .requeued ts) : ∀ u ∈ ts, Traced u.strip u := by
  induction t generalizing ts with
  | core k =>
    simp only [PTask.strip] at hk
    subst hk
    simp only [PTask.apply, Core.apply] at h
    unfold applyPending processResponse at h
    cases hg : c.grpc with
    | none => rw [hg] at h; cases h
    | some r =>
      obtain ⟨st, z⟩ := r
      rw [hg] at h
      dsimp only at h
      split at h
      · cases h
      · split at h
        · cases h
        · generalize o.response { c with grpc := none } svc z = r at h
          obtain ⟨v, hh⟩ := r
          cases v with
          | none => cases h
          | some v =>
            cases h
            intro u hu
            obtain ⟨k, _, rfl⟩ := List.mem_map.1 hu
            exact .core
  | failureMode t a ih =>
    replace ih := ih hk
    rw [PTask.apply] at h
    generalize t.apply o c = r at h ih
    obtain ⟨out, c'⟩ := r
    cases out with
    | requeued ts' => exact ih ts h
    | failed => cases a <;> cases h
    | _ => cases h
  | tracing t ih =>
    replace ih := ih hk
    rw [PTask.apply] at h
    generalize t.apply o c = r at h ih
    obtain ⟨out, c'⟩ := r
    cases out with
    | requeued ts' =>
      cases h
      intro u hu
      obtain ⟨w, hw, rfl⟩ := List.mem_map.1 hu
      exact .tracing (ih ts' rfl w hw)
    | _ => cases h

/-- Effects that end a callback. -/
def Effect.isTail : Effect → Bool
  | .teardown => true
  | .exported _ => true
  | .resumeRequest => true
  | .resumeResponse => true
  | _ => false

/-- An evaluation records what its tasks do, then the teardown. -/
theorem evalPipe_log (p : Pipe H) : ∃ tail, (p.evalPipe o).ctx.log =
    (Pipe.processTasks o { p with queue := [] } p.queue).1.ctx.log ++ tail ∧ ∀ e ∈ tail, e.isTail = true := by
  have htorn : ∀ q : Pipe H, ∃ tail, (q.executeTeardown o).ctx.log = q.ctx.log ++ tail ∧
      ∀ e ∈ tail, e.isTail = true := by
    intro q
    obtain ⟨es, h1, h2, _⟩ := (tornDown (o := o) q).log
    refine ⟨es, h1, ?_⟩
    intro e he
    have := h2 e he
    cases e <;> simp_all [Effect.isTear, Effect.isTail]
  unfold Pipe.evalPipe
  generalize Pipe.processTasks o { p with queue := [] } p.queue = r
  obtain ⟨q, b⟩ := r
  cases b with
  | true => exact htorn q
  | false =>
    dsimp only
    split
    · exact htorn q
    · exact ⟨[], by simp, by simp⟩

theorem processTasks_append (p : Pipe H) (a b : List PTask) :
    Pipe.processTasks o p (a ++ b) = match Pipe.processTasks o p a with
      | (q, true) => (q, true)
      | (q, false) => Pipe.processTasks o q b := by
  induction a generalizing p with
  | nil => rfl
  | cons t a ih =>
    rw [List.cons_append, Pipe.processTasks, Pipe.processTasks]
    split
    · rw [ih]
    · generalize t.apply o (p.ctx.push (.applied t.id)) = r
      obtain ⟨out, c⟩ := r
      cases out <;> first | rfl | exact ih _

theorem resumed_log (g : Filter H) (again : Bool) : ∃ r, (if again = true then g.resume else g).log = g.log ++ r ∧
    ∀ e ∈ r, e.isTail = true := by
  cases again with
  | false => exact ⟨[], by simp, by simp⟩
  | true =>
    refine ⟨[if g.inResponse then .resumeResponse else .resumeRequest], by simp [Filter.resume, Filter.push], ?_⟩
    intro e he
    simp only [List.mem_singleton] at he
    subst he
    split <;> rfl

/-- The state in which the reply actions of a call are evaluated. -/
structure Answering (o : Oracle H) (acts : Ctx H → Prop) (hears : Nat → Nat → Nat → Ctx H → Prop)
    (parse : Text → Option Expr) (services : Text → Option SvcInst) (x var : Text)
    (svc : Svc) (replies : List TypedAction) (before : List Effect) (token size : Nat) (v : Val) (p : Pipe H)
    (ts rest : List PTask) : Prop where
  log : p.ctx.log = before ++ [.responded token 0 size, .completed x]
  queue : p.queue = []
  value : ∃ c : Ctx H, hears token 0 size c ∧ c.log = before ++ [.responded token 0 size] ∧
    (o.response c svc size).1 = some v
  scope : ∀ j < replies.length, (scopeVars p.ctx.bindings (x ++ '.' :: natText j)).lookup var = some v
  kids : KidsOf parse services x replies (ts.map PTask.strip)
  traced : ∀ t ∈ ts, Traced t.strip t
  acts : ∀ m ∈ Pipe.turns o p (ts ++ rest), acts m.1
  rest : ∀ t ∈ rest, ∀ j < replies.length, t.id ≠ x ++ '.' :: natText j

theorem answer_step {parse : Text → Option Expr} {cfg : PluginConfig} {factory : Factory} {host : H}
    {s : ActionSet} (hs : ServedBy o parse cfg factory host s) {x : Text} {head : TypedHead}
    {service var message : Text} {replies : List TypedAction}
    (hat : At cfg.services s x (.grpc head service var message replies)) {kind : SvcKind} {svc : Svc} {deny : Bool}
    (hsvc : cfg.services service = some (.call kind svc deny)) (hne : replies ≠ [])
    (events : List (Event H)) (host' : H) (token size : Nat)
    (hcall : InFlightFor (Filter.run o factory host events).log token x)
    (hend : ¬Ended (Filter.run o factory host events).log)
    (hgood : ∀ c : Ctx H, Hearing o factory host (events ++ [.grpcResponse host' token 0 size]) token 0 size c →
      c.log = (Filter.run o factory host events).log ++ [.responded token 0 size] →
      (o.response c svc size).1.isSome = true) :
    ∃ p ts rest v tail,
      Answering o (Acting o factory host (events ++ [.grpcResponse host' token 0 size]))
        (Hearing o factory host (events ++ [.grpcResponse host' token 0 size]))
        parse cfg.services x var svc replies (Filter.run o factory host events).log token size v p ts rest ∧
      (Filter.run o factory host (events ++ [.grpcResponse host' token 0 size])).log =
        (Pipe.processTasks o p (ts ++ rest)).1.ctx.log ++ tail ∧ ∀ e ∈ tail, e.isTail = true := by
  by_cases hb : ∃ p, factory.build o { host := host } = .pipeline p
  rotate_left
  · have hp := unrelated_run_idle (o := o) factory host events (fun p hp => hb ⟨p, hp⟩)
    obtain ⟨u, g, svc, b, rid, w, hx, _⟩ := hcall
    have := hp (.dispatch x g token svc b rid) (by rw [hx]; simp)
    simp [Effect.unrelated] at this
  obtain ⟨p0, hb⟩ := hb
  obtain ⟨b, hbuilt, hfs⟩ := servedBy_fromSet hs hb
  have hlog0 : (p0.push .hits).ctx.log = [.hits] := by simp [Pipe.push, Ctx.push, hbuilt.quiet.log]
  have hbs0 : (p0.push .hits).ctx.bindings = [] := hbuilt.quiet.bindings
  have hatj : ∀ j < replies.length, ∃ t, At cfg.services s (x ++ '.' :: natText j) t := fun j hj =>
    ⟨replies[j], .reply hat (by simp [hj])⟩
  have hpos : 0 < replies.length := List.length_pos_iff.2 hne
  obtain ⟨t0, hat0⟩ := hatj 0 hpos
  have hloads : ∀ y, Plainly y → (p0.push .hits).load y [] ≤ 1 := by
    intro y hy
    unfold Pipe.load
    rw [hlog0]
    have := fromSet_load hbuilt hfs hy
    show 0 + poolCount y (p0.tasks []) ≤ 1
    omega
  -- the invariants
  have hA := (held_extra (o := o) (F := fun _ _ _ _ _ => False) (G := fun _ _ => True)
    (((replier_closed x var svc replies.length).and (kidsAre_closed x (KidsOf parse cfg.services x replies))))
    (by simp) (by unfold Answers; intros; trivial)).extra.run factory host p0 hb (by
      refine ⟨⟨?_, ?_⟩, ?_⟩
      · intro tok y hy
        rw [hlog0] at hy
        exact absurd hy (inFlightFor_hits tok y)
      · rw [hlog0]; exact reacts_hits _ _
      · intro t ht
        exact (fromSet_replier hbuilt hfs hat hsvc t ht).and (fromSet_kidsOf hbuilt hfs hat hsvc t ht)) events
  have hB := (bound_extra (o := o) (P := fun k => Replier x var svc replies.length k ∧ ParentOf x 0 k)
    (Q := fun _ _ => True) (((replier_closed _ _ _ _).and (parentOf_closed x 0))) hat.plainly.teardown
    hat0.plainly.teardown (fun k h => h.1.binder h.2) (by simp) (by simp)).extra.run factory host p0 hb (by
      refine ⟨⟨hloads _ hat.plainly, hloads _ hat0.plainly⟩, ?_, ?_, ?_, ?_⟩
      · intro t ht
        exact (fromSet_replier hbuilt hfs hat hsvc t ht).and (fromSet_parentOf hbuilt hfs x 0 t ht)
      · rw [hbs0]
        exact ⟨by simp, by simp⟩
      · intro t ht hid
        rw [List.append_nil] at ht
        exact absurd hid (fromSet_tops hbuilt hfs hat.plainly t ht)
      · rw [hlog0]
        intro pre post h
        have := congrArg (Effect.applied (x ++ '.' :: natText 0) ∈ ·) h
        simp at this) events
  have hC : ∀ j < replies.length, _ := fun j hj =>
    (load_extra (o := o) (x ++ '.' :: natText j) (hatj j hj).choose_spec.plainly.teardown 1).run factory host p0 hb
      (hloads _ (hatj j hj).choose_spec.plainly) events
  rw [run_snoc]
  have hcrash : (Filter.run o factory host events).crashed = false := by
    cases hc : (Filter.run o factory host events).crashed with
    | false => rfl
    | true =>
      have := run_crashed factory host events hc
      exfalso
      rw [this] at hc
      unfold Filter.start at hc
      dsimp only at hc
      rw [hb] at hc
      dsimp only at hc
      revert hc
      unfold Filter.push Filter.store
      split <;> simp
  have hhears : ∀ q, (Filter.run o factory host events).pipeline = some q →
      Hearing o factory host (events ++ [.grpcResponse host' token 0 size]) token 0 size
        (((Filter.run o factory host events).enter host' q).ctx.push (.responded token 0 size)) :=
    fun q hq => ⟨events, host', q, List.prefix_refl _, hcrash, hq, rfl⟩
  have hacts : ∀ m ∈ (Filter.run o factory host events).stepTurns o (.grpcResponse host' token 0 size),
      Acting o factory host (events ++ [.grpcResponse host' token 0 size]) m.1 :=
    fun m hm => ⟨events, some _, m.2, List.prefix_refl _, hm⟩
  generalize Filter.run o factory host events = f at *
  cases hA with
  | finished g hp hq hd hl h =>
    exfalso
    rcases h with ⟨_, h⟩ | ⟨_, h⟩
    · rw [← hl] at hcall
      obtain ⟨t, h1, _⟩ := h.1.1 token x hcall
      rw [hd] at h1
      cases h1
    · rw [hl] at h; exact hend h.2
  | running q hp h =>
    rcases h with ⟨hlive, ⟨⟨hheld, _⟩, htasks⟩⟩ | ⟨_, h⟩
    rotate_left
    · exact absurd h.2 hend
    obtain ⟨t, hget, hid, hisc⟩ := hheld token x hcall
    replace hget : mapGet q.deferred token = some t := hget
    have hmem : (token, t) ∈ q.deferred := mapGet_mem hget
    have hpool : t ∈ (f.at q).tasks [] := by
      unfold Pipe.tasks
      exact List.mem_append_right _ (List.mem_map.2 ⟨_, hmem, rfl⟩)
    obtain ⟨hrep, hkids⟩ := (htasks t hpool).here
    have hw := hlive.deferW _ hmem
    have hids : t.strip.id = x := by rw [strip_id]; exact hid
    obtain ⟨guard, svc', var', kids, hk⟩ : ∃ guard svc' var' kids, t.strip = .pending x guard svc' var' kids := by
      revert hw hisc hids
      generalize t.strip = k
      cases k <;> simp [Core.isCall, Core.waits]
      exact id
    obtain ⟨rfl, rfl, hkid, hkd⟩ := (hrep hids).2 _ _ _ _ _ hk
    have hkidsOf := hkids hids hisc
    rw [hk] at hkidsOf
    replace hkidsOf : KidsOf parse cfg.services x replies kids := hkidsOf
    have hslot : (f.enter host' q).ctx.grpc = none := hlive.slot
    obtain ⟨out, c', ha⟩ : ∃ out c', t.apply o ((f.enter host' q).answering token 0 size).ctx = (out, c') := ⟨_, _, rfl⟩
    have hans := answered_bindings (o := o) t ((f.enter host' q).answering token 0 size).ctx x guard svc' var' kids 0 size hk rfl
    have hlogc : ((f.enter host' q).answering token 0 size).ctx.log = f.log ++ [.responded token 0 size] := rfl
    have hnow : Hearing o factory host (events ++ [.grpcResponse host' token 0 size]) token 0 size
        { ((f.enter host' q).answering token 0 size).ctx with grpc := none } := by
      have h1 := hhears q hp
      have h2 : ({ ((f.enter host' q).answering token 0 size).ctx with grpc := none } : Ctx H) =
          (f.enter host' q).ctx.push (.responded token 0 size) := by
        unfold Ctx.push Pipe.answering
        dsimp only
        rw [hslot]
      rw [h2]
      exact h1
    have hgood' := hgood { ((f.enter host' q).answering token 0 size).ctx with grpc := none } hnow hlogc
    have hreq : ∃ v ts, (o.response { ((f.enter host' q).answering token 0 size).ctx with grpc := none } svc' size).1 = some v ∧
        c'.bindings = q.ctx.bindings ++ [(x, (var', v))] ∧ out = .requeued ts ∧ ts.map PTask.strip = kids ∧
        c'.log = f.log ++ [.responded token 0 size] := by
      rcases hans with ⟨_, h2⟩ | ⟨_, h2, v, ts, h3, h4, h5, h6⟩
      · exfalso
        obtain ⟨v, hv⟩ := Option.isSome_iff_exists.1 hgood'
        have := answered_requeues (o := o) t ((f.enter host' q).answering token 0 size).ctx hk rfl
          (by rintro rfl; have := hkidsOf.len; simp at this; omega) hv
        obtain ⟨ts, hts⟩ := this
        exact h2 ts hts
      · rw [ha] at h2 h4 h5
        exact ⟨v, ts, h3, h4, h5, h6, by rw [← hlogc]; exact h2⟩
    obtain ⟨v, ts, hv, hbind, rfl, hts, hlog⟩ := hreq
    have htraced := requeued_traced (o := o) t _ hk ts (by rw [ha])
    have hdig := digestPipe_known o (f.enter host' q) token 0 size t _ c' hslot hget ha
    dsimp only at hdig
    -- the loads
    have hload1 : q.ctx.bindings.countP (fun b => decide (b.1 = x)) = 0 ∧
        ∀ y, q.ctx.bindings.countP (fun b => decide (b.1 = y)) ≤ f.log.countP (settles y) := by
      cases hB with
      | finished _ hp' => rw [hp] at hp'; cases hp'
      | running q' hp' h =>
        rw [hp] at hp'; cases hp'
        rcases h with ⟨_, hload, _, hbd, _⟩ | ⟨hdead, _⟩
        · have hfew : ∀ y, q.ctx.bindings.countP (fun b => decide (b.1 = y)) ≤ f.log.countP (settles y) := hbd.few
          refine ⟨?_, hfew⟩
          have h1 := hload.1
          unfold Pipe.load at h1
          have h2 := poolCount_mem (x := x) hpool
          rw [Core.count_eq, if_pos hids] at h2
          have h3 := hfew x
          replace h1 : f.log.countP (settles x) + poolCount x ((f.at q).tasks []) ≤ 1 := h1
          omega
        · exact absurd hdead.toGone.ended hend
    have hload2 : ∀ j < replies.length, (f.log.countP (settles (x ++ '.' :: natText j)) = 0) ∧
        ∀ u ∈ q.queue, u.id ≠ x ++ '.' :: natText j := by
      intro j hj
      cases hC j hj with
      | finished _ hp' => rw [hp] at hp'; cases hp'
      | running q' hp' h =>
        rw [hp] at hp'; cases hp'
        rcases h with ⟨_, hload⟩ | ⟨hdead, _⟩
        · unfold Pipe.load at hload
          rw [pool_tasks] at hload
          have h2 : t.strip.count (x ++ '.' :: natText j) ≤ poolCount (x ++ '.' :: natText j) (q.deferred.map Prod.snd) :=
            poolCount_mem (List.mem_map.2 ⟨_, hmem, rfl⟩)
          have hj' : j < kids.length := by rw [hkidsOf.len]; exact hj
          have h3 : 1 ≤ t.strip.count (x ++ '.' :: natText j) := by
            rw [hk, Core.count_eq]
            have h4 := countList_mem (x := x ++ '.' :: natText j) (k := kids[j]) (l := kids) (by simp)
            rw [Core.count_eq, if_pos (hkidsOf.id (i := j) (by simp [hj']))] at h4
            show 1 ≤ _ + countList _ kids
            omega
          replace hload : f.log.countP (settles (x ++ '.' :: natText j)) + (poolCount (x ++ '.' :: natText j) q.queue +
            poolCount (x ++ '.' :: natText j) [] + poolCount (x ++ '.' :: natText j) (q.deferred.map Prod.snd)) ≤ 1 := hload
          refine ⟨by omega, ?_⟩
          intro u hu huid
          have h5 := poolCount_mem (x := x ++ '.' :: natText j) hu
          rw [Core.count_eq, strip_id, if_pos huid] at h5
          omega
        · exact absurd hdead.toGone.ended hend
    refine ⟨{ (Pipe.complete { (f.enter host' q).answering token 0 size with ctx := c' } t.id) with queue := [] },
      ts, q.queue, v, ?_⟩
    obtain ⟨tail, htail, htl⟩ := evalPipe_log (o := o)
      (Pipe.replied { (f.enter host' q).answering token 0 size with ctx := c' } t.id (.requeued ts))
    have hstep : ∃ r, (f.step o (.grpcResponse host' token 0 size)).log =
        ((f.enter host' q).digestPipe o token 0 size).ctx.log ++ r ∧ ∀ e ∈ r, e.isTail = true := by
      unfold Filter.step
      rw [hcrash]
      simp only [Bool.false_eq_true, if_false, Filter.onGrpcResponse, hp]
      have hst := store_log f ((f.enter host' q).digestPipe o token 0 size)
      rw [← hst]
      exact resumed_log _ _
    obtain ⟨r, hr, hrt⟩ := hstep
    refine ⟨tail ++ r, ?_, ?_, ?_⟩
    · refine ⟨?_, rfl, ⟨{ ((f.enter host' q).answering token 0 size).ctx with grpc := none }, hnow, hlogc, hv⟩, ?_, by rw [hts]; exact hkidsOf, htraced, ?_, ?_⟩
      · show c'.log ++ [Effect.completed t.id] = _
        rw [hlog, hid]
        simp
      · intro j hj
        show (scopeVars c'.bindings (x ++ '.' :: natText j)).lookup var' = some v
        rw [hbind]
        refine bound_lookup ?_ (by simp) ?_
        · rw [List.countP_append, hload1.1]
          simp
        · intro b hbm hbx
          rcases List.mem_append.1 hbm with hbm | hbm
          · have h1 := hload1.2 (x ++ '.' :: natText j)
            rw [(hload2 j hj).1] at h1
            have h3 : 0 < q.ctx.bindings.countP (fun b => decide (b.1 = x ++ '.' :: natText j)) :=
              List.countP_pos_iff.2 ⟨b, hbm, by simpa using hbx⟩
            omega
          · simp only [List.mem_singleton] at hbm
            subst hbm
            have := congrArg List.length hbx
            simp at this
      · intro m hm
        refine hacts m ?_
        unfold Filter.stepTurns
        rw [hcrash]
        simp only [Bool.false_eq_true, if_false, hp]
        rw [digestTurns_known (f.enter host' q) token 0 size t _ c' hslot hget ha]
        exact hm
      · intro u hu j hj
        exact (hload2 j hj).2 u hu
    · rw [hr, hdig, htail, List.append_assoc]
      rfl
    · intro e he
      rcases List.mem_append.1 he with he | he
      · exact htl e he
      · exact hrt e he

theorem started_append (a b : List Effect) : started (a ++ b) = started a ++ started b := by
  simp [started, List.filterMap_append]

theorem started_nil_of {es : List Effect} (h : ∀ x, Effect.applied x ∉ es) : started es = [] := by
  unfold started
  rw [List.filterMap_eq_nil_iff]
  intro e he
  cases e with
  | applied x => exact absurd he (h x)
  | _ => rfl

/-- Processing tasks without open dependencies starts them in order, up to an early end. -/
theorem front_order (p : Pipe H) (ts : List PTask) (hd : ∀ t ∈ ts, t.deps = []) :
    ∃ seg, (Pipe.processTasks o p ts).1.ctx.log = p.ctx.log ++ seg ∧
      (((Pipe.processTasks o p ts).2 = false ∧ started seg = ts.map PTask.id ∧ .ended ∉ seg) ∨
       ((Pipe.processTasks o p ts).2 = true ∧ ∃ n ≤ ts.length, started seg = (ts.map PTask.id).take n ∧
          ∃ seg', seg = seg' ++ [.ended] ∧ .ended ∉ seg')) := by
  induction ts generalizing p with
  | nil => exact ⟨[], by simp [Pipe.processTasks], .inl ⟨rfl, rfl, by simp⟩⟩
  | cons t ts ih =>
    have hdt : t.deps = [] := hd t (by simp)
    replace ih := fun q => ih q (fun u hu => hd u (by simp [hu]))
    rw [Pipe.processTasks]
    simp only [hdt, List.any_nil, Bool.false_eq_true, if_false]
    obtain ⟨es, hlog, hdo⟩ := apply_does o (p.ctx.push (.applied t.id)) t
    have hna := fun x => does_no_applied hdo x
    have hne : Effect.ended ∉ es := by
      intro hm
      rcases does_effects hdo with h | ⟨_, _, _, _, _, _, rfl, _⟩
      · simpa [Effect.isLocal] using h _ hm
      · simp at hm
    replace hlog : (t.apply o (p.ctx.push (.applied t.id))).2.log = p.ctx.log ++ ([.applied t.id] ++ es) := by
      rw [hlog]; simp [Ctx.push]
    have hst : started ([.applied t.id] ++ es) = [t.id] := by
      rw [started_append, started_nil_of hna]; rfl
    generalize t.apply o (p.ctx.push (.applied t.id)) = r at hlog hdo ⊢
    obtain ⟨out, c⟩ := r
    replace hlog : c.log = p.ctx.log ++ ([.applied t.id] ++ es) := hlog
    have next : ∀ (q : Pipe H) (m : List Effect), q.ctx.log = c.log ++ m → (∀ x, Effect.applied x ∉ m) →
        .ended ∉ m → ∃ seg, (Pipe.processTasks o q ts).1.ctx.log = p.ctx.log ++ seg ∧
      (((Pipe.processTasks o q ts).2 = false ∧ started seg = (t :: ts).map PTask.id ∧ .ended ∉ seg) ∨
       ((Pipe.processTasks o q ts).2 = true ∧ ∃ n ≤ (t :: ts).length, started seg = ((t :: ts).map PTask.id).take n ∧
          ∃ seg', seg = seg' ++ [.ended] ∧ .ended ∉ seg')) := by
      intro q m hq hm1 hm2
      obtain ⟨seg, h1, h2⟩ := ih q
      refine ⟨[.applied t.id] ++ es ++ m ++ seg, by rw [h1, hq, hlog]; simp, ?_⟩
      have h0 : started ([.applied t.id] ++ es ++ m ++ seg) = t.id :: started seg := by
        rw [started_append, started_append, hst, started_nil_of hm1]; rfl
      rcases h2 with ⟨h2, h3, h4⟩ | ⟨h2, n, hn, h3, seg', h4, h5⟩
      · refine .inl ⟨h2, by rw [h0, h3]; rfl, ?_⟩
        simp only [List.mem_append, List.mem_singleton, reduceCtorEq, false_or, not_or]
        exact ⟨⟨hne, hm2⟩, h4⟩
      · refine .inr ⟨h2, n + 1, by simp; omega, by rw [h0, h3]; rfl, [.applied t.id] ++ es ++ m ++ seg', by rw [h4]; simp, ?_⟩
        simp only [List.mem_append, List.mem_singleton, reduceCtorEq, false_or, not_or]
        exact ⟨⟨hne, hm2⟩, h5⟩
    cases out with
    | done => exact next (Pipe.complete { p with ctx := c } t.id) [.completed t.id] rfl (by simp) (by simp)
    | deferred tok u => exact next _ [] (List.append_nil c.log).symm (by simp) (by simp)
    | requeued new => exact next _ [] (List.append_nil c.log).symm (by simp) (by simp)
    | failed => exact next (Pipe.push { p with ctx := c } (.failed t.id)) [.failed t.id] rfl (by simp) (by simp)
    | terminate u =>
      have hmarks : ∃ ms, (u.apply o c).2.log = c.log ++ ms ∧ (∀ x, .applied x ∉ ms) ∧ Effect.ended ∉ ms := by
        rcases does_terminate hdo u rfl with ⟨h1, _⟩ | ⟨h1, _⟩
        · rw [traced_log h1]
          exact ⟨[], (List.append_nil c.log).symm, by simp, by simp⟩
        · rw [traced_log h1]
          obtain ⟨hs, acc, h2, _⟩ := defaultCore_apply (o := o) c
          exact ⟨_, h2, by simp, by simp⟩
      obtain ⟨ms, h1, h2, h3⟩ := hmarks
      refine ⟨[.applied t.id] ++ es ++ ms ++ [.ended], ?_, .inr ⟨rfl, 1, by simp, ?_, _, rfl, ?_⟩⟩
      · show (u.apply o c).2.log ++ [Effect.ended] = _
        rw [h1, hlog]
        simp
      · rw [started_append, started_append, hst, started_nil_of h2]; rfl
      · simp only [List.mem_append, List.mem_singleton, reduceCtorEq, false_or, not_or]
        exact ⟨hne, h3⟩

/-- Processing tasks starts only these tasks. -/
theorem processTasks_started (p : Pipe H) (ts : List PTask) :
    ∃ seg, (Pipe.processTasks o p ts).1.ctx.log = p.ctx.log ++ seg ∧ ∀ y ∈ started seg, ∃ t ∈ ts, t.id = y := by
  induction ts generalizing p with
  | nil => exact ⟨[], by simp [Pipe.processTasks], by simp [started]⟩
  | cons t ts ih =>
    rw [Pipe.processTasks]
    split
    · obtain ⟨seg, h1, h2⟩ := ih { p with queue := p.queue ++ [t] }
      refine ⟨seg, h1, fun y hy => ?_⟩
      obtain ⟨u, hu, h3⟩ := h2 y hy
      exact ⟨u, by simp [hu], h3⟩
    · obtain ⟨es, hlog, hdo⟩ := apply_does o (p.ctx.push (.applied t.id)) t
      have hna := fun x => does_no_applied hdo x
      replace hlog : (t.apply o (p.ctx.push (.applied t.id))).2.log = p.ctx.log ++ ([.applied t.id] ++ es) := by
        rw [hlog]; simp [Ctx.push]
      have hst : started ([.applied t.id] ++ es) = [t.id] := by
        rw [started_append, started_nil_of hna]; rfl
      generalize t.apply o (p.ctx.push (.applied t.id)) = r at hlog hdo ⊢
      obtain ⟨out, c⟩ := r
      replace hlog : c.log = p.ctx.log ++ ([.applied t.id] ++ es) := hlog
      have next : ∀ (q : Pipe H) (m : List Effect), q.ctx.log = c.log ++ m → (∀ x, Effect.applied x ∉ m) →
          ∃ seg, (Pipe.processTasks o q ts).1.ctx.log = p.ctx.log ++ seg ∧ ∀ y ∈ started seg, ∃ u ∈ t :: ts, u.id = y := by
        intro q m hq hm1
        obtain ⟨seg, h1, h2⟩ := ih q
        refine ⟨[.applied t.id] ++ es ++ m ++ seg, by rw [h1, hq, hlog]; simp, ?_⟩
        rw [started_append, started_append, hst, started_nil_of hm1]
        intro y hy
        simp only [List.append_nil, List.singleton_append, List.mem_cons] at hy
        rcases hy with rfl | hy
        · exact ⟨t, by simp, rfl⟩
        · obtain ⟨u, hu, h3⟩ := h2 y hy
          exact ⟨u, by simp [hu], h3⟩
      cases out with
      | done => exact next (Pipe.complete { p with ctx := c } t.id) [.completed t.id] rfl (by simp)
      | deferred tok u => exact next _ [] (List.append_nil c.log).symm (by simp)
      | requeued new => exact next _ [] (List.append_nil c.log).symm (by simp)
      | failed => exact next (Pipe.push { p with ctx := c } (.failed t.id)) [.failed t.id] rfl (by simp)
      | terminate u =>
        obtain ⟨ms, h1, _⟩ : ∃ ms, (u.apply o c).2.log ++ [.ended] = c.log ++ ms ∧ True := by
          obtain ⟨ms, h, _⟩ := ended_marks (o := o) c hdo []
          exact ⟨ms, h, trivial⟩
        have h2 : ∀ x, Effect.applied x ∉ ms := by
          intro x
          obtain ⟨ms', h, h'⟩ := ended_marks (o := o) c hdo x
          rw [h1] at h
          rw [List.append_cancel_left h]
          exact h'
        refine ⟨[.applied t.id] ++ es ++ ms, ?_, ?_⟩
        · show (u.apply o c).2.log ++ [Effect.ended] = _
          rw [h1, hlog]
          simp
        · rw [started_append, hst, started_nil_of h2]
          intro y hy
          exact ⟨t, by simp, (by simpa using hy : y = t.id).symm⟩

/-- The predicate of a task that tests it first. -/
def Core.condition : Core → Option Expr
  | .grpc _ _ _ pred .. => some pred
  | .sendReply _ pred .. => some pred
  | .headers _ pred .. => some pred
  | .fail _ pred _ => some pred
  | _ => none

/-- The task of action `x` has this predicate. -/
def Conditional (x : Text) (pred : Expr) (k : Core) : Prop :=
  k.id = x → k.waits = false → k.condition = some pred

theorem conditional_closed (x : Text) (pred : Expr) : Closed (Conditional x pred) where
  again k k' h ha := by
    cases ha with
    | same => exact h
    | store => intro hid _; have := h hid rfl; simp [Core.condition] at this
    | tokenUsage => intro hid _; have := h hid rfl; simp [Core.condition] at this
  sent := by intro _ _ _ _ _ _ _ _ _ _ h; simp [Core.waits] at h
  noop := by intro _ _ _ h; simp [Core.waits] at h

theorem conditional_false {k : Core} {pred : Expr} (hk : k.condition = some pred) (c : Ctx H)
    (h : (testPred o c k.id pred).1 = .available false) :
    (k.apply o c).1 = .done ∧ (k.apply o c).2.log = c.log := by
  have hq := (testPred_quiet o c k.id pred).log
  generalize hr : testPred o c k.id pred = r at h hq
  obtain ⟨a, c'⟩ := r
  replace h : a = .available false := h
  subst h
  cases k with
  | grpc id deps guard pred' msg var svc kids =>
    simp only [Core.condition, Option.some.injEq] at hk
    subst hk
    replace hr : testPred o c id pred' = (.available false, c') := hr
    have : Core.apply o c (.grpc id deps guard pred' msg var svc kids) = (.done, c') := by
      show applyGrpc o c id deps guard pred' msg var svc kids = _
      unfold applyGrpc; rw [hr]
    rw [this]; exact ⟨rfl, hq⟩
  | sendReply id pred' e terminal =>
    simp only [Core.condition, Option.some.injEq] at hk
    subst hk
    replace hr : testPred o c id pred' = (.available false, c') := hr
    have : Core.apply o c (.sendReply id pred' e terminal) = (.done, c') := by
      show applySendReply o c id pred' e terminal = _
      unfold applySendReply; rw [hr]
    rw [this]; exact ⟨rfl, hq⟩
  | headers id pred' e target terminal =>
    simp only [Core.condition, Option.some.injEq] at hk
    subst hk
    replace hr : testPred o c id pred' = (.available false, c') := hr
    have : Core.apply o c (.headers id pred' e target terminal) = (.done, c') := by
      show applyHeaders o c id pred' e target terminal = _
      unfold applyHeaders; rw [hr]
    rw [this]; exact ⟨rfl, hq⟩
  | fail id pred' terminal =>
    simp only [Core.condition, Option.some.injEq] at hk
    subst hk
    replace hr : testPred o c id pred' = (.available false, c') := hr
    have : Core.apply o c (.fail id pred' terminal) = (.done, c') := by
      show applyFail o c id pred' terminal = _
      unfold applyFail; rw [hr]
    rw [this]; exact ⟨rfl, hq⟩
  | _ => simp [Core.condition] at hk

end Verif
