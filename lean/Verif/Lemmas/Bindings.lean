import Verif.Lemmas.DueTasks
import Verif.Lemmas.Reply
/-! Response variables are bound by the calls that were answered well. -/
set_option linter.unusedSimpArgs false
namespace Verif
open Spec

variable {H : Type} {o : Oracle H}

attribute [local irreducible] Core.count countList

/-- What is bound by action `b`. -/
structure Voiced (o : Oracle H) (R : Nat → Nat → Nat → Ctx H → Prop) (b x var : Text) (svc : Svc) (n : Nat) (p : Pipe H)
    (todo : List PTask) : Prop where
  tied : Tied b x p todo
  replier : Tasks (Replier b var svc n) p todo
  told : Fresh p.ctx.log → WellAnswered p.ctx.log b → ∃ v, (b, (var, v)) ∈ p.ctx.bindings
  bound : Fresh p.ctx.log → ∀ m w, (b, (m, w)) ∈ p.ctx.bindings →
    m = var ∧ WellAnswered p.ctx.log b ∧ Heard o R b svc w p.ctx.log
  once : Fresh p.ctx.log → ∀ m w m' w', (b, (m, w)) ∈ p.ctx.bindings → (b, (m', w')) ∈ p.ctx.bindings → w = w'

theorem settles_mem {x : Text} {log : List Effect} (h : Effect.completed x ∈ log) : 1 ≤ log.countP (settles x) :=
  settles_pos.2 (.inl h)

theorem closing_completed {t : PTask} {out : Outcome} {b : Text} (h : Effect.completed b ∈ closing t out) :
    t.id = b ∧ (out = .done ∨ t.strip.waits = true ∧ ∃ ts, out = .requeued ts) := by
  cases out with
  | done => simp only [closing, List.mem_singleton, Effect.completed.injEq] at h; exact ⟨h.symm, .inl rfl⟩
  | requeued ts =>
    simp only [closing] at h
    split at h
    · rename_i hw
      simp only [List.mem_singleton, Effect.completed.injEq] at h
      exact ⟨h.symm, .inr ⟨hw, _, rfl⟩⟩
    · simp at h
  | _ => simp [closing] at h

theorem closing_callFailed {t : PTask} {out : Outcome} {b : Text} : Effect.callFailed b ∉ closing t out := by
  cases out with
  | requeued ts => simp only [closing]; split <;> simp
  | _ => simp [closing]

theorem stepped_callFailed {t : PTask} {out : Outcome} {es : List Effect} (h : Stepped t out es)
    (hs : out.stops = false) {b : Text} (hb : Effect.callFailed b ∈ es) : t.id = b := by
  cases h with
  | over _ _ _ _ hc => exact (hc _ hb).symm
  | stop => simp [Outcome.stops] at hs
  | _ => simp at hb

theorem stepped_completed {t : PTask} {out : Outcome} {es : List Effect} (h : Stepped t out es)
    (hs : out.stops = false) {b : Text} : Effect.completed b ∉ es := by
  cases h with
  | over _ _ _ hl => exact fun hm => Bool.noConfusion (hl _ hm)
  | stop => simp [Outcome.stops] at hs
  | _ => simp

theorem load_zero {p : Pipe H} {todo : List PTask} {b : Text} {t : PTask} (h : p.load b todo ≤ 1)
    (ht : t ∈ p.tasks todo) (hid : t.id = b) : Effect.completed b ∉ p.ctx.log := by
  intro hm
  have h1 := settles_mem hm
  have h2 := poolCount_mem (x := b) ht
  rw [Core.count_eq, strip_id, if_pos hid] at h2
  unfold Pipe.load at h
  omega

theorem voiced_extra {S : Ctx H → Prop} {R : Nat → Nat → Nat → Ctx H → Prop} {b x var : Text} {svc : Svc} {n : Nat} (hb : ∀ n, Pipe.teardownId n ≠ b)
    (hx : ∀ n, Pipe.teardownId n ≠ x) :
    ExtraAt o S R (Voiced (H := H) o R b x var svc n) (fun _ => True) (fun _ => True) := by
  have T := tied_extra (o := o) hb hx
  have K := lasting_extra (o := o) (replier_closed b var svc n).lasting
  have keep : ∀ {p q : Pipe H} {todo todo' : List PTask}, Voiced o R b x var svc n p todo → Tied b x q todo' →
      Tasks (Replier b var svc n) q todo' → q.ctx.bindings = p.ctx.bindings →
      (∃ es, q.ctx.log = p.ctx.log ++ es) → (WellAnswered q.ctx.log b ↔ WellAnswered p.ctx.log b) →
      Voiced o R b x var svc n q todo' := by
    intro p q todo todo' h ht hr hbs hlog hw
    obtain ⟨es, hlog⟩ := hlog
    have hfr : Fresh q.ctx.log → Fresh p.ctx.log := fun hf => by rw [hlog] at hf; exact hf.prefix
    refine ⟨ht, hr, ?_, ?_, ?_⟩
    · intro hf hwa
      rw [hbs]
      exact h.told (hfr hf) (hw.1 hwa)
    · intro hf m w hm
      rw [hbs] at hm
      obtain ⟨h1, h2, h3⟩ := h.bound (hfr hf) m w hm
      refine ⟨h1, hw.2 h2, ?_⟩
      rw [hlog]
      exact h3.append es
    · intro hf m w m' w' h1 h2
      rw [hbs] at h1 h2
      exact h.once (hfr hf) m w m' w' h1 h2
  have aside : ∀ {a es : List Effect}, (∀ e ∈ es, e.still = true) → (WellAnswered (a ++ es) b ↔ WellAnswered a b) :=
    fun h => well_aside h
  exact {
    opens := fun p hl h => keep h (T.opens p hl h.tied) (K.opens p hl h.replier) rfl ⟨[], by simp⟩ Iff.rfl
    skip := fun p t ts hl h hd => keep h (T.skip p t ts hl h.tied hd) (K.skip p t ts hl h.replier hd) rfl ⟨[], by simp⟩ Iff.rfl
    go := by
      intro p t ts out c es _ hl h hd ha hs hlog hdo
      have hst := stepped hdo
      have hw : t.strip.waits = false := hl.queueW t (by simp)
      have hall := after_log hl hs hlog
      have hbs : c.bindings = p.ctx.bindings := by
        have := started_bindings (o := o) t (p.ctx.push (.applied t.id)) hw
        rw [ha] at this
        exact this
      refine keep h (T.go p t ts out c es hl h.tied hd ha hs hlog hdo) (K.go p t ts out c es hl h.replier hd ha hs hlog hdo)
        ?_ ⟨_, by rw [hall, List.append_assoc, List.append_assoc]⟩ ?_
      · rw [← hbs]; cases out <;> rfl
      · rw [hall]
        have hmem : t ∈ p.tasks (t :: ts) := by simp [Pipe.tasks]
        constructor
        · intro hwa
          obtain ⟨h1, h2, h3, h4⟩ := well_append.1 hwa
          have hcl : Effect.callFailed b ∉ p.ctx.log := by
            intro hm
            exact h3 (by simp [hm])
          by_cases hid : t.id = b
          · exfalso
            have hnc := load_zero h.tied.loadB hmem hid
            rcases h2 with h2 | h2
            · rcases List.mem_append.1 h2 with h2 | h2
              · exact hnc (by simpa using h2)
              · exact stepped_completed hst hs h2
            · rcases (closing_completed h2).2 with rfl | ⟨hw', _⟩
              · have hsent := h1.resolve_right sent_closing
                rcases sent_append.1 hsent with h5 | h5
                · rw [sent_still (by simp [Effect.still])] at h5
                  have := (h.tied.over h5 t hmem).here (by rw [strip_id]; exact hid)
                  rw [hw] at this
                  cases this
                · obtain ⟨_, tok, t', heq⟩ := stepped_sent hst hs h5
                  cases heq
              · rw [hw] at hw'; cases hw'
          · have hsent := h1.resolve_right sent_closing
            have h5 : SentIn p.ctx.log b := by
              rcases sent_append.1 hsent with h5 | h5
              · rwa [sent_still (by simp [Effect.still])] at h5
              · exact absurd (stepped_sent hst hs h5).1 hid
            refine ⟨h5, ?_, hcl⟩
            rcases h2 with h2 | h2
            · rcases List.mem_append.1 h2 with h2 | h2
              · simpa using h2
              · exact absurd h2 (stepped_completed hst hs)
            · exact absurd (closing_completed h2).1 hid
        · intro hwa
          refine well_append.2 ⟨.inl (sent_append.2 (.inl (sent_append.2 (.inl hwa.1)))), .inl (by simp [hwa.2.1]), ?_,
            closing_callFailed⟩
          intro hm
          rcases List.mem_append.1 hm with hm | hm
          · exact hwa.2.2 (by simpa using hm)
          · exact load_zero h.tied.loadB hmem (stepped_callFailed hst hs hm) hwa.2.1
    stop := fun _ _ _ _ _ _ _ _ _ _ _ _ _ => trivial
    tear := by
      intro p hl h hq hd
      obtain ⟨es, h1, h2, _⟩ := (tornDown (o := o) p).log
      have hst : ∀ e ∈ es, e.still = true := fun e he => still_tear (h2 e he)
      exact keep h (T.tear p hl h.tied hq hd) (K.tear p hl h.replier hq hd) (tornDown (o := o) p).bindings ⟨es, h1⟩
        (by rw [h1]; exact aside hst)
    bury := fun _ _ _ => trivial
    late := fun p token s z hl h hg => keep h (T.late p token s z hl h.tied hg) (K.late p token s z hl h.replier hg) rfl
      ⟨[.responded token s z], rfl⟩ (aside (es := [.responded token s z]) (by simp [Effect.still]))
    answer := by
      intro p token s z t out c es hR hl h hg ha hs hlog hdo
      have hst := stepped hdo
      have hw : t.strip.waits = true := hl.deferW _ (mapGet_mem hg)
      have hall := replied_log hw hs hlog
      have ht' := T.answer p token s z t out c es hl h.tied hg ha hs hlog hdo
      have hr' := K.answer p token s z t out c es hl h.replier hg ha hs hlog hdo
      have hmem : t ∈ p.tasks [] := by
        simp only [Pipe.tasks, List.mem_append, List.mem_map]
        exact .inr ⟨(token, t), mapGet_mem hg, rfl⟩
      have hns : ∀ y, ¬SentIn es y := by
        intro y hsn
        obtain ⟨_, tok, t', rfl⟩ := stepped_sent hst hs hsn
        cases hst with
        | sent _ _ _ _ _ _ hw' => rw [hw] at hw'; cases hw'
        | over _ _ ho => rcases ho with ho | ho <;> cases ho
      have hctx : (Pipe.replied { p.answering token s z with ctx := c } t.id out).ctx.bindings = c.bindings := by
        cases out <;> rfl
      -- the task is a call waiting for its response, or a report
      have hkind : (∃ id g svc' var' kids, t.strip = .pending id g svc' var' kids) ∨ ∃ id g, t.strip = .noop id g := by
        generalize t.strip = k at hw
        cases k <;> simp [Core.waits] at hw
        · exact .inl ⟨_, _, _, _, _, rfl⟩
        · exact .inr ⟨_, _, rfl⟩
      have hbs : (c.bindings = p.ctx.bindings ∧ ∀ ts, out ≠ .requeued ts) ∨
          ∃ g svc' var' kids v ts, t.strip = .pending t.id g svc' var' kids ∧ s = 0 ∧ c.log = (p.answering token s z).ctx.log ∧
            (o.response { (p.answering token s z).ctx with grpc := none } svc' z).1 = some v ∧
            c.bindings = p.ctx.bindings ++ [(t.id, (var', v))] ∧ out = .requeued ts := by
        rcases hkind with ⟨id, g, svc', var', kids, hk⟩ | ⟨id, g, hk⟩
        · have hid : id = t.id := by rw [← strip_id, hk]; rfl
          subst hid
          have hab := answered_bindings (o := o) t (p.answering token s z).ctx t.id g svc' var' kids s z hk rfl
          rw [ha] at hab
          rcases hab with h1 | ⟨h1, h2, v, ts, h3, h4, h5, h6⟩
          · exact .inl h1
          · exact .inr ⟨g, svc', var', kids, v, ts, hk, h1, h2, h3, h4, h5⟩
        · have := noop_bindings (o := o) t (p.answering token s z).ctx id g hk
          rw [ha] at this
          exact .inl this
      by_cases hid : t.id = b
      · have hnc := load_zero h.tied.loadB hmem hid
        have hold : Fresh p.ctx.log → ∀ m w, (b, (m, w)) ∉ p.ctx.bindings := fun hf m w hm =>
          hnc (h.bound hf m w hm).2.1.2.1
        have hfr : Fresh (Pipe.replied { p.answering token s z with ctx := c } t.id out).ctx.log → Fresh p.ctx.log := by
          intro hf; rw [hall] at hf; exact hf.prefix.prefix.prefix
        rcases hbs with ⟨h1, h2⟩ | ⟨g, svc', var', kids, v, ts, hk, hz, hlog', hres, hbs', rfl⟩
        · -- nothing bound
          have hno : ¬WellAnswered (Pipe.replied { p.answering token s z with ctx := c } t.id out).ctx.log b := by
            rw [hall]
            intro hwa
            cases hst with
            | again => exact h2 _ rfl
            | replies => exact h2 _ rfl
            | sent _ _ _ _ _ _ hw' => rw [hw] at hw'; cases hw'
            | stop => simp [Outcome.stops] at hs
            | over _ _ ho hl' hc hr =>
              have hne : t.strip.children ≠ [] := by
                obtain ⟨_, c', hc', _⟩ := (h.tied.links t hmem).here.1 (by rw [strip_id]; exact hid)
                intro h0
                rw [h0] at hc'
                cases hc'
              refine hwa.2.2 ?_
              have := hr hw hne
              rw [hid] at this
              simp [this]
          refine ⟨ht', hr', fun _ hwa => absurd hwa hno, ?_, ?_⟩
          · intro hf m w hm
            rw [hctx, h1] at hm
            exact absurd hm (hold (hfr hf) m w)
          · intro hf m w m' w' hm _
            rw [hctx, h1] at hm
            exact absurd hm (hold (hfr hf) m w)
        · subst hz
          have hrep := ((h.replier t hmem).here (by rw [strip_id]; exact hid)).2 _ _ _ _ _ hk
          obtain ⟨rfl, rfl, _, _⟩ := hrep
          have hes : es = [] := by
            replace hlog' : c.log = p.ctx.log ++ [.responded token 0 z] := hlog'
            rw [hlog'] at hlog
            have h5 : p.ctx.log ++ [.responded token 0 z] ++ [] = p.ctx.log ++ [.responded token 0 z] ++ es := by
              rw [List.append_nil]; exact hlog
            exact (List.append_cancel_left h5).symm
          subst hes
          have hnew : (Pipe.replied { p.answering token 0 z with ctx := c } t.id (.requeued ts)).ctx.log =
              p.ctx.log ++ .responded token 0 z :: .completed b :: [] := by
            rw [hall]
            simp [closing, hw, hid]
          have hwell : Fresh p.ctx.log → WellAnswered
              (Pipe.replied { p.answering token 0 z with ctx := c } t.id (.requeued ts)).ctx.log b := by
            intro hf
            rw [hnew]
            obtain ⟨g', tok', svc2, by', rid, hm⟩ := h.tied.sent _ (mapGet_mem hg) hid
            refine ⟨⟨g', tok', svc2, by', rid, List.mem_append_left _ hm⟩, by simp, ?_⟩
            intro hcf
            have hcf' : Effect.callFailed b ∈ p.ctx.log := by simpa using hcf
            have hj := h.tied.joined hf
            have h6 := hj.cf hcf'
            have h7 := poolCount_mem (x := b) hmem
            rw [Core.count_eq, strip_id, if_pos hid] at h7
            have h8 := hj.lb
            omega
          have hheard : Heard o R b svc' v
              (Pipe.replied { p.answering token 0 z with ctx := c } t.id (.requeued ts)).ctx.log := by
            rw [hnew]
            have hctx' : ({ (p.answering token 0 z).ctx with grpc := none } : Ctx H) = p.ctx.push (.responded token 0 z) := by
              unfold Ctx.push Pipe.answering
              dsimp only
              rw [hl.slot]
            exact ⟨p.ctx.log, token, z, [], rfl, hl.ended, _, by rw [hctx']; exact hR, rfl, hres⟩
          rw [hid] at hbs'
          refine ⟨ht', hr', ?_, ?_, ?_⟩
          · intro hf _
            rw [hctx, hbs']
            exact ⟨v, by simp⟩
          · intro hf m w hm
            rw [hctx, hbs'] at hm
            rcases List.mem_append.1 hm with hm | hm
            · exact absurd hm (hold (hfr hf) m w)
            · simp only [List.mem_singleton, Prod.mk.injEq] at hm
              obtain ⟨_, rfl, rfl⟩ := hm
              exact ⟨rfl, hwell (hfr hf), hheard⟩
          · intro hf m w m' w' hm hm'
            rw [hctx, hbs'] at hm hm'
            rcases List.mem_append.1 hm with hm | hm
            · exact absurd hm (hold (hfr hf) m w)
            · rcases List.mem_append.1 hm' with hm' | hm'
              · exact absurd hm' (hold (hfr hf) m' w')
              · simp only [List.mem_singleton, Prod.mk.injEq] at hm hm'
                rw [hm.2.2, hm'.2.2]
      · -- another call
        have hmine : ∀ m w, (b, (m, w)) ∈ c.bindings ↔ (b, (m, w)) ∈ p.ctx.bindings := by
          intro m w
          rcases hbs with ⟨h1, _⟩ | ⟨g, svc', var', kids, v, ts, _, _, _, _, h1, _⟩
          · rw [h1]
          · rw [h1, List.mem_append]
            refine ⟨fun h' => h'.resolve_right ?_, .inl⟩
            simp only [List.mem_singleton, Prod.mk.injEq]
            exact fun h' => hid h'.1.symm
        have hwell : WellAnswered (Pipe.replied { p.answering token s z with ctx := c } t.id out).ctx.log b ↔
            WellAnswered p.ctx.log b := by
          rw [hall]
          constructor
          · intro hwa
            obtain ⟨h1, h2, h3, h4⟩ := well_append.1 hwa
            have h5 := (sent_append.1 (h1.resolve_right sent_closing)).resolve_right (hns b)
            rw [sent_still (by simp [Effect.still])] at h5
            refine ⟨h5, ?_, fun hm => h3 (by simp [hm])⟩
            rcases h2 with h2 | h2
            · rcases List.mem_append.1 h2 with h2 | h2
              · simpa using h2
              · exact absurd h2 (stepped_completed hst hs)
            · exact absurd (closing_completed h2).1 hid
          · intro hwa
            refine well_append.2 ⟨.inl (sent_append.2 (.inl (sent_append.2 (.inl hwa.1)))), .inl (by simp [hwa.2.1]), ?_,
              closing_callFailed⟩
            intro hm
            rcases List.mem_append.1 hm with hm | hm
            · exact hwa.2.2 (by simpa using hm)
            · exact hid (stepped_callFailed hst hs hm)
        have hfr : Fresh (Pipe.replied { p.answering token s z with ctx := c } t.id out).ctx.log → Fresh p.ctx.log := by
          intro hf; rw [hall] at hf; exact hf.prefix.prefix.prefix
        refine ⟨ht', hr', ?_, ?_, ?_⟩
        · intro hf hwa
          obtain ⟨v, hv⟩ := h.told (hfr hf) (hwell.1 hwa)
          exact ⟨v, by rw [hctx]; exact (hmine _ _).2 hv⟩
        · intro hf m w hm
          rw [hctx] at hm
          obtain ⟨h1, h2, h3⟩ := h.bound (hfr hf) m w ((hmine _ _).1 hm)
          refine ⟨h1, hwell.2 h2, ?_⟩
          rw [hall, List.append_assoc, List.append_assoc]
          exact h3.append _
        · intro hf m w m' w' h1 h2
          rw [hctx] at h1 h2
          exact h.once (hfr hf) m w m' w' ((hmine _ _).1 h1) ((hmine _ _).1 h2)
    answerStop := fun _ _ _ _ _ _ _ _ _ _ _ _ _ _ _ => trivial
    frame := by
      intro p c' hl h hf
      obtain ⟨es, h1, h2⟩ := hf.log
      have hst : ∀ e ∈ es, e.still = true := fun e he => still_filter (h2 e he)
      refine keep (q := { p with ctx := c' }) h (T.frame p c' hl h.tied hf) (K.frame p c' hl h.replier hf) hf.bindings ⟨es, h1⟩ ?_
      show WellAnswered c'.log b ↔ _
      rw [h1]
      exact aside hst
    frameD := fun _ _ _ _ _ => trivial
    lateD := fun _ _ _ _ _ _ _ => trivial
    answerD := fun _ _ _ _ _ _ _ _ _ => trivial }

/-- Calls with reply actions are those of the set. -/
def Voice (services : Text → Option SvcInst) (s : ActionSet) (k : Core) : Prop :=
  k.isCall = true → k.children ≠ [] → ∃ head service var message replies,
    At services s k.id (.grpc head service var message replies) ∧ replies ≠ []

theorem voice_closed (services : Text → Option SvcInst) (s : ActionSet) : Closed (Voice services s) where
  again k k' h ha := by
    cases ha with
    | same => exact h
    | store => intro h'; simp [Core.isCall] at h'
    | tokenUsage => intro h'; simp [Core.isCall] at h'
  sent id deps guard pred msg var svc r h := fun _ hr => h rfl hr
  noop id guard := fun _ h => absurd rfl h

theorem fromSet_voice {parse : Text → Option Expr} {cfg : PluginConfig} {s : ActionSet} {b : Blueprint} {c : Ctx H}
    {p : Pipe H} (hb : Built c b p) (hfs : FromSet parse cfg s b) : Tasks (Voice cfg.services s) p [] := by
  refine built_all' hb (R := Origin parse cfg s) (fromSet_origin hfs) ?_ fun _ => by intro h; simp [Core.isCall] at h
  rintro a k (⟨t, y, deps, hat, hco, ha⟩ | hdev) hm
  · generalize a.head.id = x at hat hco
    subst ha
    cases hco with
    | grpc _ h service var message onReply pred kind svc deny msg replies hp hs hmsg hl =>
      generalize hy : Action.withDeps deps _ = y at hm
      cases hm with
      | call head' _ _ _ _ _ acts' kids hlen hkids =>
        simp only [Action.withDeps, Action.grpc.injEq, SvcInst.call.injEq] at hy
        obtain ⟨rfl, ⟨rfl, rfl, rfl⟩, rfl, rfl, rfl⟩ := hy
        intro _ hne
        refine ⟨h, service, var, message, onReply, hat, ?_⟩
        rintro rfl
        refine hne ?_
        show kids = []
        apply List.eq_nil_of_length_eq_zero
        simp only [List.length_nil] at hl
        omega
      | _ => simp [Action.withDeps] at hy
    | _ => cases hm; intro h; simp [Core.isCall] at h
  · obtain ⟨head, service, var, rfl, h1, h2⟩ := devMode_shape hdev
    generalize hy : Action.grpc head service var truePred [] = y at hm
    cases hm with
    | call head' _ _ _ _ _ acts' kids hlen hkids =>
      cases hy
      intro _ hne
      refine absurd ?_ hne
      apply List.eq_nil_of_length_eq_zero
      show kids.length = 0
      rw [← hlen]; rfl
    | _ => intro h; simp [Core.isCall] at h

/-- Responses put reply actions into the queue only if there are some. -/
theorem requeued_kids {t : PTask} {out : Outcome} {es : List Effect} (h : TDoes t out es)
    {id : Text} {g : Bool} {svc : Svc} {var : Text} (hk : t.strip = .pending id g svc var []) :
    out ≠ .requeued [] := by
  induction h with
  | @core k out es h =>
    simp only [PTask.strip] at hk
    subst hk
    cases h with
    | replies _ _ _ _ _ h => exact absurd rfl h
    | _ => intro h'; cases h'
  | again h ih => exact ih hk
  | @tracing t out es h ih =>
    have := ih hk
    cases out with
    | requeued ts =>
      intro h'
      simp only [Outcome.traced, Outcome.requeued.injEq, List.map_eq_nil_iff] at h'
      exact this (by rw [h'])
    | _ => intro h'; cases h'
  | _ => intro h'; cases h'

/-- What is bound, is bound by calls of the set. -/
structure Voices (services : Text → Option SvcInst) (s : ActionSet) (p : Pipe H) (todo : List PTask) : Prop where
  tasks : Tasks (Voice services s) p todo
  bound : ∀ e ∈ p.ctx.bindings, ∃ head service var message replies,
    At services s e.1 (.grpc head service var message replies) ∧ replies ≠ []

theorem voices_extra (services : Text → Option SvcInst) (s : ActionSet) :
    Extra o (Voices (H := H) services s) (fun _ => True) (fun _ => True) := by
  have R := lasting_extra (o := o) (voice_closed services s).lasting
  exact {
    opens := fun p hl h => ⟨R.opens p hl h.tasks, h.bound⟩
    skip := fun p t ts hl h hd => ⟨R.skip p t ts hl h.tasks hd, h.bound⟩
    go := by
      intro p t ts out c es hl h hd ha hs hlog hdo
      refine ⟨R.go p t ts out c es hl h.tasks hd ha hs hlog hdo, ?_⟩
      have hbs := started_bindings (o := o) t (p.ctx.push (.applied t.id)) (hl.queueW t (by simp))
      rw [ha] at hbs
      have : (Pipe.after { p with ctx := c } t.id out).ctx.bindings = p.ctx.bindings := by
        refine Eq.trans ?_ hbs
        cases out <;> rfl
      rw [this]
      exact h.bound
    stop := fun _ _ _ _ _ _ _ _ _ _ _ _ => trivial
    tear := fun p hl h hq hd => ⟨R.tear p hl h.tasks hq hd, by rw [(tornDown (o := o) p).bindings]; exact h.bound⟩
    bury := fun _ _ _ => trivial
    late := fun p token s z hl h hg => ⟨R.late p token s z hl h.tasks hg, h.bound⟩
    answer := by
      intro p token s z t out c es hl h hg ha hs hlog hdo
      refine ⟨R.answer p token s z t out c es hl h.tasks hg ha hs hlog hdo, ?_⟩
      have hw : t.strip.waits = true := hl.deferW _ (mapGet_mem hg)
      have hmem : t ∈ p.tasks [] := by
        simp only [Pipe.tasks, List.mem_append, List.mem_map]
        exact .inr ⟨(token, t), mapGet_mem hg, rfl⟩
      have hctx : (Pipe.replied { p.answering token s z with ctx := c } t.id out).ctx.bindings = c.bindings := by
        cases out <;> rfl
      rw [hctx]
      have hv := (h.tasks t hmem).here
      cases hk : t.strip with
      | pending id g svc' var' kids =>
        have hab := answered_bindings (o := o) t (p.answering token s z).ctx id g svc' var' kids s z hk rfl
        rw [ha] at hab
        rcases hab with ⟨h1, _⟩ | ⟨_, _, v, ts, _, h4, h5, h6⟩
        · intro e he
          exact h.bound e (by have he' : e ∈ (p.answering token s z).ctx.bindings := h1 ▸ he; exact he')
        · intro e he
          have he' : e ∈ p.ctx.bindings ++ [(id, (var', v))] := by
            have h7 : c.bindings = p.ctx.bindings ++ [(id, (var', v))] := h4
            rw [← h7]; exact he
          rcases List.mem_append.1 he' with he' | he'
          · exact h.bound e he'
          · rw [List.mem_singleton.1 he']
            rw [hk] at hv
            refine hv rfl ?_
            intro h0
            have h0' : kids = [] := h0
            rw [h0'] at h6
            have : ts = [] := by simpa using h6
            subst this
            rw [h0'] at hk
            replace h5 : out = .requeued [] := h5
            subst h5
            cases (stepped hdo) with
            | replies =>
              have hne := requeued_kids hdo hk
              exact hne rfl
            | over _ _ ho => rcases ho with ho | ho <;> cases ho
      | noop id g =>
        have := noop_bindings (o := o) t (p.answering token s z).ctx id g hk
        rw [ha] at this
        intro e he
        exact h.bound e (by have he' : e ∈ (p.answering token s z).ctx.bindings := this.1 ▸ he; exact he')
      | _ => rw [hk] at hw; simp [Core.waits] at hw
    answerStop := fun _ _ _ _ _ _ _ _ _ _ _ _ _ _ => trivial
    frame := fun p c' hl h hf => ⟨R.frame p c' hl h.tasks hf, by
      show ∀ e ∈ c'.bindings, _
      rw [hf.bindings]; exact h.bound⟩
    frameD := fun _ _ _ _ _ => trivial
    lateD := fun _ _ _ _ _ _ _ => trivial
    answerD := fun _ _ _ _ _ _ _ _ _ => trivial }

end Verif
