import Verif.Lemmas.Steps
import Verif.Spec.Moments
import Verif.Lemmas.Asked
/-! Invariants proved from single steps, which may use that the moments are those of the request. -/
set_option linter.unusedSimpArgs false
namespace Verif
open Spec

variable {H : Type} (o : Oracle H)

theorem evalTurns_nil {o : Oracle H} (p : Pipe H) (hq : p.queue = []) : p.evalTurns o = [] := by
  unfold Pipe.evalTurns
  rw [hq]
  rfl

theorem digestTurns_unknown {o : Oracle H} (p : Pipe H) (token s z : Nat) (h : mapGet p.deferred token = none) :
    p.digestTurns o token s z = (p.push (.responded token s z)).evalTurns o := by
  unfold Pipe.digestTurns
  dsimp only
  have : mapGet (p.push (.responded token s z)).deferred token = none := h
  rw [this]

theorem digestTurns_known {o : Oracle H} (p : Pipe H) (token s z : Nat) (t : PTask) (out : Outcome) (c : Ctx H)
    (hslot : p.ctx.grpc = none) (h : mapGet p.deferred token = some t)
    (ha : t.apply o (p.answering token s z).ctx = (out, c)) :
    p.digestTurns o token s z = if out.stops then [] else
      (Pipe.replied { p.answering token s z with ctx := c } t.id out).evalTurns o := by
  unfold Pipe.digestTurns
  dsimp only
  have hg : mapGet (p.push (.responded token s z)).deferred token = some t := h
  have hset : ((p.push (.responded token s z)).removeToken token).setResponse s z =
      p.answering token s z := by
    simp [Pipe.setResponse, Pipe.removeToken, Pipe.push, Ctx.push, hslot, Pipe.answering]
  rw [hg]
  dsimp only
  rw [hset, ha]
  cases out <;> rfl

theorem turns_skip {o : Oracle H} (p : Pipe H) (t : PTask) (ts : List PTask) (hd : ∃ d ∈ t.deps, d ∉ p.completed) :
    p.turns o (t :: ts) = Pipe.turns o { p with queue := p.queue ++ [t] } ts := by
  rw [Pipe.turns, if_pos]
  obtain ⟨d, h1, h2⟩ := hd
  exact List.any_eq_true.2 ⟨d, h1, by simpa using h2⟩

theorem turns_go {o : Oracle H} (p : Pipe H) (t : PTask) (ts : List PTask) (hd : ∀ d ∈ t.deps, d ∈ p.completed)
    (out : Outcome) (c : Ctx H) (ha : t.apply o (p.ctx.push (.applied t.id)) = (out, c)) :
    p.turns o (t :: ts) = (p.ctx.push (.applied t.id), p.queue ++ (t :: ts) ++ p.deferred.map Prod.snd) ::
      (if out.stops then [] else (Pipe.after { p with ctx := c } t.id out).turns o ts) := by
  rw [Pipe.turns, if_neg, ha]
  · cases out <;> rfl
  · intro h
    obtain ⟨d, h1, h2⟩ := List.any_eq_true.1 h
    have := hd d h1
    simp [this] at h2

/-- Obligations of an invariant within callbacks. Actions are evaluated in contexts of which `S` holds, and responses
are looked at in contexts of which `R` holds. -/
structure WithinAt (S : Ctx H → Prop) (R : Nat → Nat → Nat → Ctx H → Prop) (X : Pipe H → List PTask → Prop)
    (Y Z : Pipe H → Prop) : Prop where
  opens : ∀ p, Live p [] → X p [] → X { p with queue := [] } p.queue
  skip : ∀ p t ts, Live p (t :: ts) → X p (t :: ts) → (∃ d ∈ t.deps, d ∉ p.completed) →
    X { p with queue := p.queue ++ [t] } ts
  go : ∀ p t ts out c es, S (p.ctx.push (.applied t.id)) → Live p (t :: ts) → X p (t :: ts) →
    (∀ d ∈ t.deps, d ∈ p.completed) →
    t.apply o (p.ctx.push (.applied t.id)) = (out, c) → out.stops = false →
    c.log = p.ctx.log ++ [.applied t.id] ++ es → TDoes t out es →
    X (Pipe.after { p with ctx := c } t.id out) ts
  stop : ∀ p t ts t' c es, S (p.ctx.push (.applied t.id)) → Live p (t :: ts) → X p (t :: ts) →
    (∀ d ∈ t.deps, d ∈ p.completed) →
    t.apply o (p.ctx.push (.applied t.id)) = (.terminate t', c) →
    c.log = p.ctx.log ++ [.applied t.id] ++ es → TDoes t (.terminate t') es →
    Y (Pipe.terminate o { p with ctx := c } t')
  tear : ∀ p, Live p [] → X p [] → p.queue = [] → p.deferred = [] → X (p.executeTeardown o) []
  bury : ∀ p, Dying p → Y p → Z (p.executeTeardown o)
  late : ∀ p token s z, Live p [] → X p [] → mapGet p.deferred token = none →
    X (p.push (.responded token s z)) []
  answer : ∀ p token s z t out c es, R token s z (p.ctx.push (.responded token s z)) → Live p [] → X p [] →
    mapGet p.deferred token = some t →
    t.apply o (p.answering token s z).ctx = (out, c) → out.stops = false →
    c.log = p.ctx.log ++ [.responded token s z] ++ es → TDoes t out es →
    X (Pipe.replied { p.answering token s z with ctx := c } t.id out) []
  answerStop : ∀ p token s z t t' c es, R token s z (p.ctx.push (.responded token s z)) → Live p [] → X p [] →
    mapGet p.deferred token = some t →
    t.apply o (p.answering token s z).ctx = (.terminate t', c) →
    c.log = p.ctx.log ++ [.responded token s z] ++ es → TDoes t (.terminate t') es →
    Y (Pipe.terminate o { p.answering token s z with ctx := c } t')
  lateD : ∀ p token s z, Dead p → Z p → mapGet p.deferred token = none →
    Z (p.push (.responded token s z))
  answerD : ∀ p token s z id guard, Dead p → Z p →
    mapGet p.deferred token = some (.core (.noop id guard)) → Z (p.dropped token s z id guard)

/-- Obligations of an invariant, also between callbacks. -/
structure ExtraAt (S : Ctx H → Prop) (R : Nat → Nat → Nat → Ctx H → Prop) (X : Pipe H → List PTask → Prop)
    (Y Z : Pipe H → Prop) : Prop extends WithinAt o S R X Y Z where
  frame : ∀ p c', Live p [] → X p [] → Frame p.ctx c' → X { p with ctx := c' } []
  frameD : ∀ p c', Dead p → Z p → Frame p.ctx c' → Z { p with ctx := c' }

variable {S : Ctx H → Prop} {R : Nat → Nat → Nat → Ctx H → Prop} {X : Pipe H → List PTask → Prop} {Y Z : Pipe H → Prop}
  {o}

theorem ExtraAt.extra (h : ExtraAt o (fun _ => True) (fun _ _ _ _ => True) X Y Z) : Extra o X Y Z where
  opens := h.opens
  skip := h.skip
  go p t ts out c es := h.go p t ts out c es trivial
  stop p t ts t' c es := h.stop p t ts t' c es trivial
  tear := h.tear
  bury := h.bury
  late := h.late
  answer p token s z t out c es := h.answer p token s z t out c es trivial
  answerStop p token s z t t' c es := h.answerStop p token s z t t' c es trivial
  lateD := h.lateD
  answerD := h.answerD
  frame := h.frame
  frameD := h.frameD

/-- Invariants of more contexts are invariants of fewer. -/
theorem ExtraAt.mono {S' : Ctx H → Prop} {R' : Nat → Nat → Nat → Ctx H → Prop} (h : ExtraAt o S R X Y Z)
    (hS : ∀ c, S' c → S c) (hR : ∀ token s z c, R' token s z c → R token s z c) : ExtraAt o S' R' X Y Z where
  opens := h.opens
  skip := h.skip
  go p t ts out c es h1 := h.go p t ts out c es (hS _ h1)
  stop p t ts t' c es h1 := h.stop p t ts t' c es (hS _ h1)
  tear := h.tear
  bury := h.bury
  late := h.late
  answer p token s z t out c es h1 := h.answer p token s z t out c es (hR _ _ _ _ h1)
  answerStop p token s z t t' c es h1 := h.answerStop p token s z t t' c es (hR _ _ _ _ h1)
  lateD := h.lateD
  answerD := h.answerD
  frame := h.frame
  frameD := h.frameD

theorem Extra.at (h : Extra o X Y Z) : ExtraAt o S R X Y Z where
  opens := h.opens
  skip := h.skip
  go p t ts out c es _ := h.go p t ts out c es
  stop p t ts t' c es _ := h.stop p t ts t' c es
  tear := h.tear
  bury := h.bury
  late := h.late
  answer p token s z t out c es _ := h.answer p token s z t out c es
  answerStop p token s z t t' c es _ := h.answerStop p token s z t t' c es
  lateD := h.lateD
  answerD := h.answerD
  frame := h.frame
  frameD := h.frameD

theorem WithinAt.evalPipe (h : WithinAt o S R X Y Z) (p : Pipe H) (hl : Live p []) (hx : X p [])
    (hS : ∀ m ∈ p.evalTurns o, S m.1) : Holds X Z (p.evalPipe o) := by
  have := evalPipe_ind o (fun q ts => (Live q ts ∧ X q ts) ∧ ∀ m ∈ q.turns o ts, S m.1) (fun q => Dying q ∧ Y q)
    (fun q => Dead q ∧ Z q) ?_ ?_ ?_ ?_ ?_ p ⟨⟨live_opens hl, h.opens p hl hx⟩, hS⟩
  · exact this.imp (·.1) id
  · rintro q t ts ⟨⟨hl, hx⟩, hS⟩ hd
    rw [turns_skip q t ts hd] at hS
    exact ⟨⟨live_skip q t ts hl, h.skip q t ts hl hx hd⟩, hS⟩
  · rintro q t ts out c ⟨⟨hl, hx⟩, hS⟩ hd ha hs
    rw [turns_go q t ts hd out c ha, hs] at hS
    obtain ⟨es, hlog, hdo⟩ := apply_does o (q.ctx.push (.applied t.id)) t
    rw [ha] at hlog hdo
    exact ⟨⟨live_go o q t ts out c hl ha hs, h.go q t ts out c es (hS _ List.mem_cons_self) hl hx hd ha hs hlog hdo⟩,
      fun m hm => hS m (List.mem_cons_of_mem _ hm)⟩
  · rintro q t ts t' c ⟨⟨hl, hx⟩, hS⟩ hd ha
    rw [turns_go q t ts hd _ c ha] at hS
    refine ⟨live_stop o q t ts t' c hl ha, ?_⟩
    obtain ⟨es, hlog, hdo⟩ := apply_does o (q.ctx.push (.applied t.id)) t
    rw [ha] at hlog hdo
    exact h.stop q t ts t' c es (hS _ List.mem_cons_self) hl hx hd ha hlog hdo
  · rintro q ⟨hd, hy⟩
    exact ⟨dying_dead o q hd, h.bury q hd hy⟩
  · rintro q ⟨⟨hl, hx⟩, _⟩ hq hd
    exact ⟨⟨live_teardown o q hl hd, h.tear q hl hx hq hd⟩, by intro m hm; cases hm⟩

theorem WithinAt.digestPipe (h : WithinAt o S R X Y Z) (p : Pipe H) (token s z : Nat) (hl : Live p [])
    (hx : X p []) (hS : ∀ m ∈ p.digestTurns o token s z, S m.1) (hR : R token s z (p.ctx.push (.responded token s z))) :
    Holds X Z (p.digestPipe o token s z) := by
  refine digestPipe_ind o (fun q => (Live q [] ∧ X q []) ∧ ∀ m ∈ q.evalTurns o, S m.1) (Holds X Z) p token s z hl.slot
    ?_ ?_ ?_ ?_
  · intro hg
    rw [digestTurns_unknown p token s z hg] at hS
    exact ⟨⟨live_late p token s z hl hg, h.late p token s z hl hx hg⟩, hS⟩
  · intro t out c hg ha hs
    rw [digestTurns_known p token s z t out c hl.slot hg ha, hs] at hS
    obtain ⟨es, hlog, hdo⟩ := apply_does o (p.answering token s z).ctx t
    rw [ha] at hlog hdo
    exact ⟨⟨live_answer o p token s z hl t hg out c ha hs, h.answer p token s z t out c es hR hl hx hg ha hs hlog hdo⟩,
      hS⟩
  · intro t t' c hg ha
    obtain ⟨es, hlog, hdo⟩ := apply_does o (p.answering token s z).ctx t
    rw [ha] at hlog hdo
    have hdy := live_answerStop o p token s z hl t hg t' c ha
    have hdead := dying_dead o _ hdy
    rw [dead_evalPipe o _ hdead]
    exact .inr ⟨hdead, h.bury _ hdy (h.answerStop p token s z t t' c es hR hl hx hg ha hlog hdo)⟩
  · rintro q ⟨⟨hl, hx⟩, hS⟩
    exact h.evalPipe q hl hx hS

/-- The invariant across an evaluation. -/
theorem WithinAt.eval (h : WithinAt o S R X Y Z) (p : Pipe H) (hp : Holds X Z p) (hS : ∀ m ∈ p.evalTurns o, S m.1) :
    Holds X Z (p.evalPipe o) := by
  rcases hp with ⟨hl, hx⟩ | ⟨hd, hz⟩
  · exact h.evalPipe p hl hx hS
  · rw [dead_evalPipe o p hd]; exact .inr ⟨hd, hz⟩

/-- The invariant across a response. -/
theorem WithinAt.digest (h : WithinAt o S R X Y Z) (p : Pipe H) (token s z : Nat) (hp : Holds X Z p)
    (hS : ∀ m ∈ p.digestTurns o token s z, S m.1) (hR : R token s z (p.ctx.push (.responded token s z))) :
    Holds X Z (p.digestPipe o token s z) := by
  rcases hp with ⟨hl, hx⟩ | ⟨hd, hz⟩
  · exact h.digestPipe p token s z hl hx hS hR
  · rcases dead_digest_cases o p token s z hd with ⟨hg, heq⟩ | ⟨id, guard, hg, heq⟩
    · rw [heq]; exact .inr ⟨dead_late p token s z hd hg, h.lateD p token s z hd hz hg⟩
    · rw [heq]; exact .inr ⟨dead_dropped p token s z hd id guard, h.answerD p token s z id guard hd hz hg⟩

/-- The invariant across a response without a pipeline. -/
theorem WithinAt.tardy (h : WithinAt o S R X Y Z) (p : Pipe H) (token s z : Nat) (hp : Holds X Z p)
    (hd : p.deferred = []) : Holds X Z (p.push (.responded token s z)) := by
  have hg : mapGet p.deferred token = none := by rw [hd]; rfl
  rcases hp with ⟨hl, hx⟩ | ⟨hdd, hz⟩
  · exact .inl ⟨live_late p token s z hl hg, h.late p token s z hl hx hg⟩
  · exact .inr ⟨dead_late p token s z hdd hg, h.lateD p token s z hdd hz hg⟩

/-- The moments of an event, given those of the request. -/
structure Moments (o : Oracle H) (S : Ctx H → Prop) (R : Nat → Nat → Nat → Ctx H → Prop) (f : Filter H) (e : Event H) :
    Prop where
  acts : ∀ m ∈ f.stepTurns o e, S m.1
  hears : ∀ now token s z q, e = .grpcResponse now token s z → f.crashed = false → f.pipeline = some q →
    R token s z ((f.enter now q).ctx.push (.responded token s z))

/-- What an invariant of pipelines needs to be kept by callbacks. -/
structure StepsAt (o : Oracle H) (S : Ctx H → Prop) (R : Nat → Nat → Nat → Ctx H → Prop) (I : Pipe H → Prop) : Prop where
  push : ∀ p e, I p → e.isFilter = true → I { p with ctx := { p.ctx with log := p.ctx.log ++ [e] } }
  late : ∀ p token s z, I p → p.queue = [] → p.deferred = [] → I (p.push (.responded token s z))
  eval : ∀ p, I p → (∀ m ∈ p.evalTurns o, S m.1) → I (p.evalPipe o)
  digest : ∀ p token s z, I p → (∀ m ∈ p.digestTurns o token s z, S m.1) →
    R token s z (p.ctx.push (.responded token s z)) → I (p.digestPipe o token s z)

variable {I : Pipe H → Prop}

theorem StepsAt.ghost_push (h : StepsAt o S R I) {f : Filter H} (hg : Ghost I f) {e : Effect} (he : e.isFilter = true) :
    Ghost I (f.push e) := by
  cases hg with
  | running q hp h' => exact .running q hp (h.push (f.at q) e h' he)
  | finished g hp hq hd hl h' =>
    refine .finished { g with ctx := { g.ctx with log := g.ctx.log ++ [e] } } hp hq hd ?_ (h.push _ e h' he)
    show g.ctx.log ++ [e] = f.log ++ [e]
    rw [hl]

/-- The context at the start of a callback. -/
def Event.enters (e : Event H) (c : Ctx H) : Ctx H :=
  match e with
  | .requestBody host size eos => { c with host, req := { c.req with size, eos } }
  | .responseHeaders host => { c with host }
  | .responseBody host size eos => { c with host, resp := { c.resp with size, eos } }
  | .grpcResponse host _ _ _ => { c with host }

theorem StepsAt.step (h : StepsAt o S R I) {f : Filter H} (hg : Ghost I f) (e : Event H) (hm : Moments o S R f e)
    (hent : ∀ p, I p → I { p with ctx := e.enters p.ctx }) : Ghost I (f.step o e) := by
  have hacts := hm.acts
  unfold Filter.stepTurns at hacts
  have heval : ∀ {f' : Filter H} (host : H) (update : Ctx H → Ctx H), Ghost I f' →
      (∀ q, f'.pipeline = some q → I (f'.at q) → I (entered f' host update q) ∧
        ∀ m ∈ (entered f' host update q).evalTurns o, S m.1) → Ghost I (f'.evalWith o host update) := by
    intro f' host update hg' hi
    cases hg' with
    | running q hp h' =>
      rw [evalWith_some f' host update q hp]
      exact ghost_store _ _ (h.eval _ (hi q hp h').1 (hi q hp h').2)
    | finished g hp hq hd hl h' =>
      rw [evalWith_none f' host update hp]
      exact .finished g hp hq hd hl h'
  unfold Filter.step
  split
  · exact hg
  · rename_i hc
    rw [if_neg hc] at hacts
    cases e with
    | requestBody host size eos =>
      refine h.ghost_push (heval host _ hg ?_) rfl
      intro q hp hq
      rw [hp] at hacts
      exact ⟨hent (Filter.at _ q) hq, hacts⟩
    | responseHeaders host =>
      refine h.ghost_push (heval host id ?_ ?_) rfl
      · exact ghost_of_pipeline (h.ghost_push hg (e := .allowed) rfl) rfl rfl
      · intro q hp hq
        have hp' : f.pipeline = some q := hp
        rw [hp'] at hacts
        exact ⟨hent (Filter.at _ q) hq, hacts⟩
    | responseBody host size eos =>
      have h1 : Ghost I (f.evalWith o host (Filter.setResp size eos)) := by
        refine heval host _ hg ?_
        intro q hp hq
        rw [hp] at hacts
        exact ⟨hent (Filter.at _ q) hq, hacts⟩
      simp only [Filter.onResponseBody]
      split
      · exact h.ghost_push h1 rfl
      · split
        · exact ghost_of_pipeline (h.ghost_push h1 (e := .returned (.responseBody eos) true) rfl) rfl rfl
        · exact h.ghost_push h1 rfl
    | grpcResponse host token s z =>
      cases hg with
      | running q hp h' =>
        rw [hp] at hacts
        dsimp only
        rw [onGrpcResponse_some f host token s z q hp]
        have h1 : Ghost I (f.store ((entered f host id q).digestPipe o token s z).state) :=
          ghost_store _ _ (h.digest _ token s z (hent _ h') hacts
            (hm.hears host token s z q rfl (by simpa using hc) hp))
        split
        · unfold Filter.resume
          refine h.ghost_push h1 ?_
          split <;> rfl
        · exact h1
      | finished g hp hq hd hl h' =>
        dsimp only
        unfold Filter.onGrpcResponse
        rw [hp]
        exact .finished (g.push (.responded token s z)) hp hq hd
          (by simp [Pipe.push, Ctx.push, hl, Filter.push]) (h.late _ _ _ _ h' hq hd)

/-- The moments of a request are the ones of its callbacks. -/
theorem moments_at (o : Oracle H) (factory : Factory) (host : H) {events before : List (Event H)} {e : Event H}
    (hpre : before ++ [e] <+: events) :
    Moments o (Acting o factory host events) (Hearing o factory host events) (Filter.run o factory host before) e where
  acts m hm := ⟨before, some e, m.2, hpre, hm⟩
  hears now token s z q he hc hp := by
    subst he
    exact ⟨before, now, q, hpre, hc, hp, rfl⟩

theorem acting_mono {factory : Factory} {host : H} {events events' : List (Event H)} (hpre : events <+: events')
    {c : Ctx H} (h : Acting o factory host events c) : Acting o factory host events' c := by
  obtain ⟨b, e, ts, h1, h2⟩ := h
  exact ⟨b, e, ts, h1.trans hpre, h2⟩

theorem hearing_mono {factory : Factory} {host : H} {events events' : List (Event H)} (hpre : events <+: events')
    {token s z : Nat} {c : Ctx H} (h : Hearing o factory host events token s z c) :
    Hearing o factory host events' token s z c := by
  obtain ⟨b, now, q, h1, h2⟩ := h
  exact ⟨b, now, q, h1.trans hpre, h2⟩

theorem StepsAt.run {factory : Factory} {host : H} {events : List (Event H)}
    (h : StepsAt o (Acting o factory host events) (Hearing o factory host events) I) {p : Pipe H}
    (hb : factory.build o { host := host } = .pipeline p) (hi : I (p.push .hits))
    (hent : ∀ e ∈ events, ∀ p, I p → I { p with ctx := e.enters p.ctx }) :
    Ghost I (Filter.run o factory host events) := by
  have key : ∀ pfx, pfx <+: events → Ghost I (Filter.run o factory host pfx) := by
    intro pfx
    induction pfx using snoc_ind with
    | nil =>
      intro _
      show Ghost _ (Filter.start o factory host)
      rw [start_pipeline factory host p hb]
      refine h.ghost_push (ghost_store _ _ (h.eval _ hi ?_)) rfl
      intro m hm
      refine ⟨[], none, m.2, List.nil_prefix, ?_⟩
      show m ∈ Filter.startTurns o factory host
      unfold Filter.startTurns
      rw [hb]
      exact hm
    | snoc pfx e ih =>
      intro hpre
      rw [run_snoc]
      have hpre' : pfx <+: events := (List.prefix_append pfx [e]).trans hpre
      refine h.step (ih hpre') e (moments_at o factory host hpre) (hent e ?_)
      exact hpre.subset (by simp)
  exact key events (List.prefix_refl _)

theorem enters_frame (e : Event H) (c : Ctx H) : Frame c (e.enters c) := by
  cases e <;> exact ⟨⟨[], by simp [Event.enters], by simp⟩, rfl, rfl, rfl, rfl, rfl, rfl, rfl, rfl⟩

theorem ExtraAt.frames (h : ExtraAt o S R X Y Z) (p : Pipe H) (c' : Ctx H) (hp : Holds X Z p) (hf : Frame p.ctx c') :
    Holds X Z { p with ctx := c' } := by
  have hs := (sound_stable (o := o)).frame p c' hp.sound hf
  rcases hp with ⟨hl, hx⟩ | ⟨hd, hz⟩
  · rcases hs with hs | hs
    · exact .inl ⟨hs, h.frame p c' hl hx hf⟩
    · exact absurd (hl.term.symm.trans hs.term) (by simp)
  · rcases hs with hs | hs
    · exact absurd (hd.term.symm.trans hs.term) (by simp)
    · exact .inr ⟨hs, h.frameD p c' hd hz hf⟩

theorem ExtraAt.steps (h : ExtraAt o S R X Y Z) : StepsAt o S R (Holds X Z) where
  push p e hp he := h.frames p _ hp ⟨⟨[e], rfl, by simpa using he⟩, rfl, rfl, rfl, rfl, rfl, rfl, rfl, rfl⟩
  late p token s z hp _ hd := h.toWithinAt.tardy p token s z hp hd
  eval p hp hS := h.toWithinAt.eval p hp hS
  digest p token s z hp hS hR := h.toWithinAt.digest p token s z hp hS hR

/-- New pipelines are running. -/
theorem hits_live {factory : Factory} {host : H} {p : Pipe H} (hb : factory.build o { host := host } = .pipeline p) :
    Live (p.push .hits) [] := by
  obtain ⟨b, _, hbuilt⟩ := build_built o factory _ p hb
  rcases sound_hits hbuilt with h | h
  · exact h
  · have := h.term
    have h2 := hbuilt.term
    simp [Pipe.push] at this
    rw [h2] at this
    simp at this

/-- Invariants of new pipelines hold throughout a request. -/
theorem ExtraAt.run (factory : Factory) (host : H) (events : List (Event H))
    (h : ExtraAt o (Acting o factory host events) (Hearing o factory host events) X Y Z) (p : Pipe H)
    (hb : factory.build o { host := host } = .pipeline p) (hx : X (p.push .hits) []) :
    Ghost (Holds X Z) (Filter.run o factory host events) :=
  h.steps.run hb (.inl ⟨hits_live hb, hx⟩) fun e _ p hp => h.frames p _ hp (enters_frame e p.ctx)

end Verif
