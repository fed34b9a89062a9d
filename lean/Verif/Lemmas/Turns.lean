import Verif.Lemmas.DueInv
import Verif.Lemmas.Callback
import Verif.Lemmas.Moments
/-! Invariants at the moments at which tasks are applied. -/
set_option linter.unusedSimpArgs false
namespace Verif
open Spec

variable {H : Type} {o : Oracle H} {S : Ctx H → Prop} {R : Nat → Nat → Nat → Ctx H → Prop} {X : Pipe H → List PTask → Prop} {Y Z : Pipe H → Prop}

attribute [local irreducible] Core.count countList

/-- A moment of a running pipeline of which `X` holds. -/
def Moment (X : Pipe H → List PTask → Prop) (m : Ctx H × List PTask) : Prop :=
  ∃ q t rest, Live q (t :: rest) ∧ X q (t :: rest) ∧ m = (q.ctx.push (.applied t.id), q.tasks (t :: rest))

theorem WithinAt.turns (h : WithinAt o S R X Y Z) (ts : List PTask) (p : Pipe H) (hl : Live p ts) (hx : X p ts)
    (hS : ∀ m ∈ p.turns o ts, S m.1) : ∀ m ∈ p.turns o ts, Moment X m := by
  induction ts generalizing p with
  | nil => intro m hm; cases hm
  | cons t ts ih =>
    by_cases hd : ∃ d ∈ t.deps, d ∉ p.completed
    · rw [turns_skip p t ts hd] at hS ⊢
      exact ih _ (live_skip p t ts hl) (h.skip p t ts hl hx hd) hS
    · have hdeps : ∀ d ∈ t.deps, d ∈ p.completed := by
        intro d hm
        by_cases hc : d ∈ p.completed
        · exact hc
        · exact absurd ⟨d, hm, hc⟩ hd
      obtain ⟨out, c, ha⟩ : ∃ out c, t.apply o (p.ctx.push (.applied t.id)) = (out, c) := ⟨_, _, rfl⟩
      rw [turns_go p t ts hdeps out c ha] at hS ⊢
      intro m hm
      rcases List.mem_cons.1 hm with rfl | hm
      · exact ⟨p, t, ts, hl, hx, rfl⟩
      · cases hs : out.stops with
        | true => rw [hs] at hm; cases hm
        | false =>
          rw [hs] at hm hS
          obtain ⟨es, hlog, hdo⟩ := apply_does o (p.ctx.push (.applied t.id)) t
          rw [ha] at hlog hdo
          exact ih _ (live_go o p t ts out c hl ha hs)
            (h.go p t ts out c es (hS _ List.mem_cons_self) hl hx hdeps ha hs hlog hdo)
            (fun m hm => hS m (List.mem_cons_of_mem _ hm)) m hm

theorem WithinAt.evalTurns (h : WithinAt o S R X Y Z) (p : Pipe H) (hl : Live p []) (hx : X p [])
    (hS : ∀ m ∈ p.evalTurns o, S m.1) : ∀ m ∈ p.evalTurns o, Moment X m :=
  h.turns p.queue _ (live_opens hl) (h.opens p hl hx) hS

theorem WithinAt.digestTurns (h : WithinAt o S R X Y Z) (p : Pipe H) (token s z : Nat) (hl : Live p []) (hx : X p [])
    (hS : ∀ m ∈ p.digestTurns o token s z, S m.1) (hR : R token s z (p.ctx.push (.responded token s z))) :
    ∀ m ∈ p.digestTurns o token s z, Moment X m := by
  cases hg : mapGet p.deferred token with
  | none =>
    rw [digestTurns_unknown p token s z hg] at hS ⊢
    exact h.evalTurns _ (live_late p token s z hl hg) (h.late p token s z hl hx hg) hS
  | some t =>
    obtain ⟨⟨out, c⟩, hr⟩ : ∃ r, t.apply o (p.answering token s z).ctx = r := ⟨_, rfl⟩
    rw [digestTurns_known p token s z t out c hl.slot hg hr] at hS ⊢
    cases hs : out.stops with
    | true => intro m hm; cases hm
    | false =>
      rw [hs] at hS
      obtain ⟨es, hlog, hdo⟩ := apply_does o (p.answering token s z).ctx t
      rw [hr] at hlog hdo
      exact h.evalTurns _ (live_answer o p token s z hl t hg out c hr hs)
        (h.answer p token s z t out c es hR hl hx hg hr hs hlog hdo) hS

theorem dead_digestTurns (p : Pipe H) (token s z : Nat) (h : Dead p) : p.digestTurns o token s z = [] := by
  cases hg : mapGet p.deferred token with
  | none =>
    rw [digestTurns_unknown p token s z hg]
    exact evalTurns_nil _ h.queue
  | some t =>
    obtain ⟨id, guard, ht⟩ := h.noops _ (mapGet_mem hg)
    dsimp only at ht
    subst ht
    have happ : PTask.apply o (p.answering token s z).ctx (.core (.noop id guard))
        = (.done, (applyNoop (p.answering token s z).ctx guard).2) := by cases guard <;> rfl
    rw [digestTurns_known p token s z _ _ _ h.slot hg happ]
    exact evalTurns_nil _ h.queue

theorem ExtraAt.stepTurns (h : ExtraAt o S R X Y Z) {f : Filter H} (hf : Ghost (Holds X Z) f) (e : Event H)
    (hm : Moments o S R f e) : ∀ m ∈ f.stepTurns o e, Moment X m := by
  have hev : ∀ p : Pipe H, Holds X Z p → (∀ m ∈ p.evalTurns o, S m.1) → ∀ m ∈ p.evalTurns o, Moment X m := by
    rintro p (⟨hl, hx⟩ | ⟨hd, _⟩) hS
    · exact h.toWithinAt.evalTurns p hl hx hS
    · rw [evalTurns_nil p hd.queue]
      intro m hm; cases hm
  have hent : ∀ q, Holds X Z (f.at q) → Holds X Z { f.at q with ctx := e.enters (f.at q).ctx } :=
    fun q hq => h.frames _ _ hq (enters_frame e _)
  have hS := hm.acts
  unfold Filter.stepTurns at hS ⊢
  split
  · intro m hm; cases hm
  · rename_i hc
    rw [if_neg hc] at hS
    cases hf with
    | finished g hp => rw [hp]; intro m hm; cases hm
    | running q hp hq =>
      rw [hp] at hS ⊢
      cases e with
      | requestBody host size eos => exact hev _ (hent q hq) hS
      | responseHeaders host =>
        refine hev _ ?_ hS
        have h1 := h.frames _ { (f.at q).ctx with log := (f.at q).ctx.log ++ [.allowed] } hq
          ⟨⟨[.allowed], rfl, by simp [Effect.isFilter]⟩, rfl, rfl, rfl, rfl, rfl, rfl, rfl, rfl⟩
        have h2 := h.frames _ _ h1 (enters_frame (.responseHeaders host) _)
        exact h2
      | responseBody host size eos => exact hev _ (hent q hq) hS
      | grpcResponse host token s z =>
        have hR := hm.hears host token s z q rfl (by simpa using hc) hp
        have hen : Holds X Z (entered f host id q) := hent q hq
        rcases hen with ⟨hl, hx⟩ | ⟨hd, _⟩
        · exact h.toWithinAt.digestTurns _ token s z hl hx hS hR
        · show ∀ m ∈ (entered f host id q).digestTurns o token s z, Moment X m
          rw [dead_digestTurns _ token s z hd]
          intro m hm; cases hm

/-- What holds throughout a request holds at its moments. -/
theorem ExtraAt.turnsAt (factory : Factory) (host : H) (events : List (Event H))
    (h : ExtraAt o (Acting o factory host events) (Hearing o factory host events) X Y Z) (p : Pipe H)
    (hb : factory.build o { host := host } = .pipeline p) (hx : X (p.push .hits) []) (before : List (Event H))
    (e : Option (Event H)) (hpre : before ++ e.toList <+: events) :
    ∀ m ∈ Filter.turnsAt o factory host before e, Moment X m := by
  cases e with
  | some e =>
    have hbe : before <+: events := (List.prefix_append before [e]).trans hpre
    refine h.stepTurns ?_ e (moments_at o factory host hpre)
    exact (h.mono (fun _ => acting_mono hbe) fun _ _ _ _ => hearing_mono hbe).run factory host before p hb hx
  | none =>
    unfold Filter.turnsAt
    have hS : ∀ m ∈ Filter.startTurns o factory host, Acting o factory host events m.1 := fun m hm =>
      ⟨[], none, m.2, List.nil_prefix, hm⟩
    unfold Filter.startTurns at hS ⊢
    rw [hb] at hS ⊢
    exact h.toWithinAt.evalTurns _ (hits_live hb) hx hS

theorem Extra.turnsAt (h : Extra o X Y Z) (factory : Factory) (host : H) (p : Pipe H)
    (hb : factory.build o { host := host } = .pipeline p) (hx : X (p.push .hits) []) (before : List (Event H))
    (e : Option (Event H)) : ∀ m ∈ Filter.turnsAt o factory host before e, Moment X m :=
  ExtraAt.turnsAt factory host (before ++ e.toList) h.at p hb hx before e (List.prefix_refl _)

theorem idle_turns (factory : Factory) (host : H) (hb : ∀ p, factory.build o { host := host } ≠ .pipeline p)
    (before : List (Event H)) (e : Option (Event H)) : Filter.turnsAt o factory host before e = [] := by
  cases e with
  | none =>
    unfold Filter.turnsAt Filter.startTurns
    generalize factory.build o { host := host } = r at hb
    cases r with
    | pipeline p => exact absurd rfl (hb p)
    | _ => rfl
  | some e =>
    have hnone : (Filter.run o factory host before).pipeline = none := by
      refine foldl_ind (fun f : Filter H => f.pipeline = none) _ ?_ before _ ?_
      · intro f e hf
        unfold Filter.step
        split
        · exact hf
        · cases e with
          | requestBody => simp [Filter.onRequestBody, Filter.evalWith, hf, Filter.push]
          | responseHeaders => simp [Filter.onResponseHeaders, Filter.evalWith, hf, Filter.push]
          | responseBody =>
            simp only [Filter.onResponseBody, Filter.evalWith, hf, Filter.push]
            split
            · rfl
            · simp
          | grpcResponse => simp [Filter.onGrpcResponse, hf, Filter.push]
      · unfold Filter.start
        dsimp only
        generalize factory.build o { host := host } = r at hb
        cases r with
        | pipeline p => exact absurd rfl (hb p)
        | error c => dsimp only; split <;> rfl
        | _ => rfl
    unfold Filter.turnsAt Filter.stepTurns
    dsimp only
    rw [hnone]
    split <;> rfl

end Verif
