import Verif.Spec.Session
import Verif.Lemmas.HostInv
import Verif.Lemmas.Asked
set_option linter.unusedSimpArgs false
/-! Invariants of the host hold at all the moments of a request. -/
namespace Verif
open Spec

section
variable {H : Type} {o : Oracle H} {J : H → List Effect → Prop} (hi : HostInv o J)
include hi

theorem HostInv.built {factory : Factory} {host : H} (h : J host []) {p : Pipe H}
    (hb : factory.build o { host := host } = .pipeline p) : On J p.ctx := by
  have h1 := hi.build factory { host := host } h
  generalize factory.build o { host := host } = q at h1 hb
  subst hb
  exact h1

theorem HostInv.turns (ts : List PTask) (p : Pipe H) (h : On J p.ctx) : ∀ m ∈ p.turns o ts, On J m.1 := by
  induction ts generalizing p with
  | nil => intro m hm; cases hm
  | cons t ts ih =>
    unfold Pipe.turns
    split
    · exact ih _ h
    · intro m hm
      have h0 := hi.pushed (.applied t.id) rfl h
      rcases List.mem_cons.1 hm with rfl | hm
      · exact h0
      · have h1 := hi.task t _ h0
        generalize t.apply o (p.ctx.push (.applied t.id)) = q at h1 hm
        obtain ⟨out, c⟩ := q
        cases out with
        | done => exact ih _ (hi.pushed _ rfl h1) m hm
        | deferred token pending => exact ih _ h1 m hm
        | requeued new => exact ih _ h1 m hm
        | failed => exact ih _ (hi.pushed _ rfl h1) m hm
        | terminate => cases hm

theorem HostInv.evalTurns (p : Pipe H) (h : On J p.ctx) : ∀ m ∈ p.evalTurns o, On J m.1 :=
  hi.turns _ { p with queue := [] } h

theorem HostInv.digestTurns (p : Pipe H) (token status size : Nat) (h : On J p.ctx) :
    ∀ m ∈ p.digestTurns o token status size, On J m.1 := by
  unfold Pipe.digestTurns
  dsimp only
  have h0 : On J (p.push (.responded token status size)).ctx := hi.pushed _ rfl h
  generalize p.push (.responded token status size) = p at h0
  split
  · exact hi.evalTurns _ h0
  · rename_i pending _
    have h1 : On J ((p.removeToken token).setResponse status size).ctx := by
      unfold Pipe.setResponse
      split <;> exact h0
    have h2 := hi.task pending _ h1
    generalize pending.apply o ((p.removeToken token).setResponse status size).ctx = q at h2
    obtain ⟨out, c⟩ := q
    cases out with
    | done => exact hi.evalTurns _ (hi.pushed (.completed pending.id) rfl h2)
    | requeued ts => exact hi.evalTurns _ (hi.pushed (.completed pending.id) rfl h2)
    | deferred token t => exact hi.evalTurns _ h2
    | failed => exact hi.evalTurns _ (hi.pushed (.failed pending.id) rfl h2)
    | terminate => intro m hm; cases hm

theorem HostInv.stepTurns (f : Filter H) (e : Event H) (h : J e.host f.log) :
    ∀ m ∈ f.stepTurns o e, On J m.1 := by
  unfold Filter.stepTurns
  split
  · intro m hm; cases hm
  · split
    · intro m hm; cases hm
    · cases e with
      | requestBody host size eos => exact hi.evalTurns _ h
      | responseHeaders host => exact hi.evalTurns _ (hi.push _ _ .allowed rfl h)
      | responseBody host size eos => exact hi.evalTurns _ h
      | grpcResponse host token status size => exact hi.digestTurns _ _ _ _ h

theorem HostInv.asked {a c : Ctx H} (h : On J a) (ha : Asked o a c) : On J c := by
  induction ha with
  | none => exact h
  | attributes e _ ih => exact hi.attrs _ e ih
  | value vars e _ ih => exact hi.resolve _ vars e ih
  | headers t _ ih => exact hi.getHeaders _ t ih
  | @body c d s s' _ hr ih =>
    have := hi.storeBody c s ih
    rw [hr] at this
    exact this

theorem HostInv.prepared {a c : Ctx H} (h : On J a) (ha : Prepared o a c) : On J c := by
  induction ha with
  | none => exact h
  | hostname _ ih => exact hi.hostname _ ih
  | ensured es _ ih => exact hi.ensure _ es ih
  | attributes e _ ih => exact hi.attrs _ e ih
  | value vars e _ ih => exact hi.resolve _ vars e ih
  | headers t _ ih => exact hi.getHeaders _ t ih
  | named name _ ih => exact ih

end

section
variable {W : Type}

theorem trailFrom_snoc (w : World W) (l : List (Event W)) (e : Event W) (s : Session W) :
    w.trailFrom s (l ++ [e]) =
      w.trailFrom s l ++ [e.map fun world => { (l.foldl w.callback s).host with world }] := by
  induction l generalizing s with
  | nil => rfl
  | cons a l ih => simp only [List.cons_append, World.trailFrom, ih, List.foldl_cons]

theorem trail_snoc (w : World W) (factory : Factory) (world : W) (l : List (Event W)) (e : Event W) :
    w.trail factory world (l ++ [e]) =
      w.trail factory world l ++ [e.map fun world' => { (w.session factory world l).host with world := world' }] :=
  trailFrom_snoc w l e _

/-- The filter of a session is a filter, and invariants of the host hold at all its moments. -/
theorem session_trail (w : World W) (factory : Factory) (world : W) (events : List (Event W)) :
    (w.trail factory world events).map (Event.map Attrs.world) = events ∧
      (w.session factory world events).filter = Filter.run w.oracle factory { world } (w.trail factory world events) ∧
      ∀ J, HostInv w.oracle J → (∀ p, factory.build w.oracle { host := { world } } = .pipeline p → On J p.ctx) →
        (∀ pre e post, events = pre ++ e :: post →
          J (w.session factory world pre).host (w.session factory world pre).filter.log →
          J { (w.session factory world pre).host with world := e.host } (w.session factory world pre).filter.log) →
        ∀ p, factory.build w.oracle { host := { world } } = .pipeline p →
          J (w.session factory world events).host (w.session factory world events).filter.log ∧
          ∀ c, Acting w.oracle factory { world } (w.trail factory world events) c → On J c := by
  induction events using snoc_ind with
  | nil =>
    refine ⟨rfl, ?_, ?_⟩
    · rw [session_nil, World.begin, Filter.run, World.trail, World.trailFrom, List.foldl_nil]
    · intro J hi h0 _ p hb
      have h2 : On J (p.push .hits).ctx := hi.pushed (c := p.ctx) _ rfl (h0 p hb)
      constructor
      · rw [session_nil]
        simp only [World.begin]
        unfold Filter.start Filter.startHost
        simp only [hb]
        refine hi.push _ _ _ rfl ?_
        simp only [Pipe.eval, store_log]
        exact hi.evalPipe _ h2
      · rintro c ⟨before, e, ts, hpre, hm⟩
        have := List.prefix_nil.1 hpre
        cases e with
        | some e => simp at this
        | none =>
          simp only [Filter.turnsAt, Filter.startTurns, hb] at hm
          exact hi.evalTurns _ h2 _ hm
  | snoc l e ih =>
    obtain ⟨hl, hf, ih⟩ := ih
    rw [trail_snoc]
    generalize w.trail factory world l = l' at hl hf ih
    refine ⟨?_, ?_, ?_⟩
    · rw [List.map_append, hl]
      cases e <;> rfl
    · rw [session_snoc]
      generalize w.session factory world l = s at hf ⊢
      rw [World.callback, Filter.run, List.foldl_append, List.foldl_cons, List.foldl_nil, hf, Filter.run]
    · intro J hi h0 hev p hb
      obtain ⟨h1, h2⟩ := ih J hi h0 (fun pre e' post hp => hev pre e' (post ++ [e]) (by rw [hp]; simp)) p hb
      have h3 := hev l e [] rfl h1
      have h4 := hi.step (w.session factory world l).filter
        (e.map fun world' => { (w.session factory world l).host with world := world' }) (by rw [map_host]; exact h3)
      constructor
      · rw [session_snoc]
        exact h4
      · rintro c ⟨before, e', ts, hpre, hm⟩
        by_cases hin : before ++ e'.toList <+: l'
        · exact h2 c ⟨before, e', ts, hin, hm⟩
        · rcases List.prefix_concat_iff.1 (by simpa using hpre) with heq | h
          · cases e' with
            | none =>
              simp only [Filter.turnsAt, Filter.startTurns, hb] at hm
              exact hi.evalTurns _ (hi.pushed (c := p.ctx) .hits rfl (h0 p hb)) _ hm
            | some e' =>
              obtain ⟨rfl, h5⟩ := List.append_inj' heq rfl
              cases h5
              simp only [Filter.turnsAt, ← hf] at hm
              refine hi.stepTurns _ _ ?_ _ hm
              rw [map_host]
              exact h3
          · exact absurd h hin

theorem session_moments (w : World W) (factory : Factory) (world : W) (events : List (Event W)) :
    ∃ events', events'.map (Event.map Attrs.world) = events ∧
      (w.session factory world events).filter = Filter.run w.oracle factory { world } events' ∧
      ∀ J, HostInv w.oracle J → (∀ p, factory.build w.oracle { host := { world } } = .pipeline p → On J p.ctx) →
        (∀ pre e post, events = pre ++ e :: post →
          J (w.session factory world pre).host (w.session factory world pre).filter.log →
          J { (w.session factory world pre).host with world := e.host } (w.session factory world pre).filter.log) →
        ∀ p, factory.build w.oracle { host := { world } } = .pipeline p →
          J (w.session factory world events).host (w.session factory world events).filter.log ∧
          ∀ c, Acting w.oracle factory { world } events' c → On J c :=
  ⟨_, session_trail w factory world events⟩

end

end Verif
