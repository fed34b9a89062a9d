import Verif.Lemmas.Bindings
import Verif.Spec.Told
import Verif.Props.Store
/-! C26 along whole requests. -/
set_option linter.unusedSimpArgs false
namespace Verif.Props
open Verif Spec

variable {H : Type} {o : Oracle H}

theorem joinWith_snoc (l : List Text) (hl : l ≠ []) (x : Text) :
    joinWith ['.'] (l ++ [x]) = joinWith ['.'] l ++ '.' :: x := by
  induction l with
  | nil => exact absurd rfl hl
  | cons a l ih =>
    cases l with
    | nil => simp [joinWith]
    | cons b l =>
      have := ih (by simp)
      simp only [List.cons_append, joinWith] at this ⊢
      rw [this]
      simp

theorem at_place {services : Text → Option SvcInst} {s : ActionSet} {x : Text} {t : TypedAction}
    (h : At services s x t) : ∃ p, p ≠ [] ∧ x = actionId p := by
  induction h with
  | @top i => exact ⟨[i], by simp, by simp [actionId, joinWith]⟩
  | @reply id head service var message replies j t h hj ih =>
    obtain ⟨p, hp, rfl⟩ := ih
    refine ⟨p ++ [j], by simp, ?_⟩
    unfold actionId
    rw [List.map_append, List.map_cons, List.map_nil, joinWith_snoc _ (by simpa using hp)]

section
variable {parse : Text → Option Expr} {cfg : PluginConfig} {factory : Factory} {host : H} {s : ActionSet}

theorem moment_voiced (hs : ServedBy o parse cfg factory host s) {x : Text} {head : TypedHead}
    {service var message : Text} {replies : List TypedAction}
    (hat : At cfg.services s x (.grpc head service var message replies)) (hne : replies ≠ [])
    (before : List (Event H)) (e : Option (Event H)) (c : Ctx H) (tasks : List PTask)
    (hm : (c, tasks) ∈ Filter.turnsAt o factory host before e) (hf : Fresh c.log) :
    ∃ kind svc deny, cfg.services service = some (.call kind svc deny) ∧
      (WellAnswered c.log x → ∃ v, (x, (var, v)) ∈ c.bindings) ∧
      (∀ m w, (x, (m, w)) ∈ c.bindings → m = var ∧ WellAnswered c.log x ∧
        Heard o (Hearing o factory host (before ++ e.toList)) x svc w c.log) := by
  by_cases hb : ∃ p, factory.build o { host := host } = .pipeline p
  · obtain ⟨p, hb⟩ := hb
    obtain ⟨b, hbuilt, hfs⟩ := servedBy_fromSet hs hb
    obtain ⟨y, hy⟩ := fromSet_compiled hfs hat
    obtain ⟨kind, svc, deny, hsvc⟩ : ∃ kind svc deny, cfg.services service = some (.call kind svc deny) := by
      cases hy with
      | grpc _ _ _ _ _ _ pred kind svc deny msg acts hp hs => exact ⟨_, _, _, hs⟩
    have hj : replies[0]? = some (replies.head hne) := by
      cases replies with
      | nil => exact absurd rfl hne
      | cons a l => rfl
    have hatj : At cfg.services s (x ++ '.' :: natText 0) (replies.head hne) := .reply hat hj
    have hbs0 : (p.push .hits).ctx.bindings = [] := hbuilt.quiet.bindings
    have hlog0 : (p.push .hits).ctx.log = [.hits] := by simp [Pipe.push, Ctx.push, hbuilt.quiet.log]
    have hmo := (voiced_extra (o := o) (svc := svc) (var := var) (n := replies.length) hat.plainly.teardown
      hatj.plainly.teardown).turnsAt factory host (before ++ e.toList) p hb
      ⟨built_tied hbuilt hfs hat hj, fromSet_replier hbuilt hfs hat hsvc,
        fun _ h => by rw [hlog0] at h; obtain ⟨⟨_, _, _, _, _, h⟩, _⟩ := h; simp at h,
        fun _ m w h => (by rw [hbs0] at h; cases h),
        fun _ m w m' w' h => (by rw [hbs0] at h; cases h)⟩ before e (List.prefix_refl _) _ hm
    obtain ⟨q, t, rest, hl, hv, heq⟩ := hmo
    cases heq
    have hf' : Fresh q.ctx.log := by
      have : Fresh (q.ctx.log ++ [.applied t.id]) := hf
      exact this.prefix
    have hw : WellAnswered (q.ctx.push (.applied t.id)).log x ↔ WellAnswered q.ctx.log x :=
      well_aside (b := [.applied t.id]) (by simp [Effect.still])
    refine ⟨kind, svc, deny, hsvc, fun h => hv.told hf' (hw.1 h), fun m w h => ?_⟩
    obtain ⟨h1, h2, h3⟩ := hv.bound hf' m w h
    exact ⟨h1, hw.2 h2, h3.append [.applied t.id]⟩
  · rw [idle_turns factory host (fun p hp => hb ⟨p, hp⟩) before e] at hm
    cases hm

theorem moment_voices (hs : ServedBy o parse cfg factory host s) (before : List (Event H)) (e : Option (Event H))
    (c : Ctx H) (tasks : List PTask) (hm : (c, tasks) ∈ Filter.turnsAt o factory host before e) :
    ∀ b ∈ c.bindings, ∃ head service var message replies,
      At cfg.services s b.1 (.grpc head service var message replies) ∧ replies ≠ [] := by
  by_cases hb : ∃ p, factory.build o { host := host } = .pipeline p
  · obtain ⟨p, hb⟩ := hb
    obtain ⟨b, hbuilt, hfs⟩ := servedBy_fromSet hs hb
    have hbs0 : (p.push .hits).ctx.bindings = [] := hbuilt.quiet.bindings
    have hmo := (voices_extra (o := o) cfg.services s).turnsAt factory host p hb
      ⟨(fromSet_voice hbuilt hfs : Tasks (Voice cfg.services s) p []), by rw [hbs0]; intro e he; cases he⟩ before e _ hm
    obtain ⟨q, t, rest, hl, hv, heq⟩ := hmo
    cases heq
    exact hv.bound
  · rw [idle_turns factory host (fun p hp => hb ⟨p, hp⟩) before e] at hm
    cases hm

/-- C26, along whole requests: whenever an action is applied, an expression of the action at `q` sees a variable
exactly if one of the calls the action is nested in binds it and was answered well; the value is then what the
response of the innermost such call decoded to. -/
theorem C26_session (hs : ServedBy o parse cfg factory host s) (before : List (Event H)) (e : Option (Event H))
    (c : Ctx H) (tasks : List PTask) (hm : (c, tasks) ∈ Filter.turnsAt o factory host before e) (hf : Fresh c.log)
    (q : List Nat) (hq : q ≠ []) (name : Text) :
    match (scopeVars c.bindings (actionId q)).lookup name with
    | some v => ∃ p head service message replies kind svc deny, Innermost cfg.services s c.log name q p ∧
        At cfg.services s (actionId p) (.grpc head service name message replies) ∧
        cfg.services service = some (.call kind svc deny) ∧
          Heard o (Hearing o factory host (before ++ e.toList)) (actionId p) svc v c.log
    | none => ∀ p, p <+: q → ¬ToldBy cfg.services s c.log name p := by
  have hall := moment_voices hs before e c tasks hm
  obtain ⟨made, hmade, hne⟩ : ∃ made : Bound, c.bindings = made.map (fun b => (actionId b.1, b.2)) ∧ ∀ b ∈ made, b.1 ≠ [] := by
    generalize c.bindings = bs at hall
    clear hm hf
    induction bs with
    | nil => exact ⟨[], rfl, by simp⟩
    | cons b bs ih =>
      obtain ⟨made, h1, h2⟩ := ih fun x hx => hall x (by simp [hx])
      obtain ⟨_, _, _, _, _, hat, _⟩ := hall b (by simp)
      obtain ⟨p, hp, hbp⟩ := at_place hat
      refine ⟨(p, b.2) :: made, by rw [List.map_cons, ← h1, ← hbp], ?_⟩
      intro x hx
      rcases List.mem_cons.1 hx with rfl | hx
      · exact hp
      · exact h2 x hx
  have hin : ∀ {p n v}, (p, (n, v)) ∈ made → (actionId p, (n, v)) ∈ c.bindings := by
    intro p n v h
    rw [hmade]
    exact List.mem_map.2 ⟨_, h, rfl⟩
  have hback : ∀ {p n v}, (p, (n, v)) ∈ made → ∃ head service message replies kind svc deny,
      At cfg.services s (actionId p) (.grpc head service n message replies) ∧ replies ≠ [] ∧
      cfg.services service = some (.call kind svc deny) ∧ WellAnswered c.log (actionId p) ∧
      
          Heard o (Hearing o factory host (before ++ e.toList)) (actionId p) svc v c.log := by
    intro p n v h
    obtain ⟨head, service, var, message, replies, hat, hr⟩ := hall _ (hin h)
    obtain ⟨kind, svc, deny, hsvc, _, hb⟩ := moment_voiced hs hat hr before e c tasks hm hf
    obtain ⟨rfl, h2, h3⟩ := hb n v (hin h)
    exact ⟨head, service, message, replies, kind, svc, deny, hat, hr, hsvc, h2, h3⟩
  have hforth : ∀ {p}, p ≠ [] → ToldBy cfg.services s c.log name p → ∃ v, (p, (name, v)) ∈ made := by
    rintro p hp ⟨head, service, message, replies, hat, hr, hw⟩
    obtain ⟨kind, svc, deny, hsvc, ht, _⟩ := moment_voiced hs hat hr before e c tasks hm hf
    obtain ⟨v, hv⟩ := ht hw
    rw [hmade] at hv
    obtain ⟨⟨p', nv⟩, hm', heq⟩ := List.mem_map.1 hv
    simp only [Prod.mk.injEq] at heq
    have := actionId_inj (hne _ hm') hp heq.1
    subst this
    rw [heq.2] at hm'
    exact ⟨v, hm'⟩
  have hnil : ∀ {p}, ToldBy cfg.services s c.log name p → p ≠ [] := by
    rintro p ⟨head, service, message, replies, hat, _⟩ rfl
    obtain ⟨p, hp, h⟩ := at_place hat
    have h0 : actionId p = [] := h.symm
    cases p with
    | nil => exact hp rfl
    | cons i p =>
      have hnt : natText i ≠ [] := natText_ne_nil i
      unfold actionId at h0
      cases p with
      | nil => simp [joinWith] at h0; exact hnt h0
      | cons j p => simp [joinWith] at h0
  have hsee := seen_sees made hne q hq name
  have hlook : (scopeVars c.bindings (actionId q)).lookup name = seen made q name := by rw [hmade]; rfl
  rw [hlook]
  rcases hsee with ⟨h1, h2⟩ | ⟨v, h1, hv⟩
  · rw [h1]
    intro p hp ht
    obtain ⟨v, hv⟩ := hforth (hnil ht) ht
    exact h2 p v hv hp
  · rw [h1]
    obtain ⟨a, p, b, hab, hp, hinner, _⟩ := hv
    obtain ⟨head, service, message, replies, kind, svc, deny, hat, hr, hsvc, hw, hh⟩ := hback (p := p) (n := name) (v := v)
      (by rw [hab]; simp)
    refine ⟨p, head, service, message, replies, kind, svc, deny, ⟨hp, ⟨_, _, _, _, hat, hr, hw⟩, ?_⟩, hat, hsvc, hh⟩
    intro p' hp' ht'
    obtain ⟨v', hv'⟩ := hforth (hnil ht') ht'
    exact hinner p' v' hv' hp'

end

end Verif.Props
