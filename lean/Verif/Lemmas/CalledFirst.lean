import Verif.Lemmas.Called
import Verif.Lemmas.Gate
import Verif.Props.Fate
/-! What happens first in a request. -/
namespace Verif
open Spec Props

variable {H : Type} {o : Oracle H}

/-- The first task of the queue is started first, if it waits for nothing. -/
theorem evalPipe_first (p : Pipe H) (t : PTask) (ts : List PTask) (hq : p.queue = t :: ts) (hd : t.deps = []) :
    ∃ es, (p.evalPipe o).ctx.log = p.ctx.log ++ .applied t.id :: es := by
  let B : Pipe H → Prop := fun q => Grew (p.ctx.log ++ [.applied t.id]) q.ctx.log
  have := evalPipe_ind o (fun q l => (q = { p with queue := [] } ∧ l = t :: ts) ∨ B q) B B
    (fun q u us h hu => by
      rcases h with ⟨rfl, h⟩ | h
      · cases h
        rw [hd] at hu
        simp at hu
      · exact .inr h)
    (fun q u us out c h _ ha _ => by
      refine .inr ?_
      have h1 := apply_grew o (q.ctx.push (.applied u.id)) u
      rw [ha] at h1
      rcases h with ⟨rfl, h⟩ | h
      · cases h
        exact h1.trans (after_grew _ t.id out)
      · exact ((Grew.snoc (e := .applied u.id) h rfl).trans h1).trans (after_grew { q with ctx := c } u.id out))
    (fun q u us t' c h _ ha => by
      have h1 := apply_grew o (q.ctx.push (.applied u.id)) u
      rw [ha] at h1
      rcases h with ⟨rfl, h⟩ | h
      · cases h
        exact h1.trans (terminate_grew o _ t')
      · exact ((Grew.snoc (e := .applied u.id) h rfl).trans h1).trans (terminate_grew o { q with ctx := c } t'))
    (fun q h => Grew.trans h (executeTeardown_grew o q))
    (fun q h _ _ => by
      rcases h with ⟨-, h⟩ | h
      · cases h
      · exact .inr (Grew.trans h (executeTeardown_grew o q)))
    p (.inl ⟨rfl, hq⟩)
  have h : B (p.evalPipe o) := by
    rcases this with (⟨-, h⟩ | h) | h
    · cases h
    · exact h
    · exact h
  obtain ⟨es, h, -⟩ := h
  exact ⟨es, by rw [h]; simp⟩

/-- The first action is started as soon as the request is accepted, unless tokens are to be counted for it. -/
theorem first_started {parse : Text → Option Expr} {cfg : PluginConfig} {factory : Factory} {host : H} {s : ActionSet}
    (hs : ServedBy o parse cfg factory host s) (events : List (Event H))
    (hhit : .hits ∈ (Filter.run o factory host events).log) (hne : s.actions ≠ [])
    (htok : .applied "token_usage".toList ∉ (Filter.run o factory host events).log) :
    ∃ post, (Filter.run o factory host events).log = .hits :: .applied (natText 0) :: post := by
  obtain ⟨p, hb⟩ := hits_built hhit
  obtain ⟨b, hbuilt, hfs⟩ := servedBy_fromSet hs hb
  obtain ⟨xs, hxs, hloop⟩ := hfs.actions
  obtain ⟨a, as, hact⟩ := List.exists_cons_of_ne_nil hne
  have hdeps : ∃ rest, computeDeps s.actions = [] :: rest := by
    rw [hact]
    cases a with
    | legacy => exact ⟨_, rfl⟩
    | typed a =>
      simp only [computeDeps, depLoop, depStep]
      split <;> exact ⟨_, rfl⟩
  obtain ⟨rest, hdeps⟩ := hdeps
  rw [hdeps, hact, List.zip_cons_cons] at hloop
  obtain ⟨hlen, hall⟩ := compileLoop_compiled parse cfg.services 0 _ _ hloop
  cases xs with
  | nil => simp at hlen
  | cons x xs =>
    obtain ⟨t, y, -, hc, rfl⟩ := hall 0 a [] x rfl rfl
    have hid : (y.withDeps []).head.id = natText 0 ∧ (y.withDeps []).head.deps = [] := by
      cases hc <;> exact ⟨rfl, rfl⟩
    have htops := hbuilt.tops
    rw [hxs] at htops
    have hfirst : (∃ fields l, p.queue = .core (.tokenUsage none fields) :: l) ∨
        ∃ k l, p.queue = k :: l ∧ k.id = natText 0 ∧ k.deps = [] := by
      generalize p.queue = q at htops
      cases htops with
      | cons _ _ ts ts' h _ =>
        generalize y.withDeps [] = z at h hid
        cases h with
        | call head kind svc deny var msg acts k pre w hk hp =>
          rcases hp with rfl | ⟨fields, rfl⟩
          · refine .inr ⟨_, _, rfl, ?_, ?_⟩
            · have := hk.id
              cases w <;> exact this.trans hid.1
            · cases hk
              cases w <;> exact hid.2
          · exact .inl ⟨fields, _, rfl⟩
        | other _ k hk ha =>
          refine .inr ⟨_, _, rfl, hk.id.trans hid.1, ?_⟩
          cases hk with
          | call => exact absurd rfl (ha _ _ _ _ _ _ _)
          | _ => rfl
    have hlog : (p.push .hits).ctx.log = [.hits] := by simp [Pipe.push, Ctx.push, hbuilt.quiet.log]
    have hrun : ∀ k l, p.queue = k :: l → k.deps = [] →
        ∃ post, (Filter.run o factory host events).log = .hits :: .applied k.id :: post := by
      intro k l hq hd
      obtain ⟨es, hes⟩ := evalPipe_first (o := o) (p.push .hits) k l hq hd
      obtain ⟨more, hmore⟩ := run_more (o := o) factory host [] events
      rw [List.nil_append] at hmore
      have h0 : (Filter.run o factory host []).log = ((p.push .hits).evalPipe o).ctx.log ++
          [.returned .requestHeaders (Filter.store {} ((p.push .hits).evalPipe o).state).shouldPause] := by
        show (Filter.start o factory host).log = _
        rw [start_pipeline factory host p hb]
        unfold Pipe.state
        split <;> rfl
      rw [hmore, h0, hes, hlog]
      exact ⟨_, rfl⟩
    rcases hfirst with ⟨fields, l, h⟩ | ⟨k, l, h, h1, h2⟩
    · obtain ⟨post, h⟩ := hrun _ _ h rfl
      rw [h] at htok
      exact absurd (List.mem_cons_of_mem _ (List.mem_cons_self ..)) htok
    · rw [← h1]
      exact hrun _ _ h h2

end Verif
