import Verif.Lemmas.Cause
import Verif.Lemmas.Turns
import Verif.Lemmas.DuePaths
import Verif.Lemmas.Verdict
import Verif.Props.Attributes
/-! The value store of a request holds only values of its store actions. -/
set_option linter.unusedSimpArgs false
namespace Verif
open Spec

section
variable {H : Type} {o : Oracle H}

theorem justified_frame {V F : Ctx H → Prop} {parse : Text → Option Expr} {cfg : PluginConfig} {s : ActionSet}
    {c c' : Ctx H} (h : Justified o V F parse cfg s c) (hf : Frame c c') : Justified o V F parse cfg s c' := by
  obtain ⟨es, hlog, hes⟩ := hf.log
  have hq : ∀ e ∈ es, e.acts = false := by
    intro e he
    have := hes e he
    cases e <;> simp_all [Effect.isFilter, Effect.acts]
  have hn : ∀ e ∈ es, ∀ acc, noteStored acc e = acc := by
    intro e he acc
    have := hes e he
    cases e <;> simp_all [Effect.isFilter, noteStored]
  refine ⟨?_, hf.tracker.trans h.tracker, ?_⟩
  · rw [hf.values, h.values, hlog, storedIn_append]
    generalize storedIn c.log = acc
    clear hlog hq hes
    induction es generalizing acc with
    | nil => rfl
    | cons e es ih =>
      rw [List.foldl_cons, hn e (List.mem_cons_self ..)]
      exact ih (fun e he => hn e (List.mem_cons_of_mem _ he)) acc
  · rw [hlog]
    exact split_quiet h.cause hq

/-- The context of an action is justified. -/
theorem acting_justified {parse : Text → Option Expr} {cfg : PluginConfig} {factory : Factory} {host : H}
    {s : ActionSet} (hs : ServedBy o parse cfg factory host s) {events : List (Event H)} {c : Ctx H}
    (hc : Acting o factory host events c) :
    Justified o (Acting o factory host events) (Fetching o factory host events) parse cfg s c := by
  obtain ⟨before, e, ts, hpre, hm⟩ := hc
  by_cases hb : ∃ p, factory.build o { host := host } = .pipeline p
  · obtain ⟨p, hb⟩ := hb
    obtain ⟨b, hbuilt, hfs⟩ := servedBy_fromSet hs hb
    have hbeg := servedBy_begun hs hb
    have hinv := justified_inv parse cfg s Props.setAll_replaced (trivial_joint o)
      (V := Acting o factory host events) (F := Fetching o factory host events) (R := Hearing o factory host events)
      (S := Acting o factory host events) (fun _ _ _ h => h)
      (fun c id _ _ _ _ _ st _ c1 _ _ h hr => ⟨_, h, Asked.none.body hr⟩)
    have hextra : ExtraAt o (Acting o factory host events) (Hearing o factory host events)
        (fun (p : Pipe H) todo => Tasks (fun k => Known o parse cfg s k ∧ True) p todo ∧
          Justified o (Acting o factory host events) (Fetching o factory host events) parse cfg s p.ctx ∧ True)
        (fun p => Justified o (Acting o factory host events) (Fetching o factory host events) parse cfg s p.ctx ∧ True)
        (fun p => Justified o (Acting o factory host events) (Fetching o factory host events) parse cfg s p.ctx ∧ True) :=
      { hinv.within with
        frame := fun p c' _ hx hf => ⟨hx.1, justified_frame hx.2.1 hf, trivial⟩
        frameD := fun p c' _ hz hf => ⟨justified_frame hz.1 hf, trivial⟩ }
    have h0 : Justified o (Acting o factory host events) (Fetching o factory host events) parse cfg s
        (p.push .hits).ctx := by
      refine ⟨?_, hbeg.tracker, ?_⟩
      · show p.ctx.values = storedIn (p.ctx.log ++ [.hits])
        rw [hbeg.log]
        exact hbuilt.quiet.values
      · show ∀ pre e post, p.ctx.log ++ [.hits] = _ → _
        rw [hbeg.log]
        exact split_quiet (log := []) (fun pre e post h => by simp at h) (by simp [Effect.acts])
    obtain ⟨q, t, rest, _, hx, heq⟩ := hextra.turnsAt factory host events p hb
      ⟨fun t ht => Core.All.imp (fun _ h => ⟨h, trivial⟩) (fromSet_known hbuilt hfs hbeg t ht), h0, trivial⟩
      before e hpre _ hm
    cases heq
    have h := hx.2.1
    refine ⟨?_, h.tracker, ?_⟩
    · show q.ctx.values = storedIn (q.ctx.log ++ [.applied t.id])
      rw [storedIn_append]
      exact h.values
    · show ∀ pre e post, q.ctx.log ++ [.applied t.id] = _ → _
      exact split_quiet h.cause (by simp [Effect.acts])
  · rw [idle_turns factory host (fun p hp => hb ⟨p, hp⟩) before e] at hm
    cases hm

theorem asked_values {a c : Ctx H} (h : Asked o a c) : c.values = a.values := by
  induction h with
  | none => rfl
  | attributes _ _ ih => exact ih
  | value _ _ _ ih => exact ih
  | headers _ _ ih => exact ih
  | @body c d st st' _ hr ih =>
    rw [← ih]
    have := storeBody_values (o := o) c st
    rw [hr] at this
    exact this

/-- A value in the store is one that a store action of the set kept. -/
theorem fetching_values {parse : Text → Option Expr} {cfg : PluginConfig} {factory : Factory} {host : H}
    {s : ActionSet} (hs : ServedBy o parse cfg factory host s) {events : List (Event H)} {c : Ctx H}
    (hc : Fetching o factory host events c) {k : Text} {v : Val} (hm : (k, v) ∈ c.values) :
    ∃ x head source exported, At cfg.services s x (.store head k source exported) := by
  obtain ⟨a, ha, hask⟩ := hc
  have hj := acting_justified hs ha
  rw [asked_values hask, hj.values] at hm
  rcases storedIn_mem a.log [] hm with h | h
  · obtain ⟨pre, post, hlog⟩ := List.append_of_mem h
    have := hj.cause pre _ post hlog rfl
    cases this with
    | value hat => exact ⟨_, _, _, _, hat⟩
    | exported hat => exact ⟨_, _, _, _, hat⟩
  · cases h

end

end Verif
