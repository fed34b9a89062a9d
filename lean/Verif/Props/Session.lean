import Verif.Lemmas.World
import Verif.Lemmas.CelCongr
import Verif.Spec.Session
import Verif.Props.Attributes
import Verif.Props.Hosted
set_option linter.unusedSimpArgs false
/-!
A request on its host: header changes add up (C63), attributes are read once (C64), what the host's answers mean
(C65) and what the host is asked to do (C66).
-/
namespace Verif.Props
open Spec

section
variable {W : Type} {w : World W}

theorem written_snoc (t : Target) (l : List Effect) (e : Effect) :
    written t (l ++ [e]) = match e with
      | .headersSet t' hs => if t' = t then some hs else written t l
      | _ => written t l := by
  unfold written
  rw [List.foldl_append]
  rfl

theorem written_inner {t : Target} {l : List Effect} {e : Effect} (h : ∀ hs, e ≠ .headersSet t hs) :
    written t (l ++ [e]) = written t l := by
  rw [written_snoc]
  cases e <;> first | rfl | skip
  rename_i t' hs
  simp only
  split
  · rename_i he; subst he; exact absurd rfl (h hs)
  · rfl

/-! ### C63 -/

/-- Every header map in the history is the one written before with changes. -/
def Chained (given : Target → Headers → Prop) (log : List Effect) : Prop :=
  ∀ pre t new post, log = pre ++ .headersSet t new :: post →
    ∃ old pairs, pairs ≠ [] ∧ new = setAll old pairs ∧
      match written t pre with
      | some hs => old = hs
      | none => given t old

/-- What is known of a header map. -/
def Remembers (given : Target → Headers → Prop) (s : Attrs W) (log : List Effect) (t : Target) : Prop :=
  match written t log with
  | some hs => ∃ v, mapGet s.cache (headersPath t).print = some v ∧ ∀ m, v = .headers m → m = hs
  | none => (∀ m, mapGet s.cache (headersPath t).print = some (.headers m) → given t m) ∧
      ∀ m, w.abi.getMap s.world t = .ok m → given t m

theorem fetch_headers {abi : Abi W} {x : W} {p : Path} {m : Headers}
    (h : (fetchAttribute abi.backend x p).1 = .ok (.headers m)) :
    ∃ t, p = headersPath t ∧ abi.getMap x t = .ok m := by
  have hm : ∀ t, (abi.backend.getMap x t).1 = .ok m → abi.getMap x t = .ok m := by
    intro t ht
    simp only [Abi.backend, Abi.map] at ht
    split at ht
    · rename_i m' hm'
      split at ht
      · cases ht
      · cases ht; exact hm'
    · cases ht
  unfold fetchAttribute at h
  split at h
  · rename_i hp
    refine ⟨.request, hp, hm _ ?_⟩
    generalize abi.backend.getMap x .request = q at h
    obtain ⟨r, y⟩ := q
    cases r with
    | ok v => cases h; rfl
    | error e => cases e <;> cases h
  · split at h
    · rename_i hp
      refine ⟨.response, hp, hm _ ?_⟩
      generalize abi.backend.getMap x .response = q at h
      obtain ⟨r, y⟩ := q
      cases r with
      | ok v => cases h; rfl
      | error e => cases e <;> cases h
    · split at h
      · generalize remoteAddress abi.backend x = q at h
        obtain ⟨r, y⟩ := q
        cases r <;> cases h
      · generalize abi.backend.getAttr x (if p.head? = some "auth".toList then wasmProp p else p) = q at h
        obtain ⟨r, y⟩ := q
        cases r <;> cases h

theorem headersPath_print {t t' : Target} (h : (headersPath t).print = (headersPath t').print) : t = t' := by
  cases t <;> cases t' <;> first | rfl | (revert h; decide)

theorem chained_inner {given : Target → Headers → Prop} {l : List Effect} {e : Effect}
    (h : Chained given l) (he : ∀ t hs, e ≠ .headersSet t hs) : Chained given (l ++ [e]) := by
  intro pre t new post hl
  rcases List.eq_nil_or_concat post with hp | ⟨post', x, hp⟩
  · subst hp
    have := List.append_inj_right' hl rfl
    exact absurd (List.cons.inj this).1 (he t new)
  · subst hp
    rw [List.concat_eq_append, ← List.cons_append, ← List.append_assoc] at hl
    exact h pre t new post' (List.append_inj_left' hl rfl)

theorem chained_sets {given : Target → Headers → Prop} {l : List Effect} {t : Target} {old pairs : Headers}
    (h : Chained given l) (hp : pairs ≠ [])
    (ho : match written t l with
      | some hs => old = hs
      | none => given t old) : Chained given (l ++ [.headersSet t (setAll old pairs)]) := by
  intro pre t' new post hl
  rcases List.eq_nil_or_concat post with hp' | ⟨post', x, hp'⟩
  · subst hp'
    have h1 := List.append_inj_right' hl rfl
    have h2 := List.append_inj_left' hl rfl
    cases h1
    subst h2
    exact ⟨old, pairs, hp, rfl, ho⟩
  · subst hp'
    rw [List.concat_eq_append, ← List.cons_append, ← List.append_assoc] at hl
    exact h pre t' new post' (List.append_inj_left' hl rfl)

/-- The map a header action starts from. -/
theorem remembers_old {given : Target → Headers → Prop} {s : Attrs W} {l : List Effect} {t : Target} {old : Headers}
    (h : Remembers (w := w) given s l t) (hc : mapGet s.cache (headersPath t).print = some (.headers old)) :
    match written t l with
    | some hs => old = hs
    | none => given t old := by
  unfold Remembers at h
  split
  · rename_i hs hw
    rw [hw] at h
    obtain ⟨v, hv, hm⟩ := h
    rw [hv] at hc
    exact hm old (Option.some.inj hc)
  · rename_i hw
    rw [hw] at h
    exact h.1 old hc

theorem remembers_world {given : Target → Headers → Prop} {s : Attrs W} {l l' : List Effect} {t : Target} {y : W}
    (h : Remembers (w := w) given s l t) (hl : written t l' = written t l)
    (hy : w.abi.getMap y t = w.abi.getMap s.world t) : Remembers (w := w) given { s with world := y } l' t := by
  unfold Remembers at h ⊢
  rw [hl]
  split
  · rename_i hs hw
    rw [hw] at h
    exact h
  · rename_i hw
    rw [hw] at h
    exact ⟨h.1, fun m hm => h.2 m (hy ▸ hm)⟩

theorem chain_inv (hk : KeepsMaps w.abi) (given : Target → Headers → Prop) :
    SessionInv w fun s l => Chained given l ∧ ∀ t, Remembers (w := w) given s l t where
  push s l e he h :=
    have hn : ∀ t hs, e ≠ .headersSet t hs := fun t hs h' => by subst h'; cases he
    ⟨chained_inner h.1 hn, fun t => remembers_world (h.2 t) (written_inner (hn t)) rfl⟩
  grows s s' l hg h := by
    refine ⟨h.1, fun t => ?_⟩
    have ht := h.2 t
    unfold Remembers at ht ⊢
    split
    · rename_i hs hw
      rw [hw] at ht
      obtain ⟨v, hv, hm⟩ := ht
      exact ⟨v, hg.kept _ _ hv, hm⟩
    · rename_i hw
      rw [hw] at ht
      refine ⟨fun m hm => ?_, fun m hm => ht.2 m (hg.world ▸ hm)⟩
      cases hg.new _ _ hm with
      | inl h1 => exact ht.1 m h1
      | inr h1 =>
        obtain ⟨p, hp, hf⟩ := h1
        obtain ⟨t', ht', hm'⟩ := fetch_headers hf
        subst ht'
        cases headersPath_print hp
        exact ht.2 m hm'
  dispatch c svc m rid id guard call h _ _ _ _ _ _ := by
    have hy := hk.dispatch c.host.world call
    generalize w.abi.dispatch c.host.world call = q at hy
    obtain ⟨r, y⟩ := q
    cases r with
    | ok token =>
      exact ⟨chained_inner h.1 (fun _ _ h => (nomatch h)),
        fun t => remembers_world (h.2 t) (written_inner (fun _ h => (nomatch h))) (hy t)⟩
    | error e => exact ⟨h.1, fun t => remembers_world (h.2 t) rfl (hy t)⟩
  exported c call h _ _ _ := by
    have hy := hk.dispatch c.host.world call
    generalize w.abi.dispatch c.host.world call = q at hy
    obtain ⟨r, y⟩ := q
    cases r with
    | ok token =>
      exact ⟨chained_inner h.1 (fun _ _ h => (nomatch h)),
        fun t => remembers_world (h.2 t) (written_inner (fun _ h => (nomatch h))) (hy t)⟩
    | error e => exact ⟨h.1, fun t => remembers_world (h.2 t) rfl (hy t)⟩
  reply s l status hs body h := by
    have hy := hk.reply s.world status hs (body.map utf8)
    generalize w.abi.reply s.world status hs (body.map utf8) = q at hy
    obtain ⟨r, y⟩ := q
    cases r <;>
      exact ⟨chained_inner h.1 (fun _ _ h => (nomatch h)),
        fun t => remembers_world (h.2 t) (written_inner (fun _ h => (nomatch h))) (hy t)⟩
  headers s l t old pairs h hc hp := by
    have ho := remembers_old (h.2 t) hc
    have hother := fun t' (ht' : t' ≠ t) => hk.other s.world t t' (setAll old pairs) ht'
    have href := hk.refused s.world t (setAll old pairs)
    generalize w.abi.setMap s.world t (setAll old pairs) = q at hother href
    obtain ⟨r, y⟩ := q
    cases r with
    | ok u =>
      refine ⟨chained_sets h.1 hp ho, fun t' => ?_⟩
      by_cases ht : t' = t
      · subst ht
        unfold Remembers
        rw [written_snoc]
        simp only [if_true]
        refine ⟨.headers (setAll old pairs), ?_, fun m hm => (Cached.headers.inj hm).symm⟩
        simp only [Attrs.insert, mapGet_mapInsert, if_true]
      · have hw : written t' (l ++ [.headersSet t (setAll old pairs)]) = written t' l :=
          written_inner fun hs he => ht (Effect.headersSet.inj he).1.symm
        have hp' : ¬ (headersPath t').print = (headersPath t).print := fun e => ht (headersPath_print e)
        have h1 := remembers_world (w := w) (h.2 t') hw (hother t' ht)
        unfold Remembers at h1 ⊢
        simp only [Attrs.insert, mapGet_mapInsert, if_neg hp']
        exact h1
    | error e =>
      refine ⟨h.1, fun t' => remembers_world (h.2 t') rfl ?_⟩
      by_cases ht : t' = t
      · subst ht; exact href e rfl
      · exact hother t' ht
  property s l path v h := by
    have hy := hk.property s.world (Attrs.hostPath (Path.parse path)) v
    generalize w.abi.setProperty s.world (Attrs.hostPath (Path.parse path)) v = q at hy
    obtain ⟨r, y⟩ := q
    cases r with
    | error e => exact ⟨h.1, fun t => remembers_world (h.2 t) rfl (hy t)⟩
    | ok u =>
      refine ⟨chained_inner h.1 (fun _ _ h => (nomatch h)), fun t => ?_⟩
      have hw : written t (l ++ [.attrSet path v true]) = written t l := written_inner fun _ h => (nomatch h)
      have h1 := remembers_world (w := w) (h.2 t) hw (hy t)
      unfold Remembers at h1 ⊢
      simp only [Attrs.insert, mapGet_mapInsert]
      split
      · rename_i hs hw'
        rw [hw'] at h1
        split
        · exact ⟨_, rfl, fun m hm => (nomatch hm)⟩
        · exact h1
      · rename_i hw'
        rw [hw'] at h1
        refine ⟨fun m hm => ?_, h1.2⟩
        split at hm
        · cases hm
        · exact h1.1 m hm

/-- C63: changes of headers add up. Each header map the filter writes is the one it wrote before, or else one the host
had when one of the callbacks so far began, with some headers set: these have the new values, and all others are as
they were. Nothing the filter set earlier in the request is lost. -/
theorem C63_changes_add_up (w : World W) (hk : KeepsMaps w.abi) (factory : Factory) (world : W)
    (events : List (Event W)) (pre post : List Effect) (t : Target) (new : Headers)
    (h : (w.session factory world events).filter.log = pre ++ .headersSet t new :: post) :
    ∃ old pairs, pairs ≠ [] ∧ Replaced old pairs new ∧
      match written t pre with
      | some hs => old = hs
      | none => ∃ x ∈ world :: events.map Event.host, w.abi.getMap x t = .ok old := by
  let given : Target → Headers → Prop :=
    fun t m => ∃ x ∈ world :: events.map Event.host, w.abi.getMap x t = .ok m
  have h0 : Chained given [] ∧ ∀ t, Remembers (w := w) given { world } [] t := by
    refine ⟨fun pre t new post hl => ?_, fun t => ⟨fun m hm => (nomatch hm), fun m hm => ⟨world, by simp, hm⟩⟩⟩
    cases pre <;> cases hl
  have := (chain_inv hk given).hostInv.session factory world events h0
    (by
      intro pre e post he h
      refine ⟨h.1, fun t => ?_⟩
      have ht := h.2 t
      unfold Remembers at ht ⊢
      split
      · rename_i hs hw
        rw [hw] at ht
        exact ht
      · rename_i hw
        rw [hw] at ht
        exact ⟨ht.1, fun m hm => ⟨e.host, by rw [he]; simp, hm⟩⟩)
  obtain ⟨old, pairs, hp, hn, ho⟩ := this.1 pre t new post h
  exact ⟨old, pairs, hp, hn ▸ setAll_replaced old pairs, ho⟩

-- Two actions set headers; the second keeps what the first set.
example : KeepsMaps Hosted.world.abi ∧
    Demo.view (Hosted.world.session (Hosted.factory [Hosted.headers "headers", Hosted.headers "more"]) {} []).filter.log =
      ["hits", "start 0", "headers :path=/,x=1", "completed 0", "start 1", "headers :path=/,x=1,y=2", "completed 1",
        "continue"] :=
  ⟨Hosted.keepsMaps, by decide +kernel⟩

theorem takes_inv (hk : KeepsMaps w.abi) (ht : TakesMaps w.abi) :
    SessionInv w fun s l => ∀ t hs, written t l = some hs → w.abi.getMap s.world t = .ok hs where
  push s l e he h t hs hw :=
    have hn : ∀ hs, e ≠ .headersSet t hs := fun hs h' => by subst h'; cases he
    h t hs (written_inner hn ▸ hw)
  grows s s' l hg h t hs hw := hg.world ▸ h t hs hw
  dispatch c svc m rid id guard call h _ _ _ _ _ _ := by
    have hy := hk.dispatch c.host.world call
    generalize w.abi.dispatch c.host.world call = q at hy
    obtain ⟨r, y⟩ := q
    cases r with
    | ok token =>
      intro t hs hw
      rw [written_snoc] at hw
      exact (hy t).trans (h t hs hw)
    | error e => exact fun t hs hw => (hy t).trans (h t hs hw)
  exported c call h _ _ _ := by
    have hy := hk.dispatch c.host.world call
    generalize w.abi.dispatch c.host.world call = q at hy
    obtain ⟨r, y⟩ := q
    cases r with
    | ok token =>
      intro t hs hw
      rw [written_snoc] at hw
      exact (hy t).trans (h t hs hw)
    | error e => exact fun t hs hw => (hy t).trans (h t hs hw)
  reply s l status hs body h := by
    have hy := hk.reply s.world status hs (body.map utf8)
    generalize w.abi.reply s.world status hs (body.map utf8) = q at hy
    obtain ⟨r, y⟩ := q
    cases r <;>
    · intro t hs hw
      rw [written_snoc] at hw
      exact (hy t).trans (h t hs hw)
  headers s l t old pairs h hc hp := by
    have hother := fun t' (ht' : t' ≠ t) => hk.other s.world t t' (setAll old pairs) ht'
    have href := hk.refused s.world t (setAll old pairs)
    have hok := ht s.world t (setAll old pairs)
    generalize w.abi.setMap s.world t (setAll old pairs) = q at hother href hok
    obtain ⟨r, y⟩ := q
    cases r with
    | ok u =>
      intro t' hs hw
      by_cases he : t' = t
      · subst he
        rw [written_snoc] at hw
        simp only [if_true, Option.some.injEq] at hw
        subst hw
        exact hok rfl
      · rw [written_inner fun hs h' => he (Effect.headersSet.inj h').1.symm] at hw
        exact (hother t' he).trans (h t' hs hw)
    | error e =>
      intro t' hs hw
      by_cases he : t' = t
      · subst he; exact (href e rfl).trans (h t' hs hw)
      · exact (hother t' he).trans (h t' hs hw)
  property s l path v h := by
    have hy := hk.property s.world (Attrs.hostPath (Path.parse path)) v
    generalize w.abi.setProperty s.world (Attrs.hostPath (Path.parse path)) v = q at hy
    obtain ⟨r, y⟩ := q
    cases r with
    | error e => exact fun t hs hw => (hy t).trans (h t hs hw)
    | ok u =>
      intro t hs hw
      rw [written_snoc] at hw
      exact (hy t).trans (h t hs hw)

/-- C63: if nobody else changes a header map after the filter has written it, the map at the end of any callback is
the one the filter wrote last. With `C63_changes_add_up` it holds every change of the request. -/
theorem C63_host_has_last (w : World W) (hk : KeepsMaps w.abi) (ht : TakesMaps w.abi) (factory : Factory) (world : W)
    (events : List (Event W))
    (hev : ∀ pre e post, events = pre ++ e :: post →
      ∀ t, (written t (w.session factory world pre).filter.log).isSome →
        w.abi.getMap e.host t = w.abi.getMap (w.session factory world pre).host.world t)
    (t : Target) (hs : Headers) (h : written t (w.session factory world events).filter.log = some hs) :
    w.abi.getMap (w.session factory world events).host.world t = .ok hs :=
  (takes_inv hk ht).hostInv.session factory world events (fun t hs h => (nomatch h))
    (fun pre e post he h t hs hw => (hev pre e post he t (by rw [hw]; rfl)).trans (h t hs hw)) t hs h

-- The map the host has at the end.
example : TakesMaps Hosted.world.abi ∧
    (Hosted.world.session (Hosted.factory [Hosted.headers "headers", Hosted.headers "more"]) {} []).host.world.request =
      [(":path".toList, "/".toList), ("x".toList, "1".toList), ("y".toList, "2".toList)] :=
  ⟨Hosted.takesMaps, by decide +kernel⟩

/-! ### C64 -/

theorem snapshot_inv (k : Text) (v : Cached) (l0 : List Effect) :
    SessionInv w fun s l => ∃ new, l = l0 ++ new ∧
      ((∃ e ∈ new, WritesKey k e) ∨ mapGet s.cache k = some v) where
  push s l e _ h := by
    obtain ⟨new, rfl, h⟩ := h
    refine ⟨new ++ [e], by rw [List.append_assoc], h.imp (fun ⟨x, hx, hw⟩ => ⟨x, ?_, hw⟩) id⟩
    exact List.mem_append_left _ hx
  grows s s' l hg h := by
    obtain ⟨new, rfl, h⟩ := h
    exact ⟨new, rfl, h.imp id (hg.kept _ _)⟩
  dispatch c svc m rid id guard call h _ _ _ _ _ _ := by
    obtain ⟨new, hl, h⟩ := h
    generalize w.abi.dispatch c.host.world call = q
    obtain ⟨r, y⟩ := q
    cases r with
    | ok token =>
      refine ⟨new ++ [_], by rw [hl, List.append_assoc], h.imp (fun ⟨x, hx, hw⟩ => ⟨x, ?_, hw⟩) _root_.id⟩
      exact List.mem_append_left _ hx
    | error e => exact ⟨new, hl, h⟩
  exported c call h _ _ _ := by
    obtain ⟨new, hl, h⟩ := h
    generalize w.abi.dispatch c.host.world call = q
    obtain ⟨r, y⟩ := q
    cases r with
    | ok token =>
      refine ⟨new ++ [_], by rw [hl, List.append_assoc], h.imp (fun ⟨x, hx, hw⟩ => ⟨x, ?_, hw⟩) id⟩
      exact List.mem_append_left _ hx
    | error e => exact ⟨new, hl, h⟩
  reply s l status hs body h := by
    obtain ⟨new, hl, h⟩ := h
    generalize w.abi.reply s.world status hs (body.map utf8) = q
    obtain ⟨r, y⟩ := q
    cases r <;>
    · refine ⟨new ++ [_], by rw [hl, List.append_assoc], h.imp (fun ⟨x, hx, hw⟩ => ⟨x, ?_, hw⟩) id⟩
      exact List.mem_append_left _ hx
  headers s l t old pairs h hc hp := by
    obtain ⟨new, hl, h⟩ := h
    generalize w.abi.setMap s.world t (setAll old pairs) = q
    obtain ⟨r, y⟩ := q
    cases r with
    | ok u =>
      refine ⟨new ++ [_], by rw [hl, List.append_assoc], ?_⟩
      by_cases hk : k = (headersPath t).print
      · exact .inl ⟨_, List.mem_append_right _ (.head _), hk⟩
      · refine h.imp (fun ⟨x, hx, hw⟩ => ⟨x, List.mem_append_left _ hx, hw⟩) fun h => ?_
        simp only [Attrs.insert, mapGet_mapInsert, if_neg hk]
        exact h
    | error e => exact ⟨new, hl, h⟩
  property s l path v h := by
    obtain ⟨new, hl, h⟩ := h
    generalize w.abi.setProperty s.world (Attrs.hostPath (Path.parse path)) v = q
    obtain ⟨r, y⟩ := q
    cases r with
    | ok u =>
      refine ⟨new ++ [_], by rw [hl, List.append_assoc], ?_⟩
      by_cases hk : k = (Path.parse path).print
      · exact .inl ⟨_, List.mem_append_right _ (.head _), hk⟩
      · refine h.imp (fun ⟨x, hx, hw⟩ => ⟨x, List.mem_append_left _ hx, hw⟩) fun h => ?_
        simp only [Attrs.insert, mapGet_mapInsert, if_neg hk]
        exact h
    | error e => exact ⟨new, hl, h⟩

/-- C64: an attribute that was read once keeps its value for the rest of the request, whatever the host does to it in
the meantime, unless the filter itself writes it. -/
theorem C64_snapshot (w : World W) (factory : Factory) (world : W) (pre post : List (Event W)) (p : Path) (v : Cached)
    (h : (w.session factory world pre).host.cached p = some v) :
    ∃ new, (w.session factory world (pre ++ post)).filter.log = (w.session factory world pre).filter.log ++ new ∧
      ((∀ e ∈ new, ¬ WritesKey p.print e) → (w.session factory world (pre ++ post)).host.cached p = some v) := by
  have := (snapshot_inv (w := w) p.print v (w.session factory world pre).filter.log).hostInv.later factory world pre
    post ⟨[], (List.append_nil _).symm, .inr h⟩ (fun _ _ _ _ h => h)
  obtain ⟨new, hl, h⟩ := this
  refine ⟨new, hl, fun hn => ?_⟩
  cases h with
  | inl h => obtain ⟨e, he, hw⟩ := h; exact absurd hw (hn e he)
  | inr h => exact h

theorem read_cached {α : Type} {b : Backend W} {as : Cached → Except AttrErr α} {s : Attrs W} {p : Path} {v : Cached}
    (h : s.cached p = some v) : (s.read b as p).1 = answer as v := by
  unfold Attrs.read answer
  simp only [h]
  cases as v <;> rfl

theorem attrGet_cached {b : Backend W} {lib : JsonLib} {s : Attrs W} {p : Path} {v : Cached}
    (h : s.cached p = some v) : (attrGet b lib s p).1 = answer (attrVal lib (knownType p)) v := by
  rw [attrGet]
  exact read_cached h

/-- C64: so two evaluations of an expression at different times of a request give the same value, whatever the host
says, if the attributes it refers to were known by the first and have not been written by the filter; the stored values,
the fields of the bodies and the variables being the same. (Expressions that use `request.grpc` are excluded, see
`C64_grpc_not_remembered`.) -/
theorem C64_expression (w : World W) (c c' : Ctx (Attrs W)) (vars : List (Text × Val)) (e : Expr) (text : CelExpr)
    (x : CompiledExpr) (hx : w.compiled e = some (text, x)) (hgrpc : x.needsGrpc = false)
    (hstore : w.store c = w.store c') (hreq : c.req.values = c'.req.values) (hresp : c.resp.values = c'.resp.values)
    (hp : ∀ p ∈ x.attributes, ∀ root, p.head? = some root →
      (isHostRoot root = true ∨ (w.store c).hasPrefix (root ++ ['.']) = true) →
      ∃ v, c.host.cached p = some v ∧ c'.host.cached p = some v) :
    (w.oracle.resolve c vars e).1 = (w.oracle.resolve c' vars e).1 := by
  simp only [World.oracle, hx, hgrpc, Bool.false_eq_true, if_false]
  rw [← hstore, ← hreq, ← hresp]
  rw [celVars_congr (w.store c) (fun p => (attrGet w.abi.backend w.lib.json c.host p).1)
    (fun p => (attrGet w.abi.backend w.lib.json c'.host p).1) none c.req.values c.resp.values vars x
    (fun p hpm root hr hq => by
      obtain ⟨v, h1, h2⟩ := hp p hpm root hr hq
      simp only [attrGet_cached h1, attrGet_cached h2])]
  generalize celVars (w.store c) (fun p => (attrGet w.abi.backend w.lib.json c'.host p).1) none c.req.values
    c.resp.values vars x = r
  cases r <;> rfl

-- The host says `/b` when the expression is evaluated again, but `/a` is what the filter writes.
example : Hosted.properties (Hosted.world.session (Hosted.factory (Hosted.twice "request.path")) {}
    [.grpcResponse { path := "/b".toList } 0 0 1]).filter.log = [("b".toList, utf8 "/a".toList)] := by
  decide +kernel

/-- C64 does not extend to `request.grpc`: the content type it depends on is asked from the host each time. Here the
action that stores it fails once the host has another content type, although the first one could store it. -/
theorem C64_grpc_not_remembered :
    let host : Hosted.Proxy := { request := [("content-type".toList, "application/grpc".toList)] }
    let f := Hosted.factory (Hosted.twice "request.grpc.service")
    Hosted.properties (Hosted.world.session f host [.grpcResponse host 0 0 1]).filter.log =
      [("b".toList, utf8 "shop.Cart".toList)] ∧
    Hosted.properties (Hosted.world.session f host [.grpcResponse {} 0 0 1]).filter.log = [] ∧
    Demo.view (Hosted.world.session f host [.grpcResponse {} 0 0 1]).filter.log =
      ["hits", "start 0", "stored a", "completed 0", "start 1", "call 1 guard token 0", "pause", "response 0 status 0",
        "completed 1", "start 1.0", "failed 1.0", "resume request"] := by
  decide +kernel

/-! ### C65 -/

theorem written_inv : SessionInv w fun _ l => ∀ path v, Effect.attrSet path v false ∉ l where
  push s l e he h path v hm := by
    cases List.mem_append.mp hm with
    | inl hm => exact h path v hm
    | inr hm => rw [← List.mem_singleton.mp hm] at he; cases he
  grows s s' l _ h := h
  dispatch c svc m rid id guard call h _ _ _ _ _ _ := by
    generalize w.abi.dispatch c.host.world call = q
    obtain ⟨r, y⟩ := q
    cases r with
    | ok token => intro path v hm; exact h path v (by simpa using hm)
    | error e => exact h
  exported c call h _ _ _ := by
    generalize w.abi.dispatch c.host.world call = q
    obtain ⟨r, y⟩ := q
    cases r with
    | ok token => intro path v hm; exact h path v (by simpa using hm)
    | error e => exact h
  reply s l status hs body h := by
    generalize w.abi.reply s.world status hs (body.map utf8) = q
    obtain ⟨r, y⟩ := q
    cases r <;> (intro path v hm; exact h path v (by simpa using hm))
  headers s l t old pairs h hc hp := by
    generalize w.abi.setMap s.world t (setAll old pairs) = q
    obtain ⟨r, y⟩ := q
    cases r with
    | ok u => intro path v hm; exact h path v (by simpa using hm)
    | error e => exact h
  property s l path v h := by
    generalize w.abi.setProperty s.world (Attrs.hostPath (Path.parse path)) v = q
    obtain ⟨r, y⟩ := q
    cases r with
    | ok u => intro path v hm; exact h path v (by simpa using hm)
    | error e => exact h

/-- C65: the host never makes the filter drop a write of a property silently: it is written or the action fails. -/
theorem C65_no_dropped_write (w : World W) (factory : Factory) (world : W) (events : List (Event W)) (path : Text)
    (v : Bytes) : Effect.attrSet path v false ∉ (w.session factory world events).filter.log :=
  written_inv.hostInv.session factory world events (fun _ _ h => (nomatch h)) (fun _ _ _ _ h => h) path v

-- A property is written.
example : Effect.attrSet "b".toList (utf8 "/a".toList) true ∈ (Hosted.world.session
    (Hosted.factory [Hosted.store "b" "request.path" true]) {} []).filter.log := by
  have : Hosted.properties (Hosted.world.session (Hosted.factory [Hosted.store "b" "request.path" true]) {} []).filter.log =
      [("b".toList, utf8 "/a".toList)] := by decide +kernel
  have hm : ("b".toList, utf8 "/a".toList) ∈ Hosted.properties (Hosted.world.session
      (Hosted.factory [Hosted.store "b" "request.path" true]) {} []).filter.log := by rw [this]; exact .head _
  obtain ⟨e, he, hp⟩ := List.mem_filterMap.mp hm
  split at hp
  · cases hp; exact he
  · cases hp

/-- Attributes that are not read in a special way. -/
def Ordinary (p : Path) : Prop :=
  p ≠ headersPath .request ∧ p ≠ headersPath .response ∧ p ≠ ["source".toList, "remote_address".toList] ∧
    p.head? ≠ some "auth".toList

/-- C65: what the host says about an attribute that was not read before. A host that does not have it yet makes the
action wait; a missing attribute is null; any other failure is an error. Only answers are remembered. -/
theorem C65_property (a : Abi W) (s : Attrs W) (p : Path) (hp : Ordinary p) (hc : s.cached p = none) {α : Type}
    (as : Cached → Except AttrErr α) :
    s.read a.backend as p = match a.getProperty s.world p with
      | .ok bytes => (answer as (.bytes bytes), s.insert p (.bytes bytes))
      | .error .badArgument => (.pending, s)
      | .error (.other _) => (.err, s) := by
  obtain ⟨h1, h2, h3, h4⟩ := hp
  unfold Attrs.read fetchAttribute
  simp only [hc, if_neg h1, if_neg h2, if_neg h3, if_neg h4, Abi.backend, Abi.property]
  generalize a.getProperty s.world p = q
  match q with
  | .ok bytes => rfl
  | .error .badArgument => rfl
  | .error (.other _) => rfl

example : Ordinary ["response".toList, "code".toList] ∧
    Hosted.abi.getProperty {} ["response".toList, "code".toList] = .error .badArgument := by
  refine ⟨by unfold Ordinary; decide, rfl⟩

/-- C65: what the host says about a header map that was not read before. A response without headers has not arrived;
a request always has headers, so an empty map is an error. -/
theorem C65_headers (a : Abi W) (s : Attrs W) (t : Target) (hc : s.cached (headersPath t) = none) :
    s.read a.backend asHeaders (headersPath t) = match a.getMap s.world t with
      | .ok [] => (if t = .response then .pending else .err, s)
      | .ok (h :: hs) => (.available (h :: hs), s.insert (headersPath t) (.headers (h :: hs)))
      | .error _ => (.err, s) := by
  have hne : headersPath .response ≠ headersPath .request := by decide
  unfold Attrs.read fetchAttribute
  simp only [hc]
  cases t with
  | request =>
    simp only [if_true, Abi.backend, Abi.map]
    generalize a.getMap s.world .request = q
    match q with
    | .ok [] => rfl
    | .ok (_ :: _) => rfl
    | .error _ => rfl
  | response =>
    simp only [if_neg hne, if_true, Abi.backend, Abi.map]
    generalize a.getMap s.world .response = q
    match q with
    | .ok [] => rfl
    | .ok (_ :: _) => rfl
    | .error _ => rfl

/-- C65: a response is usable exactly if it is not empty, the host hands its bytes over and they are a message of the
service. -/
theorem C65_response (w : World W) (c : Ctx (Attrs W)) (svc : Svc) (size : Nat) (v : Val) :
    (w.oracle.response c svc size).1 = some v ↔ size ≠ 0 ∧ ∃ bytes,
      w.abi.getBuffer c.host.world .grpcResponse 0 size = .ok (some bytes) ∧ w.lib.decode svc bytes = some v := by
  simp only [World.oracle, Abi.grpcResponse]
  split
  · rename_i h; simp [h]
  · rename_i h
    generalize w.abi.getBuffer c.host.world .grpcResponse 0 size = q
    match q with
    | .ok none => simp
    | .ok (some bytes) => simp [h]
    | .error e => simp

-- An action that changes response headers waits for the response.
example : Demo.view (Hosted.world.session (Hosted.factory [Hosted.headers "headers" .response]) {}
    [.responseHeaders { response := [("a".toList, "b".toList)] }]).filter.log =
      ["hits", "start 0", "continue", "allowed", "start 0", "headers a=b,x=1", "completed 0", "continue"] := by
  decide +kernel

/-- C65, against the expectation that every message of the service is an answer: a message whose fields all have their
default values is encoded in no bytes at all. A service that answers so is treated as failed by an action that acts on
answers, and the request is denied where the failure mode says so. The service here decodes any bytes. -/
theorem C65_empty_answer_fails :
    (∀ bytes, Hosted.world.lib.decode (Demo.svc "deny") bytes ≠ none) ∧
    Demo.view (Hosted.world.session (Hosted.factory [Demo.grpc "deny" [Demo.headers]]) {}
      [.grpcResponse {} 0 0 0]).filter.log =
      ["hits", "start 0", "call 0 guard token 0", "pause", "response 0 status 0", "call failed 0", "errors", "denied",
        "reply 500", "ended"] ∧
    Demo.view (Hosted.world.session (Hosted.factory [Demo.grpc "deny" [Demo.headers]]) {}
      [.grpcResponse {} 0 0 1]).filter.log =
      ["hits", "start 0", "call 0 guard token 0", "pause", "response 0 status 0", "completed 0", "start 0.0",
        "headers :path=/,x=1", "completed 0.0", "resume request"] :=
  ⟨fun _ h => (nomatch h), by decide +kernel, by decide +kernel⟩

/-- C65: what the host says about a part of a body. -/
theorem C65_body (w : World W) (c : Ctx (Attrs W)) (start size : Nat) :
    (w.oracle.readBody c .request start size).1 = (match w.abi.getBuffer c.host.world .requestBody start size with
      | .ok bytes => .available bytes
      | .error .badArgument => .pending
      | .error (.other _) => .err) ∧
    (w.oracle.readBody c .response start size).1 = (match w.abi.getBuffer c.host.world .responseBody start size with
      | .ok bytes => .available bytes
      | .error .badArgument => .pending
      | .error (.other _) => .err) := by
  simp only [World.oracle, Abi.body]
  refine ⟨?_, ?_⟩
  · generalize w.abi.getBuffer c.host.world .requestBody start size = q
    match q with
    | .ok bytes => rfl
    | .error .badArgument => rfl
    | .error (.other _) => rfl
  · generalize w.abi.getBuffer c.host.world .responseBody start size = q
    match q with
    | .ok bytes => rfl
    | .error .badArgument => rfl
    | .error (.other _) => rfl

/-! ### C66 -/

theorem not_asks {e : Effect} (h : e.inner = true) : ¬ Asks e := by
  cases e <;> first | exact id | cases h

theorem told_inv {calls : W → List HostCall} (hr : Records w.abi calls) :
    SessionInv w fun s l => Told (calls s.world) l where
  push s l e he h := .inner h (not_asks he)
  grows s s' l hg h := by rw [hg.world]; exact h
  dispatch c svc m rid id guard call h hu hs hm hmsg ht hh := by
    have hy := hr.grpc c.host.world call
    generalize w.abi.dispatch c.host.world call = q at hy
    obtain ⟨r, y⟩ := q
    subst hmsg
    cases r with
    | ok token => simp only at hy ⊢; rw [hy]; exact .call h (.grpc hu hs hm ht hh)
    | error e => simp only at hy ⊢; rw [hy]; exact .refused h .grpc
  exported c call h _ hs hm := by
    have hy := hr.grpc c.host.world call
    generalize w.abi.dispatch c.host.world call = q at hy
    obtain ⟨r, y⟩ := q
    cases r with
    | ok token => simp only at hy ⊢; rw [hy]; exact .call h (.exported hs hm)
    | error e => simp only at hy ⊢; rw [hy]; exact .refused h .grpc
  reply s l status hs body h := by
    have hy := hr.reply s.world status hs (body.map utf8)
    generalize w.abi.reply s.world status hs (body.map utf8) = q at hy
    obtain ⟨r, y⟩ := q
    cases r with
    | ok u => simp only at hy ⊢; rw [hy]; exact .call h .reply
    | error e => simp only at hy ⊢; rw [hy]; exact .call h .replyRefused
  headers s l t old pairs h hc hp := by
    have hy := hr.setMap s.world t (setAll old pairs)
    generalize w.abi.setMap s.world t (setAll old pairs) = q at hy
    obtain ⟨r, y⟩ := q
    cases r with
    | ok u => simp only [Attrs.insert] at hy ⊢; rw [hy]; exact .call h .setMap
    | error e => simp only at hy ⊢; rw [hy]; exact .refused h .setMap
  property s l path v h := by
    have hy := hr.setProperty s.world (Attrs.hostPath (Path.parse path)) v
    generalize w.abi.setProperty s.world (Attrs.hostPath (Path.parse path)) v = q at hy
    obtain ⟨r, y⟩ := q
    cases r with
    | ok u => simp only [Attrs.insert] at hy ⊢; rw [hy]; exact .call h .setProperty
    | error e => simp only at hy ⊢; rw [hy]; exact .refused h .setProperty

/-- C66: the calls the host gets for a request are exactly those of the history, in the same order: gRPC calls to the
configured upstream, service and method with the configured timeout, the built message and the request id, trace
exports, replies, header maps and properties under their prefixed path. The only other calls are ones the host
refused. -/
theorem C66_calls (w : World W) (calls : W → List HostCall) (hr : Records w.abi calls) (factory : Factory) (world : W)
    (events : List (Event W)) (h0 : calls world = [])
    (hev : ∀ pre e post, events = pre ++ e :: post →
      calls e.host = calls (w.session factory world pre).host.world) :
    Told (calls (w.session factory world events).host.world) (w.session factory world events).filter.log :=
  (told_inv hr).hostInv.session factory world events (h0 ▸ .nil)
    (fun pre e post he h => by simp only; rw [hev pre e post he]; exact h)

-- A call and a header map.
example : Records Hosted.world.abi Hosted.Proxy.calls ∧
    (Hosted.world.session (Hosted.factory [Demo.grpc "deny", Hosted.headers "more"]) {} []).host.world.calls.length = 2 ∧
    Demo.view (Hosted.world.session (Hosted.factory [Demo.grpc "deny", Hosted.headers "more"]) {} []).filter.log =
      ["hits", "start 0", "call 0 guard token 0", "start 1", "headers :path=/,y=2", "completed 1", "pause"] :=
  ⟨Hosted.records, by decide +kernel, by decide +kernel⟩

end

end Verif.Props
