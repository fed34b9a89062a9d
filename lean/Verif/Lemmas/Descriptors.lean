import Verif.Spec.Descriptors
import Verif.Lemmas.Attributes
import Verif.Lemmas.Basic
/-! The descriptor manager. -/
set_option linter.unusedSimpArgs false
namespace Verif
open Spec

variable {P H : Type} (lib : DescLib P)

theorem mapGet_orInsert {α β : Type} [DecidableEq α] (m : List (α × β)) (k k' : α) (v : β) :
    mapGet (orInsert m k v) k' = match mapGet m k' with
      | some w => some w
      | none => if k' = k then some v else none := by
  unfold orInsert
  by_cases h : (mapGet m k).isSome
  · rw [if_pos h]
    cases hm : mapGet m k' with
    | some w => rfl
    | none =>
      have hne : k' ≠ k := by rintro rfl; rw [hm] at h; exact nomatch h
      rw [if_neg hne]
  · rw [if_neg h, mapGet_mapInsert]
    by_cases he : k' = k
    · subst he
      rw [if_pos rfl]
      cases hm : mapGet m k' with
      | some w => rw [hm] at h; exact absurd rfl h
      | none => simp
    · rw [if_neg he]
      cases mapGet m k' <;> simp [he]

/-- The keys of a map are different from each other. -/
def UniqueKeys {α β : Type} (m : List (α × β)) : Prop := (m.map Prod.fst).Nodup

theorem uniqueKeys_mapInsert {α β : Type} [DecidableEq α] {m : List (α × β)} (h : UniqueKeys m) (k : α)
    (v : β) : UniqueKeys (mapInsert m k v) := by
  unfold UniqueKeys mapInsert
  rw [List.map_cons, List.nodup_cons]
  refine ⟨?_, ?_⟩
  · intro hm
    obtain ⟨e, he, hk⟩ := List.mem_map.1 hm
    have := (List.mem_filter.1 he).2
    simp only [decide_eq_true_eq] at this
    exact this hk
  · exact List.Nodup.sublist (List.Sublist.map _ List.filter_sublist) h

theorem uniqueKeys_orInsert {α β : Type} [DecidableEq α] {m : List (α × β)} (h : UniqueKeys m) (k : α)
    (v : β) : UniqueKeys (orInsert m k v) := by
  unfold orInsert
  split
  · exact h
  · exact uniqueKeys_mapInsert h k v

theorem mapGet_iff {α β : Type} [DecidableEq α] {m : List (α × β)} (h : UniqueKeys m) (k : α) (v : β) :
    mapGet m k = some v ↔ (k, v) ∈ m := by
  induction m with
  | nil => simp [mapGet]
  | cons e m ih =>
    obtain ⟨k0, v0⟩ := e
    unfold UniqueKeys at h
    rw [List.map_cons, List.nodup_cons] at h
    unfold mapGet at ih ⊢
    rw [List.find?_cons]
    by_cases hk : k0 = k
    · subst hk
      simp only [decide_true, Option.map_some, Option.some.injEq, List.mem_cons, Prod.mk.injEq, true_and]
      constructor
      · rintro rfl; exact .inl rfl
      · rintro (rfl | hm)
        · rfl
        · exact absurd (List.mem_map.2 ⟨_, hm, rfl⟩) h.1
    · simp only [hk, decide_false, List.mem_cons, Prod.mk.injEq]
      rw [ih h.2]
      constructor
      · exact .inr
      · rintro (⟨rfl, -⟩ | hm)
        · exact absurd rfl hk
        · exact hm

theorem mapGet_mapVals {α β : Type} [DecidableEq α] (m : List (α × β)) (f : β → β) (k : α) :
    mapGet (m.map fun e => (e.1, f e.2)) k = (mapGet m k).map f := by
  unfold mapGet
  rw [List.find?_map]
  simp only [Option.map_map, Function.comp_def]

theorem mapGet_foldl_pending (keys : List DescKey) (d : List (DescKey × DescState)) (token : Nat) (k : DescKey) :
    mapGet (keys.foldl (fun d k => mapInsert d k (.pending token)) d) k =
      if k ∈ keys then some (.pending token) else mapGet d k := by
  induction keys generalizing d with
  | nil => simp
  | cons x xs ih =>
    rw [List.foldl_cons, ih, mapGet_mapInsert]
    by_cases h : k ∈ xs
    · simp [h]
    · by_cases hx : k = x <;> simp [h, hx]

theorem unique_foldl_pending (keys : List DescKey) (d : List (DescKey × DescState)) (token : Nat)
    (h : UniqueKeys d) : UniqueKeys (keys.foldl (fun d k => mapInsert d k (.pending token)) d) := by
  induction keys generalizing d with
  | nil => exact h
  | cons x xs ih => exact ih _ (uniqueKeys_mapInsert h x _)

theorem mem_getMissing (m : Manager P) (h : UniqueKeys m.descriptors) (k : DescKey) :
    k ∈ m.getMissing ↔ mapGet m.descriptors k = some .missing := by
  rw [mapGet_iff h]
  unfold Manager.getMissing
  rw [List.mem_filterMap]
  constructor
  · rintro ⟨⟨k', s⟩, hm, he⟩
    cases s <;> simp at he
    subst he; exact hm
  · intro hm; exact ⟨_, hm, rfl⟩

theorem mapGet_resetPending (m : Manager P) (token : Nat) (k : DescKey) :
    mapGet (m.resetPending token).descriptors k =
      (mapGet m.descriptors k).map fun s => if s = .pending token then .missing else s := by
  unfold Manager.resetPending
  have : (m.descriptors.map fun e => if e.2 = .pending token then (e.1, DescState.missing) else e) =
      m.descriptors.map fun e => (e.1, (fun s => if s = .pending token then DescState.missing else s) e.2) := by
    apply List.map_congr_left
    rintro ⟨k, s⟩ -
    simp only
    split <;> rfl
  exact (congrArg (mapGet · k) this).trans (mapGet_mapVals m.descriptors
    (fun s => if s = .pending token then DescState.missing else s) k)

theorem unique_resetPending (m : Manager P) (token : Nat) (h : UniqueKeys m.descriptors) :
    UniqueKeys (m.resetPending token).descriptors := by
  unfold UniqueKeys Manager.resetPending at *
  rw [List.map_map]
  have : (Prod.fst ∘ fun e : DescKey × DescState =>
      if e.2 = .pending token then (e.1, DescState.missing) else e) = Prod.fst := by
    funext e; simp only [Function.comp]; split <;> rfl
  rw [this]; exact h

/-! ### Requests in flight -/

theorem outstanding_append_other {log : List RootEffect} {es : List RootEffect} {k : DescKey} {t : Nat}
    (h : Outstanding log k t) (hes : RootEffect.responded t ∉ es) : Outstanding (log ++ es) k t := by
  obtain ⟨a, u, ks, b, rfl, hk, hb⟩ := h
  exact ⟨a, u, ks, b ++ es, by simp, hk, by simp [hb, hes]⟩

theorem outstanding_request {log : List RootEffect} {u : Text} {ks : List DescKey} {tok : Option Nat}
    {k : DescKey} {t : Nat} (h : Outstanding (log ++ [.requested u ks tok]) k t) :
    Outstanding log k t ∨ (tok = some t ∧ k ∈ ks) := by
  obtain ⟨a, u', ks', b, he, hk, hb⟩ := h
  rcases List.eq_nil_or_concat b with rfl | ⟨b', x, rfl⟩
  · have := List.append_inj' he rfl
    obtain ⟨rfl, h2⟩ := this
    obtain ⟨h2, -⟩ := List.cons.inj h2
    cases h2
    exact .inr ⟨rfl, hk⟩
  · have he' : log ++ [.requested u ks tok] = (a ++ .requested u' ks' (some t) :: b') ++ [x] := by
      rw [he]; simp
    obtain ⟨rfl, -⟩ := List.append_inj' he' rfl
    exact .inl ⟨a, u', ks', b', rfl, hk, fun h => hb (by simp [h])⟩

theorem outstanding_respond {log : List RootEffect} {token : Nat} {k : DescKey} {t : Nat}
    (h : Outstanding (log ++ [.responded token]) k t) : Outstanding log k t ∧ t ≠ token := by
  obtain ⟨a, u', ks', b, he, hk, hb⟩ := h
  rcases List.eq_nil_or_concat b with rfl | ⟨b', x, rfl⟩
  · obtain ⟨-, h2⟩ := List.append_inj' he rfl
    exact nomatch (List.cons.inj h2).1
  · have he' : log ++ [.responded token] = (a ++ .requested u' ks' (some t) :: b') ++ [x] := by
      rw [he]; simp
    obtain ⟨rfl, h2⟩ := List.append_inj' he' rfl
    obtain ⟨rfl, -⟩ := List.cons.inj h2
    exact ⟨⟨a, u', ks', b', rfl, hk, fun h => hb (by simp [h])⟩, fun h => hb (by simp [h])⟩

/-! ### The embedded descriptors -/

theorem new_embedded (service : Text) (h : Nat)
    (he : mapGet (Manager.new lib).embedded service = some h) :
    ∃ bytes, embeddedBytes lib service = some bytes ∧ h = lib.hash bytes ∧ (lib.build bytes).isSome := by
  unfold Manager.new Manager.registerEmbedded at he
  unfold embeddedBytes
  cases hr : lib.build lib.ratelimit <;> cases ha : lib.build lib.auth <;>
    simp only [hr, ha, mapGet_mapInsert] at he
  · simp [mapGet] at he
  · split at he
    · rename_i hs; rw [if_pos (by rw [hs]; rfl)]; exact ⟨_, rfl, (Option.some.inj he).symm, by simp [ha]⟩
    · simp [mapGet] at he
  · split at he
    · rename_i hs
      rw [if_neg (by rw [hs]; decide), if_pos (.inr hs)]
      exact ⟨_, rfl, (Option.some.inj he).symm, by simp [hr]⟩
    · split at he
      · rename_i hs
        rw [if_neg (by rw [hs]; decide), if_pos (.inl hs)]
        exact ⟨_, rfl, (Option.some.inj he).symm, by simp [hr]⟩
      · simp [mapGet] at he
  · split at he
    · rename_i hs; rw [if_pos (by rw [hs]; rfl)]; exact ⟨_, rfl, (Option.some.inj he).symm, by simp [ha]⟩
    · split at he
      · rename_i hs
        rw [if_neg (by rw [hs]; decide), if_pos (.inr hs)]
        exact ⟨_, rfl, (Option.some.inj he).symm, by simp [hr]⟩
      · split at he
        · rename_i hs
          rw [if_neg (by rw [hs]; decide), if_pos (.inl hs)]
          exact ⟨_, rfl, (Option.some.inj he).symm, by simp [hr]⟩
        · simp [mapGet] at he

theorem new_embedded_some {service : Text} {bytes : Bytes} {pool : P}
    (he : embeddedBytes lib service = some bytes) (hb : lib.build bytes = some pool) :
    mapGet (Manager.new lib).embedded service = some (lib.hash bytes) := by
  unfold embeddedBytes at he
  unfold Manager.new Manager.registerEmbedded
  split at he
  · rename_i hs
    obtain rfl := Option.some.inj he
    cases hr : lib.build lib.ratelimit <;> simp only [hb, mapGet_mapInsert] <;>
      rw [if_pos (by rw [hs]; rfl)]
  · rename_i hs
    split at he
    · rename_i hs'
      obtain rfl := Option.some.inj he
      cases ha : lib.build lib.auth <;> simp only [hb, mapGet_mapInsert]
      · rcases hs' with hs' | hs'
        · rw [if_neg (by rw [hs']; decide), if_pos (by rw [hs']; rfl)]
        · rw [if_pos (by rw [hs']; rfl)]
      · rw [if_neg (by exact hs)]
        rcases hs' with hs' | hs'
        · rw [if_neg (by rw [hs']; decide), if_pos (by rw [hs']; rfl)]
        · rw [if_pos (by rw [hs']; rfl)]
    · exact nomatch he

theorem new_pools (H : Type) : (∀ h p, mapGet (Manager.new lib).pools h = some p →
      ∃ bytes, Seen lib ([] : List (VmOp H)) bytes ∧ h = lib.hash bytes ∧ lib.build bytes = some p) ∧
    (∀ service h, mapGet (Manager.new lib).embedded service = some h →
      (mapGet (Manager.new lib).pools h).isSome) := by
  constructor
  · intro h p hp
    unfold Manager.new Manager.registerEmbedded at hp
    cases hr : lib.build lib.ratelimit <;> cases ha : lib.build lib.auth <;>
      simp only [hr, ha, mapGet_orInsert] at hp
    · simp [mapGet] at hp
    · simp only [mapGet, List.find?_nil, Option.map_none] at hp
      split at hp
      · rename_i he; exact ⟨_, .inr (.inl rfl), he, by rw [ha]; exact hp⟩
      · exact nomatch hp
    · simp only [mapGet, List.find?_nil, Option.map_none] at hp
      by_cases he : h = lib.hash lib.ratelimit
      · simp [he] at hp; exact ⟨_, .inl rfl, he, by rw [hr, hp]⟩
      · simp [he] at hp
    · simp only [mapGet, List.find?_nil, Option.map_none] at hp
      by_cases he : h = lib.hash lib.ratelimit
      · simp [he] at hp; exact ⟨_, .inl rfl, he, by rw [hr, hp]⟩
      · simp [he] at hp
        exact ⟨_, .inr (.inl rfl), hp.1, by rw [ha, hp.2]⟩
  · intro service h he
    obtain ⟨bytes, hb, rfl, hs⟩ := new_embedded lib service h he
    unfold embeddedBytes at hb
    unfold Manager.new Manager.registerEmbedded
    split at hb
    · obtain rfl := Option.some.inj hb
      obtain ⟨p, hp⟩ := Option.isSome_iff_exists.1 hs
      cases hr : lib.build lib.ratelimit <;> simp only [hp, mapGet_orInsert, if_true] <;>
        split <;> simp
    · split at hb
      · obtain rfl := Option.some.inj hb
        obtain ⟨p, hp⟩ := Option.isSome_iff_exists.1 hs
        have h0 : mapGet ([] : List (Nat × P)) (lib.hash lib.ratelimit) = none := rfl
        cases ha : lib.build lib.auth <;> simp [hp, mapGet_orInsert, h0]
      · exact nomatch hb

/-! ### The invariant -/

/-- What holds of the manager after a history. -/
structure MInv (ops : List (VmOp H)) (log : List RootEffect) (m : Manager P) : Prop where
  unique : UniqueKeys m.descriptors
  emb : m.embedded = (Manager.new lib).embedded
  kept : ∀ h p, mapGet (Manager.new lib).pools h = some p → mapGet m.pools h = some p
  built : ∀ h p, mapGet m.pools h = some p → ∃ bytes, Seen lib ops bytes ∧ h = lib.hash bytes ∧ lib.build bytes = some p
  embedded : ∀ k h, mapGet m.descriptors k = some (.embedded h) → mapGet m.embedded k.service = some h
  missing : ∀ k, mapGet m.descriptors k = some .missing → mapGet m.embedded k.service = none
  pending : ∀ k t, mapGet m.descriptors k = some (.pending t) →
    mapGet m.embedded k.service = none ∧ Outstanding log k t
  resolved : ∀ k h, mapGet m.descriptors k = some (.resolved h) → (mapGet m.pools h).isSome ∧
    ∃ bytes pool, Received lib ops k bytes ∧ h = lib.hash bytes ∧ lib.build bytes = some pool ∧
      lib.hasService pool k.service = true
  waiting : ∀ k t, Outstanding log k t →
    mapGet m.descriptors k = some (.pending t) ∨ ∃ h, mapGet m.descriptors k = some (.resolved h)

variable {lib} {ops : List (VmOp H)} {log : List RootEffect} {m : Manager P}

theorem received_mono {ops more : List (VmOp H)} {k : DescKey} {b : Bytes} (h : Received lib ops k b) :
    Received lib (ops ++ more) k b := by
  obtain ⟨t, body, ds, hm, hd⟩ := h
  exact ⟨t, body, ds, List.mem_append_left _ hm, hd⟩

theorem seen_mono {ops more : List (VmOp H)} {b : Bytes} (h : Seen lib ops b) : Seen lib (ops ++ more) b := by
  rcases h with h | h | ⟨k, h⟩
  · exact .inl h
  · exact .inr (.inl h)
  · exact .inr (.inr ⟨k, received_mono h⟩)

theorem MInv.mono (h : MInv lib ops log m) (more : List (VmOp H)) : MInv lib (ops ++ more) log m :=
  { h with
    built := fun hh p hp =>
      have ⟨b, hb, h2⟩ := h.built hh p hp
      ⟨b, seen_mono hb, h2⟩
    resolved := fun k hh hk =>
      have ⟨h1, b, p, h2, h3⟩ := h.resolved k hh hk
      ⟨h1, b, p, received_mono h2, h3⟩ }

theorem minv_new : MInv lib ([] : List (VmOp H)) [] (Manager.new lib) := by
  have hd : (Manager.new lib).descriptors = [] := by
    unfold Manager.new Manager.registerEmbedded
    cases lib.build lib.ratelimit <;> cases lib.build lib.auth <;> rfl
  have hn : ∀ k, mapGet (Manager.new lib).descriptors k = none := fun k => by rw [hd]; rfl
  refine ⟨?_, rfl, fun h p hp => hp, (new_pools lib H).1, ?_, ?_, ?_, ?_, ?_⟩
  · rw [hd]; exact List.nodup_nil
  · intro k h hk; rw [hn] at hk; exact nomatch hk
  · intro k hk; rw [hn] at hk; exact nomatch hk
  · intro k t hk; rw [hn] at hk; exact nomatch hk
  · intro k h hk; rw [hn] at hk; exact nomatch hk
  · rintro k t ⟨a, u, ks, b, he, -⟩
    exact absurd (congrArg List.length he) (by simp)

theorem minv_setService (h : MInv lib ops log m) (s : Text) : MInv lib ops log (m.setService s) := by
  unfold Manager.setService
  split
  · exact h
  · exact { h with }

theorem minv_addExpected (h : MInv lib ops log m) (key : DescKey) : MInv lib ops log (m.addExpected key) := by
  have hget : ∀ k, mapGet (m.addExpected key).descriptors k = match mapGet m.descriptors k with
      | some w => some w
      | none => if k = key then some (match mapGet m.embedded key.service with
        | some hash => .embedded hash
        | none => .missing) else none := fun k => by
    refine (mapGet_orInsert _ _ _ _).trans ?_
    cases mapGet m.descriptors k <;> cases mapGet m.embedded key.service <;> rfl
  have hcase : ∀ {k s}, mapGet (m.addExpected key).descriptors k = some s →
      mapGet m.descriptors k = some s ∨ (k = key ∧ s = match mapGet m.embedded key.service with
        | some hash => .embedded hash
        | none => .missing) := by
    intro k s hs
    rw [hget] at hs
    split at hs
    · rename_i w hw; rw [hw]; exact .inl hs
    · split at hs
      · rename_i hk; exact .inr ⟨hk, (Option.some.inj hs).symm⟩
      · exact nomatch hs
  refine ⟨uniqueKeys_orInsert h.unique _ _, h.emb, h.kept, h.built, ?_, ?_, ?_, ?_, ?_⟩
  · intro k hh hk
    rcases hcase hk with hk | ⟨rfl, hk⟩
    · exact h.embedded k hh hk
    · split at hk
      · rename_i hash he; cases hk; exact he
      · exact nomatch hk
  · intro k hk
    rcases hcase hk with hk | ⟨rfl, hk⟩
    · exact h.missing k hk
    · split at hk
      · exact nomatch hk
      · rename_i he; exact he
  · intro k t hk
    rcases hcase hk with hk | ⟨rfl, hk⟩
    · exact h.pending k t hk
    · split at hk <;> exact nomatch hk
  · intro k hh hk
    rcases hcase hk with hk | ⟨rfl, hk⟩
    · exact h.resolved k hh hk
    · split at hk <;> exact nomatch hk
  · intro k t ho
    have : ∀ s, mapGet m.descriptors k = some s → mapGet (m.addExpected key).descriptors k = some s := by
      intro s hs; rw [hget, hs]
    rcases h.waiting k t ho with h1 | ⟨hh, h1⟩
    · exact .inl (this _ h1)
    · exact .inr ⟨hh, this _ h1⟩

theorem minv_fetch (h : MInv lib ops log m) (dispatch : Text → List DescKey → Option Nat) :
    MInv lib ops (log ++ (m.fetchMissing dispatch).1) (m.fetchMissing dispatch).2 := by
  unfold Manager.fetchMissing
  simp only
  split
  · rw [List.append_nil]; exact h
  split
  · rw [List.append_nil]; exact h
  rename_i service hservice
  cases hd : dispatch service m.getMissing with
  | none =>
    simp only
    refine { h with pending := fun k t hk => ?_, waiting := fun k t ho => ?_ }
    · exact ⟨(h.pending k t hk).1, outstanding_append_other (h.pending k t hk).2 (by simp)⟩
    · rcases outstanding_request ho with ho | ⟨hf, -⟩
      · exact h.waiting k t ho
      · exact nomatch hf
  | some token =>
    simp only
    have hget := fun k => mapGet_foldl_pending m.getMissing m.descriptors token k
    refine ⟨unique_foldl_pending _ _ _ h.unique, h.emb, h.kept, h.built, ?_, ?_, ?_, ?_, ?_⟩
    · intro k hh hk
      rw [hget] at hk
      split at hk
      · exact nomatch hk
      · exact h.embedded k hh hk
    · intro k hk
      rw [hget] at hk
      split at hk
      · exact nomatch hk
      · exact h.missing k hk
    · intro k t hk
      rw [hget] at hk
      split at hk
      · rename_i hm
        cases hk
        exact ⟨h.missing k ((mem_getMissing m h.unique k).1 hm), log, service, _, [], rfl, hm, by simp⟩
      · exact ⟨(h.pending k t hk).1, outstanding_append_other (h.pending k t hk).2 (by simp)⟩
    · intro k hh hk
      rw [hget] at hk
      split at hk
      · exact nomatch hk
      · exact h.resolved k hh hk
    · intro k t ho
      rw [hget]
      rcases outstanding_request ho with ho | ⟨hf, hm⟩
      · have := h.waiting k t ho
        rw [if_neg]
        · exact this
        · intro hm
          rw [(mem_getMissing m h.unique k).1 hm] at this
          rcases this with h1 | ⟨_, h1⟩ <;> exact nomatch h1
      · rw [if_pos hm, Option.some.inj hf]
        exact .inl rfl

theorem minv_handleDescriptor (h : MInv lib ops log m) (key : DescKey) (bytes : Bytes)
    (hrec : Received lib ops key bytes) : MInv lib ops log (m.handleDescriptor lib key bytes) := by
  unfold Manager.handleDescriptor
  cases hb : lib.build bytes with
  | none => exact h
  | some pool =>
    simp only
    split
    · rename_i hs
      unfold Manager.insertPool
      split
      · exact h
      · rename_i hne
        have hp := fun x => mapGet_orInsert m.pools (lib.hash bytes) x pool
        have hmono : ∀ x p, mapGet m.pools x = some p →
            mapGet (orInsert m.pools (lib.hash bytes) pool) x = some p := by
          intro x p hx; rw [hp, hx]
        have hmono' : ∀ x, (mapGet m.pools x).isSome →
            (mapGet (orInsert m.pools (lib.hash bytes) pool) x).isSome := by
          intro x hx
          obtain ⟨p, hx⟩ := Option.isSome_iff_exists.1 hx
          rw [hmono x p hx]; rfl
        have hg := fun k => mapGet_mapInsert m.descriptors key k (.resolved (lib.hash bytes))
        refine ⟨uniqueKeys_mapInsert h.unique _ _, h.emb, fun x p hx => hmono x p (h.kept x p hx), ?_, ?_, ?_,
          ?_, ?_, ?_⟩
        · intro x p hx
          rw [hp] at hx
          split at hx
          · rename_i w hw; cases hx; exact h.built x _ hw
          · split at hx
            · rename_i he; cases hx; exact ⟨bytes, .inr (.inr ⟨key, hrec⟩), he, hb⟩
            · exact nomatch hx
        · intro k hh hk
          rw [hg] at hk
          split at hk
          · exact nomatch hk
          · exact h.embedded k hh hk
        · intro k hk
          rw [hg] at hk
          split at hk
          · exact nomatch hk
          · exact h.missing k hk
        · intro k t hk
          rw [hg] at hk
          split at hk
          · exact nomatch hk
          · exact h.pending k t hk
        · intro k hh hk
          rw [hg] at hk
          split at hk
          · rename_i he
            subst he
            cases hk
            refine ⟨?_, bytes, pool, hrec, rfl, hb, hs⟩
            rw [hp]
            split
            · rfl
            · simp
          · obtain ⟨h1, h2⟩ := h.resolved k hh hk
            exact ⟨hmono' _ h1, h2⟩
        · intro k t ho
          rw [hg]
          split
          · exact .inr ⟨_, rfl⟩
          · exact h.waiting k t ho
    · exact h

theorem minv_handleAll (ds : List (DescKey × Bytes)) : ∀ {m : Manager P}, MInv lib ops log m →
    (∀ d ∈ ds, Received lib ops d.1 d.2) →
    MInv lib ops log (ds.foldl (fun m d => m.handleDescriptor lib d.1 d.2) m) := by
  induction ds with
  | nil => exact fun h _ => h
  | cons d ds ih =>
    intro m h hrec
    rw [List.foldl_cons]
    exact ih (minv_handleDescriptor h d.1 d.2 (hrec d (List.mem_cons_self ..)))
      fun x hx => hrec x (List.mem_cons_of_mem _ hx)

theorem minv_reset (h : MInv lib ops log m) (token : Nat) :
    MInv lib ops (log ++ [.responded token]) (m.resetPending token) := by
  have hg := mapGet_resetPending m token
  have hcase : ∀ {k s}, mapGet (m.resetPending token).descriptors k = some s →
      (mapGet m.descriptors k = some s ∧ s ≠ .pending token) ∨
      (mapGet m.descriptors k = some (.pending token) ∧ s = .missing) := by
    intro k s hs
    rw [hg, Option.map_eq_some_iff] at hs
    obtain ⟨w, hw, he⟩ := hs
    split at he
    · rename_i hw'; subst hw'; exact .inr ⟨hw, he.symm⟩
    · rename_i hw'; subst he; exact .inl ⟨hw, hw'⟩
  refine ⟨unique_resetPending m token h.unique, h.emb, h.kept, h.built, ?_, ?_, ?_, ?_, ?_⟩
  · intro k hh hk
    rcases hcase hk with ⟨hk, -⟩ | ⟨-, hk⟩
    · exact h.embedded k hh hk
    · exact nomatch hk
  · intro k hk
    rcases hcase hk with ⟨hk, -⟩ | ⟨hk, -⟩
    · exact h.missing k hk
    · exact (h.pending k token hk).1
  · intro k t hk
    rcases hcase hk with ⟨hk, hne⟩ | ⟨-, hk⟩
    · refine ⟨(h.pending k t hk).1, outstanding_append_other (h.pending k t hk).2 ?_⟩
      intro hm
      obtain rfl : t = token := by simpa using hm
      exact hne rfl
    · exact nomatch hk
  · intro k hh hk
    rcases hcase hk with ⟨hk, -⟩ | ⟨-, hk⟩
    · exact h.resolved k hh hk
    · exact nomatch hk
  · intro k t ho
    obtain ⟨ho, hne⟩ := outstanding_respond ho
    rw [hg]
    rcases h.waiting k t ho with h1 | ⟨hh, h1⟩
    · rw [h1]
      refine .inl ?_
      simp [hne]
    · rw [h1]; exact .inr ⟨hh, by simp⟩

theorem minv_response (h : MInv lib ops log m) (token status : Nat) (body : Option Bytes) :
    MInv lib (ops ++ [.grpcResponse token status body]) (log ++ [.responded token])
      ((if status ≠ 0 then m else match body with
        | none => m
        | some bytes => m.handleResponse lib token bytes).resetPending token) := by
  refine minv_reset ?_ token
  replace h := h.mono [.grpcResponse token status body]
  split
  · exact h
  · rename_i hst
    have hst : status = 0 := by simpa using hst
    subst hst
    cases body with
    | none => exact h
    | some bytes =>
      simp only [Manager.handleResponse]
      split
      · cases hd : lib.decode bytes with
        | none => exact h
        | some ds =>
          exact minv_handleAll ds h fun d hd' => ⟨token, bytes, ds, by simp, hd, hd'⟩
      · exact h

theorem minv_services (cfgs : List (Text × ServiceConfig)) : ∀ {m : Manager P}, MInv lib ops log m →
    MInv lib ops log (createServices m cfgs).1 := by
  induction cfgs with
  | nil => exact fun h => h
  | cons c rest ih =>
    intro m h
    obtain ⟨name, s⟩ := c
    unfold createServices
    cases hi : s.instance with
    | none => exact h
    | some inst =>
      simp only
      cases hd : inst.descriptor with
      | some key =>
        simp only
        have := ih (minv_addExpected h key)
        split
        · rename_i m' l he; rw [he] at this; exact this
        · rename_i m' he; rw [he] at this; exact this
      | none =>
        simp only
        have := ih h
        split
        · rename_i m' l he; rw [he] at this; exact this
        · rename_i m' he; rw [he] at this; exact this

/-! ### Availability -/

/-- Nothing available becomes unavailable, embedded descriptors stay what they are, and no service is
forgotten. -/
structure Keeps (m m' : Manager P) : Prop where
  available : ∀ k, (m.getPool k).isSome → (m'.getPool k).isSome
  embedded : ∀ k h, mapGet m.descriptors k = some (.embedded h) → mapGet m'.descriptors k = some (.embedded h)
  known : ∀ k, (mapGet m.descriptors k).isSome → (mapGet m'.descriptors k).isSome

theorem Keeps.refl (m : Manager P) : Keeps m m := ⟨fun _ h => h, fun _ _ h => h, fun _ h => h⟩

theorem Keeps.trans {a b c : Manager P} (h : Keeps a b) (h' : Keeps b c) : Keeps a c :=
  ⟨fun k x => h'.available k (h.available k x), fun k x y => h'.embedded k x (h.embedded k x y),
    fun k x => h'.known k (h.known k x)⟩

theorem keeps_of {m m' : Manager P} (hp : ∀ x, (mapGet m.pools x).isSome → (mapGet m'.pools x).isSome)
    (hd : ∀ k s, mapGet m.descriptors k = some s → (∀ t, s ≠ .pending t) → s ≠ .missing →
      mapGet m'.descriptors k = some s)
    (hk : ∀ k, (mapGet m.descriptors k).isSome → (mapGet m'.descriptors k).isSome) : Keeps m m' := by
  refine ⟨fun k h => ?_, fun k h hm => hd k _ hm (by simp) (by simp), hk⟩
  unfold Manager.getPool at h ⊢
  cases hs : mapGet m.descriptors k with
  | none => rw [hs] at h; exact nomatch h
  | some s =>
    rw [hs] at h
    cases s with
    | embedded x => rw [hd k _ hs (by simp) (by simp)]; exact hp x h
    | resolved x => rw [hd k _ hs (by simp) (by simp)]; exact hp x h
    | missing => exact nomatch h
    | pending t => exact nomatch h

theorem keeps_addExpected (m : Manager P) (key : DescKey) : Keeps m (m.addExpected key) := by
  have hget : ∀ k s, mapGet m.descriptors k = some s → mapGet (m.addExpected key).descriptors k = some s := by
    intro k s hs
    refine (mapGet_orInsert _ _ _ _).trans ?_
    rw [hs]
  refine keeps_of (fun x h => h) (fun k s hs _ _ => hget k s hs) (fun k h => ?_)
  obtain ⟨s, hs⟩ := Option.isSome_iff_exists.1 h
  rw [hget k s hs]; rfl

theorem keeps_setService (m : Manager P) (s : Text) : Keeps m (m.setService s) := by
  unfold Manager.setService
  split
  · exact Keeps.refl m
  · exact ⟨fun _ h => h, fun _ _ h => h, fun _ h => h⟩

theorem keeps_fetch (m : Manager P) (hu : UniqueKeys m.descriptors)
    (dispatch : Text → List DescKey → Option Nat) : Keeps m (m.fetchMissing dispatch).2 := by
  unfold Manager.fetchMissing
  simp only
  split
  · exact Keeps.refl m
  split
  · exact Keeps.refl m
  split
  · exact Keeps.refl m
  · rename_i token _
    refine keeps_of (fun x h => h) (fun k s hs _ hne => ?_) (fun k h => ?_)
    · rw [mapGet_foldl_pending, if_neg]
      · exact hs
      · intro hm
        rw [mem_getMissing m hu, hs] at hm
        exact hne (Option.some.inj hm)
    · rw [mapGet_foldl_pending]
      split
      · rfl
      · exact h

theorem keeps_reset (m : Manager P) (token : Nat) : Keeps m (m.resetPending token) := by
  refine keeps_of (fun x h => h) (fun k s hs hne _ => ?_) (fun k h => ?_)
  · rw [mapGet_resetPending, hs]
    simp [hne token]
  · rw [mapGet_resetPending]
    simpa using h

theorem keeps_handleDescriptor (m : Manager P) (key : DescKey) (bytes : Bytes) :
    Keeps m (m.handleDescriptor lib key bytes) := by
  unfold Manager.handleDescriptor
  split
  · exact Keeps.refl m
  · rename_i pool _
    split
    · unfold Manager.insertPool
      split
      · exact Keeps.refl m
      · rename_i hne
        have hp := fun x => mapGet_orInsert m.pools (lib.hash bytes) x pool
        have hmono : ∀ x, (mapGet m.pools x).isSome →
            (mapGet (orInsert m.pools (lib.hash bytes) pool) x).isSome := by
          intro x hx
          obtain ⟨p, hx⟩ := Option.isSome_iff_exists.1 hx
          rw [hp, hx]; rfl
        have hg := fun k => mapGet_mapInsert m.descriptors key k (.resolved (lib.hash bytes))
        refine ⟨fun k h => ?_, fun k h hk => ?_, fun k h => ?_⟩
        · unfold Manager.getPool at h ⊢
          simp only [hg]
          by_cases he : k = key
          · simp only [if_pos he, hp]
            cases mapGet m.pools (lib.hash bytes) <;> simp
          · simp only [if_neg he]
            cases hs : mapGet m.descriptors k with
            | none => rw [hs] at h; exact nomatch h
            | some s =>
              rw [hs] at h
              cases s with
              | embedded x => exact hmono x h
              | resolved x => exact hmono x h
              | missing => exact nomatch h
              | pending t => exact nomatch h
        · rw [hg, if_neg]
          · exact hk
          · rintro rfl
            exact hne h hk
        · rw [hg]
          split
          · rfl
          · exact h
    · exact Keeps.refl m

theorem keeps_handleAll (ds : List (DescKey × Bytes)) : ∀ m : Manager P,
    Keeps m (ds.foldl (fun m d => m.handleDescriptor lib d.1 d.2) m) := by
  induction ds with
  | nil => exact Keeps.refl
  | cons d ds ih =>
    intro m
    rw [List.foldl_cons]
    exact (keeps_handleDescriptor m d.1 d.2).trans (ih _)

theorem keeps_handleResponse (m : Manager P) (token : Nat) (bytes : Bytes) :
    Keeps m (m.handleResponse lib token bytes) := by
  unfold Manager.handleResponse
  split
  · split
    · exact Keeps.refl m
    · rename_i ds _
      exact keeps_handleAll ds m
  · exact Keeps.refl m

theorem keeps_services (cfgs : List (Text × ServiceConfig)) : ∀ m : Manager P,
    Keeps m (createServices m cfgs).1 := by
  induction cfgs with
  | nil => exact Keeps.refl
  | cons c rest ih =>
    intro m
    obtain ⟨name, s⟩ := c
    unfold createServices
    cases s.instance with
    | none => exact Keeps.refl m
    | some inst =>
      simp only
      cases hd : inst.descriptor with
      | some key =>
        simp only
        have := (keeps_addExpected m key).trans (ih _)
        split
        · rename_i m' l he; rw [he] at this; exact this
        · rename_i m' he; rw [he] at this; exact this
      | none =>
        simp only
        have := ih m
        split
        · rename_i m' l he; rw [he] at this; exact this
        · rename_i m' he; rw [he] at this; exact this

end Verif
