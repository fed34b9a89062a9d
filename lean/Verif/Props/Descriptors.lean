import Verif.Lemmas.Root
import Verif.Props.Demo
/-!
C36: bookkeeping of descriptors over every history of configurations, ticks, responses and requests.
`getPool` is what a call to a service sees.
-/
set_option linter.unusedSimpArgs false
namespace Verif.Props
open Spec

variable {P H : Type} {lib : DescLib P} {parse : Text → Option Expr} {o : Oracle H}

theorem needs_known {ops : List (VmOp H)} {cfg : RootConfig} {d : Text → List DescKey → Option Nat} {ok : Bool}
    {key : DescKey} (hin : .configure (some cfg) d ok ∈ ops) (hc : (compiled parse cfg).isSome)
    (hneeds : Needs cfg key) : (mapGet (Vm.run lib parse o ops).root.manager.descriptors key).isSome := by
  obtain ⟨before, after, rfl⟩ := List.append_of_mem hin
  rw [List.append_cons]
  refine (keeps_run _ after).known key ?_
  rw [vm_run_snoc]
  obtain ⟨f, hf⟩ := Option.isSome_iff_exists.1 hc
  have hserv : (servicesOf cfg.services).isSome := by
    unfold compiled at hf
    cases hs : servicesOf cfg.services with
    | none => rw [hs] at hf; exact nomatch hf
    | some _ => rfl
  obtain ⟨name, s, kind, svc, deny, hm, hi, rfl⟩ := hneeds
  have hk := services_known cfg.services (Vm.run lib parse o before).root.manager hserv name s _ _ hm hi rfl
  have hinv := minv_services cfg.services (minv_run (lib := lib) (parse := parse) (o := o) before)
  have hp : (mapGet (prepared (Vm.run lib parse o before).root cfg).manager.descriptors
      ⟨svc.upstream, svc.service⟩).isSome := (keeps_setService _ _).known _ hk
  show (mapGet ((Vm.run lib parse o before).root.onConfigure parse (some cfg) d ok).1.manager.descriptors _).isSome
  rcases (configure_accepted (Vm.run lib parse o before).root cfg d ok hf).1 with ⟨h, -⟩ | ⟨h, -⟩
  · rw [h]
    exact (keeps_fetch _ (minv_setService hinv _).unique d).known _ hp
  · rw [h]; exact hp

theorem embedded_seen {ops : List (VmOp H)} {service : Text} {bytes : Bytes}
    (h : embeddedBytes lib service = some bytes) : Seen lib ops bytes := by
  unfold embeddedBytes at h
  split at h
  · exact .inr (.inl (Option.some.inj h).symm)
  · split at h
    · exact .inl (Option.some.inj h).symm
    · exact nomatch h

/-- A service with embedded descriptors that an accepted configuration needs is available ever after, with
exactly these descriptors, if nothing was received for it before it was configured. -/
theorem C36_embedded (before after : List (VmOp H)) (cfg : RootConfig) (d : Text → List DescKey → Option Nat)
    (ok : Bool) (key : DescKey) (bytes : Bytes) (pool : P)
    (hc : (compiled parse cfg).isSome) (hneeds : Needs cfg key)
    (hemb : embeddedBytes lib key.service = some bytes) (hb : lib.build bytes = some pool)
    (hnone : ∀ b, ¬Received lib before key b)
    (hinj : NoCollision lib (before ++ .configure (some cfg) d ok :: after)) :
    (Vm.run lib parse o (before ++ .configure (some cfg) d ok :: after)).root.manager.getPool key = some pool := by
  rw [List.append_cons] at hinj ⊢
  have hk := needs_known (lib := lib) (parse := parse) (o := o) (ops := before ++ [.configure (some cfg) d ok])
    (List.mem_append_right _ (List.mem_cons_self ..)) hc hneeds
  have hinv := minv_run (lib := lib) (parse := parse) (o := o) (before ++ [.configure (some cfg) d ok])
  have he := new_embedded_some lib hemb hb
  obtain ⟨s, hs⟩ := Option.isSome_iff_exists.1 hk
  have hstate : s = .embedded (lib.hash bytes) := by
    cases s with
    | embedded x =>
      have := hinv.embedded key x hs
      rw [hinv.emb, he] at this
      rw [Option.some.inj this]
    | missing => have := hinv.missing key hs; rw [hinv.emb, he] at this; exact nomatch this
    | pending t => have := (hinv.pending key t hs).1; rw [hinv.emb, he] at this; exact nomatch this
    | resolved x =>
      obtain ⟨-, b, p, hrec, -⟩ := hinv.resolved key x hs
      obtain ⟨t, body, ds, hm, hd⟩ := hrec
      refine absurd ⟨t, body, ds, ?_, hd⟩ (hnone b)
      simpa using hm
  subst hstate
  have hs' := (keeps_run (lib := lib) (parse := parse) (o := o) _ after).embedded key _ hs
  have hinv' := minv_run (lib := lib) (parse := parse) (o := o) ((before ++ [.configure (some cfg) d ok]) ++ after)
  unfold Manager.getPool
  rw [hs']
  obtain ⟨p, hp⟩ := Option.isSome_iff_exists.1 ((new_pools lib H).2 _ _ he)
  have hp' := hinv'.kept _ _ hp
  show mapGet _ _ = _
  rw [hp']
  obtain ⟨b, hb0, hb1, hb2⟩ := hinv'.built _ _ hp'
  rw [← hinj _ _ (embedded_seen hemb) hb0 hb1, hb] at hb2
  rw [hb2]

/-- It is never asked for. -/
theorem C36_embedded_not_requested (ops : List (VmOp H)) (upstream : Text) (keys : List DescKey)
    (token : Option Nat) (h : .requested upstream keys token ∈ (Vm.run lib parse o ops).root.log)
    (key : DescKey) (hk : key ∈ keys) (bytes : Bytes) (hemb : embeddedBytes lib key.service = some bytes) :
    lib.build bytes = none := by
  cases hb : lib.build bytes with
  | none => rfl
  | some pool =>
    exfalso
    have he := new_embedded_some lib hemb hb
    induction ops using snoc_ind with
    | nil => exact nomatch h
    | snoc ops op ih =>
      have hinv := minv_run (lib := lib) (parse := parse) (o := o) ops
      rcases step_log (lib := lib) (parse := parse) (o := o) ops op with
        ⟨hl, -⟩ | ⟨_, _, _, -, hl, -⟩ | ⟨u', k', t', hl, -, hm⟩
      · rw [hl] at h; exact ih h
      · rw [hl] at h
        rcases List.mem_append.1 h with h | h
        · exact ih h
        · simp at h
      · rw [hl] at h
        rcases List.mem_append.1 h with h | h
        · exact ih h
        · have h : RootEffect.requested upstream keys token = .requested u' k' t' := by simpa using h
          cases h
          have := (hm key hk).1
          rw [hinv.emb, he] at this
          exact nomatch this

/-- What is available stays available. -/
theorem C36_stays (ops more : List (VmOp H)) (key : DescKey)
    (h : ((Vm.run lib parse o ops).root.manager.getPool key).isSome) :
    ((Vm.run lib parse o (ops ++ more)).root.manager.getPool key).isSome :=
  (keeps_run ops more).available key h

/-- What is available was embedded for the service or received for it, and in the latter case describes the
service. -/
theorem C36_faithful (ops : List (VmOp H)) (key : DescKey) (pool : P)
    (hinj : NoCollision lib ops)
    (h : (Vm.run lib parse o ops).root.manager.getPool key = some pool) :
    ∃ bytes, lib.build bytes = some pool ∧ (embeddedBytes lib key.service = some bytes ∨
      Received lib ops key bytes ∧ lib.hasService pool key.service = true) := by
  have hinv := minv_run (lib := lib) (parse := parse) (o := o) ops
  unfold Manager.getPool at h
  split at h
  · rename_i x hs
    have he := hinv.embedded key x hs
    rw [hinv.emb] at he
    obtain ⟨bytes, hb, rfl, -⟩ := new_embedded lib _ _ he
    obtain ⟨b, hb0, hb1, hb2⟩ := hinv.built _ _ h
    cases hinj _ _ (embedded_seen hb) hb0 hb1
    exact ⟨bytes, hb2, .inl hb⟩
  · rename_i x hs
    obtain ⟨-, bytes, p, hrec, rfl, hb, hsv⟩ := hinv.resolved key x hs
    obtain ⟨b, hb0, hb1, hb2⟩ := hinv.built _ _ h
    cases hinj _ _ (.inr (.inr ⟨key, hrec⟩)) hb0 hb1
    rw [hb] at hb2
    cases hb2
    exact ⟨bytes, hb, .inr ⟨hrec, hsv⟩⟩
  · exact nomatch h

/-- Only services that are unavailable are requested, and none that is already being requested. -/
theorem C36_requested (ops : List (VmOp H)) (op : VmOp H) (upstream : Text) (keys : List DescKey)
    (token : Option Nat)
    (h : (Vm.run lib parse o (ops ++ [op])).root.log =
      (Vm.run lib parse o ops).root.log ++ [.requested upstream keys token]) (key : DescKey) (hk : key ∈ keys) :
    fetchesFrom parse (ops ++ [op]) = some upstream ∧
    (Vm.run lib parse o ops).root.manager.getPool key = none ∧
    ∀ t, ¬Outstanding (Vm.run lib parse o ops).root.log key t := by
  have hinv := minv_run (lib := lib) (parse := parse) (o := o) ops
  rcases step_log (lib := lib) (parse := parse) (o := o) ops op with
    ⟨hl, -⟩ | ⟨_, _, _, -, hl, -⟩ | ⟨u', k', t', hl, hu, hm⟩
  · rw [hl] at h
    exact absurd (congrArg List.length h) (by simp)
  · rw [hl] at h
    exact nomatch (List.cons.inj (List.append_cancel_left h)).1
  · rw [hl] at h
    cases (List.cons.inj (List.append_cancel_left h)).1
    obtain ⟨-, hs⟩ := hm key hk
    refine ⟨by rw [← hu, service_eq], ?_, fun t ho => ?_⟩
    · unfold Manager.getPool
      rcases hs with hs | hs <;> rw [hs]
    · rcases hinv.waiting key t ho with h1 | ⟨_, h1⟩ <;> rcases hs with hs | hs <;>
        rw [hs] at h1 <;> exact nomatch h1

/-- A tick asks for a service that is known, unavailable and not being requested. -/
theorem tick_asks (ops : List (VmOp H)) (key : DescKey) (d : Text → List DescKey → Option Nat)
    (hk : (mapGet (Vm.run lib parse o ops).root.manager.descriptors key).isSome)
    (hserv : (Vm.run lib parse o ops).root.manager.service.isSome)
    (hun : (Vm.run lib parse o ops).root.manager.getPool key = none)
    (hno : ∀ t, ¬Outstanding (Vm.run lib parse o ops).root.log key t) :
    ∃ upstream keys, fetchesFrom parse ops = some upstream ∧ key ∈ keys ∧
      (Vm.run lib parse o (ops ++ [.tick d])).root.log =
        (Vm.run lib parse o ops).root.log ++ [.requested upstream keys (d upstream keys)] := by
  have hinv := minv_run (lib := lib) (parse := parse) (o := o) ops
  obtain ⟨s, hs⟩ := Option.isSome_iff_exists.1 hk
  have hmiss : mapGet (Vm.run lib parse o ops).root.manager.descriptors key = some .missing := by
    unfold Manager.getPool at hun
    rw [hs] at hun
    cases s with
    | missing => exact hs
    | pending t => exact absurd (hinv.pending key t hs).2 (hno t)
    | resolved x =>
      have := (hinv.resolved key x hs).1
      rw [show mapGet _ x = none from hun] at this; exact nomatch this
    | embedded x =>
      have he := hinv.embedded key x hs
      rw [hinv.emb] at he
      obtain ⟨p, hp⟩ := Option.isSome_iff_exists.1 ((new_pools lib H).2 _ _ he)
      have := hinv.kept _ _ hp
      rw [show mapGet _ x = none from hun] at this; exact nomatch this
  have hmem := (mem_getMissing _ hinv.unique key).2 hmiss
  rw [vm_run_snoc]
  rcases fetch_log (Vm.run lib parse o ops).root d with ⟨-, -, h | h⟩ | ⟨u, hu, -, -, h⟩
  · rw [h] at hmem; exact nomatch hmem
  · rw [h] at hserv; exact nomatch hserv
  · exact ⟨u, _, by rw [← hu, service_eq], hmem, h⟩

theorem fetchesFrom_some (ops : List (VmOp H)) (x : Text) : (ops.foldl (init := some x) fun current op =>
    match op with
    | .configure (some cfg) _ _ => if (compiled parse cfg).isSome then some cfg.descriptorService else current
    | _ => current).isSome := by
  induction ops generalizing x with
  | nil => rfl
  | cons op ops ih =>
    rw [List.foldl_cons]
    split
    · split
      · exact ih _
      · exact ih _
    · exact ih _

/-- A service some accepted configuration needs that is unavailable and not being requested is requested at
the next tick. -/
theorem C36_fetched (ops : List (VmOp H)) (cfg : RootConfig) (d0 d : Text → List DescKey → Option Nat) (ok : Bool)
    (key : DescKey) (hin : .configure (some cfg) d0 ok ∈ ops) (hc : (compiled parse cfg).isSome)
    (hneeds : Needs cfg key) (hun : (Vm.run lib parse o ops).root.manager.getPool key = none)
    (hno : ∀ t, ¬Outstanding (Vm.run lib parse o ops).root.log key t) :
    ∃ upstream keys, fetchesFrom parse ops = some upstream ∧ key ∈ keys ∧
      (Vm.run lib parse o (ops ++ [.tick d])).root.log =
        (Vm.run lib parse o ops).root.log ++ [.requested upstream keys (d upstream keys)] := by
  refine tick_asks ops key d (needs_known hin hc hneeds) ?_ hun hno
  obtain ⟨before, after, rfl⟩ := List.append_of_mem hin
  rw [List.append_cons, service_eq]
  unfold fetchesFrom
  rw [List.foldl_append, List.foldl_append]
  simp only [List.foldl_cons, List.foldl_nil, if_pos hc]
  exact fetchesFrom_some after _

/-- Once the response to a request was handled, whatever it was, the service is available or is requested
again at the next tick. -/
theorem C36_again (ops : List (VmOp H)) (key : DescKey) (token status : Nat) (body : Option Bytes)
    (d : Text → List DescKey → Option Nat)
    (hout : Outstanding (Vm.run lib parse o ops).root.log key token) :
    let answered := ops ++ [.grpcResponse token status body]
    ((Vm.run lib parse o answered).root.manager.getPool key).isSome ∨
    ∃ upstream keys, fetchesFrom parse answered = some upstream ∧ key ∈ keys ∧
      (Vm.run lib parse o (answered ++ [.tick d])).root.log =
        (Vm.run lib parse o answered).root.log ++ [.requested upstream keys (d upstream keys)] := by
  intro answered
  have hinv := minv_run (lib := lib) (parse := parse) (o := o) ops
  cases hun : (Vm.run lib parse o answered).root.manager.getPool key with
  | some p => exact .inl rfl
  | none =>
    right
    have hlog : (Vm.run lib parse o answered).root.log =
        (Vm.run lib parse o ops).root.log ++ [.responded token] := by
      show (Vm.run lib parse o (ops ++ [.grpcResponse token status body])).root.log = _
      rw [vm_run_snoc]; rfl
    have hknown : (mapGet (Vm.run lib parse o ops).root.manager.descriptors key).isSome := by
      rcases hinv.waiting key token hout with h | ⟨_, h⟩ <;> rw [h] <;> rfl
    refine tick_asks answered key d ((keeps_run ops _).known key hknown) ?_ hun ?_
    · obtain ⟨a, u, ks, b, he, -⟩ := hout
      refine service_known answered (u := u) (keys := ks) (tok := some token) ?_
      rw [hlog, he]
      simp
    · intro t ho
      rw [hlog] at ho
      obtain ⟨ho, hne⟩ := outstanding_respond ho
      rcases hinv.waiting key token hout with h | ⟨_, h⟩
      · rcases hinv.waiting key t ho with h' | ⟨_, h'⟩
        · rw [h] at h'; cases h'; exact hne rfl
        · rw [h] at h'; exact nomatch h'
      · have hav : ((Vm.run lib parse o ops).root.manager.getPool key).isSome := by
          unfold Manager.getPool
          rw [h]
          exact (hinv.resolved key _ h).1
        have := (keeps_run (lib := lib) (parse := parse) (o := o) ops [.grpcResponse token status body]).available key hav
        rw [show (Vm.run lib parse o (ops ++ _)).root.manager.getPool key = none from hun] at this
        exact nomatch this

theorem handled_available (key : DescKey) (bytes : Bytes) (pool : P) (hb : lib.build bytes = some pool)
    (hs : lib.hasService pool key.service = true) (m : Manager P)
    (hne : ∀ h, mapGet m.descriptors key ≠ some (.embedded h)) :
    ((m.handleDescriptor lib key bytes).getPool key).isSome := by
  unfold Manager.handleDescriptor
  rw [hb]
  simp only [hs, if_true]
  unfold Manager.insertPool
  split
  · rename_i h _ hm; exact absurd hm (hne _)
  · unfold Manager.getPool
    simp only [mapGet_mapInsert, if_true, mapGet_orInsert]
    cases mapGet m.pools (lib.hash bytes) <;> simp

/-- A successful response with valid descriptors makes the requested service available. -/
theorem C36_delivered (ops : List (VmOp H)) (key : DescKey) (token : Nat) (body bytes : Bytes)
    (ds : List (DescKey × Bytes)) (pool : P)
    (hout : Outstanding (Vm.run lib parse o ops).root.log key token)
    (hd : lib.decode body = some ds) (hm : (key, bytes) ∈ ds) (hb : lib.build bytes = some pool)
    (hs : lib.hasService pool key.service = true) :
    ((Vm.run lib parse o (ops ++ [.grpcResponse token 0 (some body)])).root.manager.getPool key).isSome := by
  have hinv := minv_run (lib := lib) (parse := parse) (o := o) ops
  rcases hinv.waiting key token hout with h | ⟨x, h⟩
  · rw [vm_run_snoc]
    refine (keeps_reset _ token).available key ?_
    show ((Manager.handleResponse _ _ _ _).getPool key).isSome
    unfold Manager.handleResponse
    have hany : (Vm.run lib parse o ops).root.manager.descriptors.any (fun e => e.2 = .pending token) = true :=
      List.any_eq_true.2 ⟨_, (mapGet_iff hinv.unique _ _).1 h, by simp⟩
    simp only [hany, if_true, hd]
    obtain ⟨l, r, rfl⟩ := List.append_of_mem hm
    rw [List.foldl_append, List.foldl_cons]
    refine (keeps_handleAll r _).available key ?_
    have hpre := minv_handleAll (lib := lib) l (hinv.mono [.grpcResponse token 0 (some body)])
      (fun x hx => ⟨token, body, _, by simp, hd, List.mem_append_left _ hx⟩)
    refine handled_available key bytes pool hb hs _ fun y hy => ?_
    have h1 := hpre.embedded key y hy
    have h2 := (hinv.pending key token h).1
    rw [hinv.emb] at h2
    rw [hpre.emb, h2] at h1
    exact nomatch h1
  · refine C36_stays ops _ key ?_
    unfold Manager.getPool
    rw [h]
    exact (hinv.resolved key x h).1

/-! ### A concrete world -/

namespace Pools

def dynKey : DescKey := ⟨"up".toList, "my.Service".toList⟩
def authKey : DescKey := ⟨"auth".toList, "envoy.service.auth.v3.Authorization".toList⟩

/-- Pools are the bytes themselves; responses are numbered. -/
def descriptors (hash : Bytes → Nat) : DescLib Bytes where
  hash := hash
  decode b := if b = [1] then some [(dynKey, [7])]
    else if b = [2] then some [(dynKey, [7]), (authKey, [9])]
    else none
  build b := if b = [] then none else some b
  hasService _ _ := true
  ratelimit := [5]
  auth := [6]

def hash (b : Bytes) : Nat := b.foldl (fun h x => h * 256 + x.toNat + 1) 0

def dynamic : RootConfig where
  services := [("d".toList,
    { type := .dynamic, endpoint := "up".toList, grpcService := some "my.Service".toList,
      grpcMethod := some "m".toList })]

def auth : RootConfig where
  services := [("a".toList, { type := .auth, endpoint := "auth".toList })]

/-- A configuration that cannot be compiled: an unknown service follows a valid one. -/
def broken : RootConfig where
  services := [("d".toList,
    { type := .dynamic, endpoint := "up".toList, grpcService := some "my.Service".toList,
      grpcMethod := some "m".toList }), ("e".toList, { type := .dynamic, endpoint := "up".toList })]

def accept (_ : Text) (_ : List DescKey) : Option Nat := some 3

abbrev run (h : Bytes → Nat) (ops : List (VmOp Nat)) : Vm Bytes Nat :=
  Vm.run (descriptors h) (fun _ => none) Demo.world ops

end Pools

open Pools

/-- Why `C36_embedded` asks that nothing was received before: a response may contain a service that was not
requested, and if this service has embedded descriptors but is not configured yet, it is replaced. -/
theorem C36_overridden :
    (run hash [.configure (some dynamic) accept true, .grpcResponse 3 0 (some [2]),
      .configure (some auth) accept true]).root.manager.getPool authKey = some [9] := by
  decide +kernel

/-- Why `C36_faithful` excludes collisions: a service is given the descriptors embedded for another one. -/
theorem C36_collision :
    (run (fun _ => 0) [.configure (some dynamic) accept true,
      .grpcResponse 3 0 (some [1])]).root.manager.getPool dynKey = some [5] := by
  decide +kernel

/-- The services of a configuration that is rejected are requested all the same. -/
theorem C36_rejected_requested : compiled (fun _ => none) broken = none ∧
    (run hash [.configure (some broken) accept true, .configure (some {}) accept true]).root.log =
      [.requested "kuadrant-operator-grpc".toList [dynKey] (some 3)] := by
  refine ⟨by with_unfolding_all rfl, ?_⟩
  with_unfolding_all rfl

example : (run hash [.configure (some dynamic) accept true, .grpcResponse 3 0 (some [1]),
    .configure (some auth) accept true, .tick accept]).root.manager.getPool authKey = some [6] := by decide +kernel
example : (compiled (fun _ => none) dynamic).isSome ∧ (compiled (fun _ => none) auth).isSome := by decide +kernel
example : Needs dynamic dynKey := ⟨_, _, _, _, _, List.mem_singleton.2 rfl, rfl, rfl⟩
example : Needs auth authKey := ⟨_, _, _, _, _, List.mem_singleton.2 rfl, rfl, rfl⟩
example : embeddedBytes (descriptors hash) authKey.service = some [6] ∧ (descriptors hash).build [6] = some [6] := by decide +kernel
example : (run hash [.configure (some dynamic) accept true]).root.manager.getPool dynKey = none := by decide +kernel
example : Outstanding (run hash [.configure (some dynamic) accept true]).root.log dynKey 3 :=
  ⟨[], _, _, [], by with_unfolding_all rfl, List.mem_singleton.2 rfl, by simp⟩
example : NoCollision (descriptors hash) ([.configure (some dynamic) accept true, .grpcResponse 3 0 (some [1])] :
    List (VmOp Nat)) := by
  have key : ∀ b, Seen (descriptors hash) ([.configure (some dynamic) accept true, .grpcResponse 3 0 (some [1])] :
      List (VmOp Nat)) b → b ∈ [[5], [6], [7]] := by
    rintro b (rfl | rfl | ⟨k, t, body, ds, hm, hd, hb⟩)
    · decide
    · decide
    · simp at hm
      obtain ⟨rfl, rfl⟩ := hm
      cases hd
      simp at hb
      simp [hb]
  intro a b ha hb
  have ha := key a ha
  have hb := key b hb
  simp at ha hb
  rcases ha with rfl | rfl | rfl <;> rcases hb with rfl | rfl | rfl <;> decide +kernel

end Verif.Props
