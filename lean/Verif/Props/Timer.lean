import Verif.Props.Descriptors
/-!
C36: when the timer that has missing descriptors asked for is running.
-/
set_option linter.unusedSimpArgs false
namespace Verif.Props
open Verif Verif.Spec

variable {P H : Type} {lib : DescLib P} {parse : Text → Option Expr} {o : Oracle H}

theorem setTick_tick (r : Root P) (enable : Bool) : (r.setTickEnabled enable true).tickEnabled = enable := by
  unfold Root.setTickEnabled
  cases enable <;> cases h : r.tickEnabled <;> simp [h]

theorem configured_tick (r : Root P) (cfg : RootConfig) (d : Text → List DescKey → Option Nat)
    (h : (compiled parse cfg).isSome) :
    (r.onConfigure parse (some cfg) d true).1.tickEnabled = (prepared r cfg).manager.hasExpected := by
  obtain ⟨f, hf⟩ := Option.isSome_iff_exists.1 h
  simp only [Root.onConfigure, Root.processConfig, tryFrom_eq, hf, setTick_tick]
  rfl

/-- C36: once a configuration is accepted, and the host accepts the period, the timer runs if any accepted
configuration, this one or an earlier one, needs a service whose descriptors are not embedded. -/
theorem C36_timer_on (ops : List (VmOp H)) (cfg : RootConfig) (d : Text → List DescKey → Option Nat)
    (hc : (compiled parse cfg).isSome) (cfg' : RootConfig) (d' : Text → List DescKey → Option Nat) (ok' : Bool)
    (hin : .configure (some cfg') d' ok' ∈ ops ++ [.configure (some cfg) d true]) (hc' : (compiled parse cfg').isSome)
    (key : DescKey) (hneeds : Needs cfg' key) (hnot : ¬Usable lib key) :
    (Vm.run lib parse o (ops ++ [.configure (some cfg) d true])).root.tickEnabled = true := by
  have hserv : (servicesOf cfg.services).isSome := by
    obtain ⟨f, hf⟩ := Option.isSome_iff_exists.1 hc
    unfold compiled at hf
    cases hs : servicesOf cfg.services with
    | none => rw [hs] at hf; exact nomatch hf
    | some _ => rfl
  rw [vm_run_snoc]
  show ((Vm.run lib parse o ops).root.onConfigure parse (some cfg) d true).1.tickEnabled = true
  rw [configured_tick _ _ _ hc]
  have hinv := minv_setService (minv_services cfg.services (minv_run (lib := lib) (parse := parse) (o := o) ops))
    cfg.descriptorService
  have hk : (mapGet (prepared (Vm.run lib parse o ops).root cfg).manager.descriptors key).isSome := by
    refine (keeps_setService _ _).known _ ?_
    rcases List.mem_append.1 hin with hin | hin
    · exact (keeps_services cfg.services _).known _ (needs_known hin hc' hneeds)
    · cases List.mem_singleton.1 hin
      obtain ⟨name, s, kind, svc, deny, hm, hi, rfl⟩ := hneeds
      exact services_known cfg.services _ hserv name s _ _ hm hi rfl
  obtain ⟨s, hs⟩ := Option.isSome_iff_exists.1 hk
  unfold Manager.hasExpected
  refine List.any_eq_true.2 ⟨(key, s), (mapGet_iff hinv.unique _ _).1 hs, ?_⟩
  cases s with
  | embedded x =>
    have he := hinv.embedded key x hs
    rw [hinv.emb] at he
    obtain ⟨bytes, hb, -, hu⟩ := new_embedded lib _ _ he
    exact absurd ⟨bytes, hb, hu⟩ hnot
  | _ => rfl

/-- Every descriptor known is embedded. -/
def AllEmbedded (m : Manager P) : Prop :=
  (∀ e ∈ m.descriptors, ∃ h, e.2 = .embedded h) ∧ m.embedded = (Manager.new lib).embedded

theorem allEmbedded_services (cfgs : List (Text × ServiceConfig)) : ∀ m : Manager P, AllEmbedded (lib := lib) m →
    (∀ name s inst key, (name, s) ∈ cfgs → s.instance = some inst → inst.descriptor = some key → Usable lib key) →
    AllEmbedded (lib := lib) (createServices m cfgs).1 := by
  induction cfgs with
  | nil => exact fun m h _ => h
  | cons c rest ih =>
    intro m h hu
    obtain ⟨name, s⟩ := c
    unfold createServices
    cases hi : s.instance with
    | none => exact h
    | some inst =>
      simp only
      have hrest := fun name s inst key hm => hu name s inst key (List.mem_cons_of_mem _ hm)
      cases hd : inst.descriptor with
      | none =>
        simp only
        have := ih m h hrest
        split <;> rename_i he <;> rw [he] at this <;> exact this
      | some key =>
        simp only
        have hm : AllEmbedded (lib := lib) (m.addExpected key) := by
          obtain ⟨bytes, hb, hbuild⟩ := hu name s inst key (List.mem_cons_self ..) hi hd
          obtain ⟨pool, hpool⟩ := Option.isSome_iff_exists.1 hbuild
          have hn := new_embedded_some lib hb hpool
          refine ⟨fun e he => ?_, h.2⟩
          unfold Manager.addExpected orInsert at he
          rw [h.2, hn] at he
          dsimp only at he
          split at he
          · exact h.1 e he
          · unfold mapInsert at he
            rcases List.mem_cons.1 he with rfl | he
            · exact ⟨_, rfl⟩
            · exact h.1 e (List.mem_filter.1 he).1
        have := ih _ hm hrest
        split <;> rename_i he <;> rw [he] at this <;> exact this

theorem allEmbedded_fetch {m : Manager P} (h : AllEmbedded (lib := lib) m)
    (d : Text → List DescKey → Option Nat) : m.fetchMissing d = ([], m) := by
  have : m.getMissing = [] := by
    unfold Manager.getMissing
    refine List.filterMap_eq_nil_iff.2 fun e he => ?_
    obtain ⟨x, hx⟩ := h.1 e he
    rw [hx]
  simp [Manager.fetchMissing, this]

theorem allEmbedded_response {m : Manager P} (h : AllEmbedded (lib := lib) m) (token : Nat) (bytes : Bytes) :
    m.handleResponse lib token bytes = m := by
  unfold Manager.handleResponse
  rw [if_neg]
  intro ha
  obtain ⟨e, he, hp⟩ := List.any_eq_true.1 ha
  obtain ⟨x, hx⟩ := h.1 e he
  simp [hx] at hp

theorem allEmbedded_reset {m : Manager P} (h : AllEmbedded (lib := lib) m) (token : Nat) :
    AllEmbedded (lib := lib) (m.resetPending token) := by
  refine ⟨fun e he => ?_, h.2⟩
  obtain ⟨e', he', rfl⟩ := List.mem_map.1 he
  obtain ⟨x, hx⟩ := h.1 e' he'
  exact ⟨x, by rw [if_neg (by rw [hx]; simp)]; exact hx⟩

theorem allEmbedded_run (ops : List (VmOp H))
    (h : ∀ cfg d ok, .configure (some cfg) d ok ∈ ops → ∀ key, Needs cfg key → Usable lib key) :
    AllEmbedded (lib := lib) (Vm.run lib parse o ops).root.manager ∧
      ∀ u keys t, .requested u keys t ∉ (Vm.run lib parse o ops).root.log := by
  induction ops using snoc_ind with
  | nil =>
    refine ⟨⟨fun e he => ?_, rfl⟩, fun _ _ _ h => nomatch h⟩
    have : (Manager.new lib).descriptors = [] := by
      unfold Manager.new Manager.registerEmbedded
      cases lib.build lib.ratelimit <;> cases lib.build lib.auth <;> rfl
    rw [show (Vm.run lib parse o []).root.manager = Manager.new lib from rfl, this] at he
    exact nomatch he
  | snoc ops op ih =>
    obtain ⟨ih, il⟩ := ih fun cfg d ok hm => h cfg d ok (List.mem_append_left _ hm)
    rw [vm_run_snoc]
    rcases step_root (lib := lib) (parse := parse) (o := o) (Vm.run lib parse o ops) op with
      ⟨r0, hm, hl, hr⟩ | ⟨token, status, body, rfl, hr⟩
    · have h0 : AllEmbedded (lib := lib) r0.manager := by
        rcases hm with hm | ⟨cfg, d, ok, rfl, hm⟩
        · rw [hm]; exact ih
        · have hs := allEmbedded_services cfg.services _ ih fun name s inst key hin hi hd => by
            refine h cfg d ok (by simp) key ?_
            cases inst with
            | tracing => exact nomatch hd
            | call kind svc deny => exact ⟨name, s, kind, svc, deny, hin, hi, (Option.some.inj hd).symm⟩
          rcases hm with ⟨hm, -⟩ | ⟨hm, -⟩
          · rw [hm]; exact hs
          · rw [hm]
            unfold prepared Manager.setService
            dsimp only
            split
            · exact hs
            · exact hs
      rcases hr with ⟨h1, h2⟩ | ⟨-, d, h1, h2⟩
      · rw [h1, h2, hl]; exact ⟨h0, il⟩
      · rw [h1, h2]
        unfold Root.fetch
        rw [allEmbedded_fetch h0 d]
        refine ⟨h0, ?_⟩
        simp only [List.append_nil, hl]
        exact il
    · rw [hr]
      unfold Root.onGrpcResponse
      refine ⟨?_, ?_⟩
      · refine allEmbedded_reset ?_ token
        split
        · exact ih
        · split
          · exact ih
          · rw [allEmbedded_response ih]; exact ih
      · intro u keys t hm
        rcases List.mem_append.1 hm with hm | hm
        · exact il u keys t hm
        · simp at hm

/-- C36: if every configuration so far, accepted or not, needs only services with embedded descriptors, an accepted
one stops the timer, and no descriptors were asked for. -/
theorem C36_timer_off (ops : List (VmOp H)) (cfg : RootConfig) (d : Text → List DescKey → Option Nat)
    (hc : (compiled parse cfg).isSome)
    (h : ∀ cfg' d' ok', .configure (some cfg') d' ok' ∈ ops ++ [.configure (some cfg) d true] →
      ∀ key, Needs cfg' key → Usable lib key) :
    (Vm.run lib parse o (ops ++ [.configure (some cfg) d true])).root.tickEnabled = false ∧
      ∀ u keys t, .requested u keys t ∉ (Vm.run lib parse o (ops ++ [.configure (some cfg) d true])).root.log := by
  refine ⟨?_, (allEmbedded_run _ h).2⟩
  rw [vm_run_snoc]
  show ((Vm.run lib parse o ops).root.onConfigure parse (some cfg) d true).1.tickEnabled = false
  rw [configured_tick _ _ _ hc]
  have ih := (allEmbedded_run (lib := lib) (parse := parse) (o := o) ops
    fun cfg d ok hm => h cfg d ok (List.mem_append_left _ hm)).1
  have hs := allEmbedded_services cfg.services _ ih fun name s inst key hin hi hd => by
    refine h cfg d true (by simp) key ?_
    cases inst with
    | tracing => exact nomatch hd
    | call kind svc deny => exact ⟨name, s, kind, svc, deny, hin, hi, (Option.some.inj hd).symm⟩
  have hp : AllEmbedded (lib := lib) (prepared (Vm.run lib parse o ops).root cfg).manager := by
    unfold prepared Manager.setService
    dsimp only
    split <;> exact hs
  unfold Manager.hasExpected
  rw [List.any_eq_false]
  intro e he
  obtain ⟨x, hx⟩ := hp.1 e he
  rw [hx]
  simp

/-- C36: nothing but an accepted configuration starts or stops the timer, and a host that does not accept the period
leaves it as it was. -/
theorem C36_timer_kept (ops : List (VmOp H)) (op : VmOp H)
    (h : ∀ cfg d ok, op = .configure (some cfg) d ok → compiled parse cfg = none ∨ ok = false) :
    (Vm.run lib parse o (ops ++ [op])).root.tickEnabled = (Vm.run lib parse o ops).root.tickEnabled := by
  rw [vm_run_snoc]
  cases op with
  | configure cfg d ok =>
    cases cfg with
    | none => rfl
    | some cfg =>
      show ((Vm.run lib parse o ops).root.onConfigure parse (some cfg) d ok).1.tickEnabled = _
      cases hc : compiled parse cfg with
      | none => simp only [Root.onConfigure, Root.processConfig, tryFrom_eq, hc]
      | some f =>
        rcases h cfg d ok rfl with h | rfl
        · rw [hc] at h; exact nomatch h
        · simp only [Root.onConfigure, Root.processConfig, tryFrom_eq, hc]
          have : ∀ (r : Root P) (b : Bool), (r.setTickEnabled b false).tickEnabled = r.tickEnabled := by
            intro r b
            unfold Root.setTickEnabled
            split
            · rfl
            · split <;> rfl
          rw [this]
          split <;> rfl
  | _ => rfl

open Pools

/-- A service without embedded descriptors starts the timer. -/
example : (run hash [.configure (some dynamic) accept true]).root.tickEnabled = true :=
  C36_timer_on [] dynamic accept (by decide +kernel) dynamic accept true (List.mem_singleton.2 rfl) (by decide +kernel)
    dynKey ⟨_, _, _, _, _, List.mem_singleton.2 rfl, rfl, rfl⟩ (by
      rintro ⟨bytes, hb, -⟩
      rw [show embeddedBytes (descriptors hash) dynKey.service = none by decide +kernel] at hb
      exact nomatch hb)

/-- A service of an earlier configuration keeps the timer running. -/
example : (run hash [.configure (some dynamic) accept true, .configure (some auth) accept true]).root.tickEnabled = true := by
  decide +kernel

example : (run hash [.configure (some auth) accept true]).root.tickEnabled = false := by
  refine (C36_timer_off [] auth accept (by decide +kernel) fun cfg' d' ok' hm key hneeds => ?_).1
  cases List.mem_singleton.1 hm
  obtain ⟨name, s, kind, svc, deny, hm, hi, rfl⟩ := hneeds
  cases List.mem_singleton.1 hm
  cases hi
  exact ⟨[6], by decide +kernel, by decide +kernel⟩

example : (run hash [.configure (some dynamic) accept false]).root.tickEnabled = false :=
  C36_timer_kept [] _ fun _ _ _ h => by cases h; exact .inr rfl

end Verif.Props
