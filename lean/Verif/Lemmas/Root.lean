import Verif.Lemmas.Descriptors
/-! The root context over a history. -/
set_option linter.unusedSimpArgs false
namespace Verif
open Spec

variable {P H : Type} {lib : DescLib P} {parse : Text → Option Expr} {o : Oracle H}

theorem createServices_services (cfgs : List (Text × ServiceConfig)) : ∀ m : Manager P,
    (createServices m cfgs).2 = servicesOf cfgs := by
  induction cfgs with
  | nil => exact fun _ => rfl
  | cons c rest ih =>
    intro m
    obtain ⟨name, s⟩ := c
    unfold createServices servicesOf
    cases s.instance with
    | none => rfl
    | some inst =>
      simp only
      cases inst.descriptor with
      | none =>
        simp only
        have := ih m
        split <;> rename_i he <;> rw [he] at this <;> rw [← this]
      | some key =>
        simp only
        have := ih (m.addExpected key)
        split <;> rename_i he <;> rw [he] at this <;> rw [← this]

theorem tryFrom_eq (cfg : RootConfig) (m : Manager P) :
    cfg.tryFrom parse m = ((createServices m cfg.services).1, compiled parse cfg) := by
  have h := createServices_services cfg.services m
  unfold RootConfig.tryFrom compiled
  cases hc : createServices m cfg.services with
  | mk m' s =>
    rw [hc] at h
    rw [← h]
    cases s <;> rfl

theorem setTick_manager (r : Root P) (a b : Bool) : (r.setTickEnabled a b).manager = r.manager ∧
    (r.setTickEnabled a b).log = r.log ∧ (r.setTickEnabled a b).factory = r.factory := by
  unfold Root.setTickEnabled
  split
  · split <;> exact ⟨rfl, rfl, rfl⟩
  · split
    · split <;> exact ⟨rfl, rfl, rfl⟩
    · exact ⟨rfl, rfl, rfl⟩

/-- The manager once the services of an accepted configuration are created. -/
def prepared (r : Root P) (cfg : RootConfig) : Root P :=
  { r with manager := (createServices r.manager cfg.services).1.setService cfg.descriptorService }

theorem configure_none (r : Root P) (d : Text → List DescKey → Option Nat) (ok : Bool) :
    (r.onConfigure parse none d ok).1 = r := rfl

theorem configure_rejected (r : Root P) (cfg : RootConfig) (d : Text → List DescKey → Option Nat) (ok : Bool)
    (h : compiled parse cfg = none) :
    let r' := (r.onConfigure parse (some cfg) d ok).1
    r'.manager = (createServices r.manager cfg.services).1 ∧ r'.log = r.log ∧ r'.factory = r.factory := by
  simp only [Root.onConfigure, Root.processConfig, tryFrom_eq, h]
  trivial

theorem configure_accepted (r : Root P) (cfg : RootConfig) (d : Text → List DescKey → Option Nat) (ok : Bool)
    {f : Factory} (h : compiled parse cfg = some f) :
    let r' := (r.onConfigure parse (some cfg) d ok).1
    (r'.manager = ((prepared r cfg).fetch d).manager ∧ r'.log = ((prepared r cfg).fetch d).log ∨
      r'.manager = (prepared r cfg).manager ∧ r'.log = r.log) ∧ r'.factory = f := by
  simp only [Root.onConfigure, Root.processConfig, tryFrom_eq, h]
  refine ⟨?_, ?_⟩
  · rw [(setTick_manager _ _ _).1, (setTick_manager _ _ _).2.1]
    split
    · exact .inl ⟨rfl, rfl⟩
    · exact .inr ⟨rfl, rfl⟩
  · rw [(setTick_manager _ _ _).2.2]
    split <;> rfl

theorem vm_run_snoc (ops : List (VmOp H)) (op : VmOp H) :
    Vm.run lib parse o (ops ++ [op]) = (Vm.run lib parse o ops).step lib parse o op := by
  unfold Vm.run
  rw [List.foldl_append]
  rfl

/-- The three ways in which a callback changes the manager and the log. -/
theorem step_root (vm : Vm P H) (op : VmOp H) :
    let r := (vm.step lib parse o op).root
    (∃ r0 : Root P, (r0.manager = vm.root.manager ∨ (∃ cfg d ok, op = .configure (some cfg) d ok ∧
          (r0.manager = (createServices vm.root.manager cfg.services).1 ∧ compiled parse cfg = none ∨
            r0.manager = (prepared vm.root cfg).manager ∧ (compiled parse cfg).isSome))) ∧
        r0.log = vm.root.log ∧ ((r.manager = r0.manager ∧ r.log = r0.log) ∨
          ((∀ cfg d ok, op = .configure cfg d ok → r0.manager.service.isSome) ∧ 
            ∃ d, r.manager = (r0.fetch d).manager ∧ r.log = (r0.fetch d).log))) ∨
    (∃ token status body, op = .grpcResponse token status body ∧
      r = vm.root.onGrpcResponse lib token status body) := by
  cases op with
  | configure cfg d ok =>
    left
    cases cfg with
    | none => exact ⟨vm.root, .inl rfl, rfl, .inl ⟨rfl, rfl⟩⟩
    | some cfg =>
      cases hc : compiled parse cfg with
      | none =>
        obtain ⟨h1, h2, -⟩ := configure_rejected vm.root cfg d ok hc
        exact ⟨{ vm.root with manager := (createServices vm.root.manager cfg.services).1 },
          .inr ⟨cfg, d, ok, rfl, .inl ⟨rfl, hc⟩⟩, rfl, .inl ⟨h1, h2⟩⟩
      | some f =>
        obtain ⟨h1, -⟩ := configure_accepted vm.root cfg d ok hc
        refine ⟨prepared vm.root cfg, .inr ⟨cfg, d, ok, rfl, .inr ⟨rfl, by rw [hc]; rfl⟩⟩, rfl, ?_⟩
        rcases h1 with h1 | h1
        · refine .inr ⟨fun _ _ _ _ => ?_, d, h1⟩
          simp only [prepared, Manager.setService]
          split
          · rename_i h; rw [h]; rfl
          · rfl
        · exact .inl h1
  | tick d => exact .inl ⟨vm.root, .inl rfl, rfl, .inr ⟨fun _ _ _ h => (nomatch h), d, rfl, rfl⟩⟩
  | grpcResponse t s b => exact .inr ⟨t, s, b, rfl, rfl⟩
  | create id => exact .inl ⟨vm.root, .inl rfl, rfl, .inl ⟨rfl, rfl⟩⟩
  | headers id h => exact .inl ⟨vm.root, .inl rfl, rfl, .inl ⟨rfl, rfl⟩⟩
  | event id e => exact .inl ⟨vm.root, .inl rfl, rfl, .inl ⟨rfl, rfl⟩⟩

theorem minv_run (ops : List (VmOp H)) :
    MInv lib ops (Vm.run lib parse o ops).root.log (Vm.run lib parse o ops).root.manager := by
  induction ops using snoc_ind with
  | nil => exact minv_new
  | snoc ops op ih =>
    rw [vm_run_snoc]
    rcases step_root (lib := lib) (parse := parse) (o := o) (Vm.run lib parse o ops) op with
      ⟨r0, hm, hl, hr⟩ | ⟨token, status, body, rfl, hr⟩
    · have h0 : MInv lib (ops ++ [op]) r0.log r0.manager := by
        rw [hl]
        have ih := ih.mono [op]
        rcases hm with hm | ⟨cfg, -, -, -, hm⟩
        · rw [hm]; exact ih
        · rcases hm with ⟨hm, -⟩ | ⟨hm, -⟩
          · rw [hm]; exact minv_services _ ih
          · rw [hm]; exact minv_setService (minv_services _ ih) _
      rcases hr with ⟨h1, h2⟩ | ⟨-, d, h1, h2⟩
      · rw [h1, h2]; exact h0
      · rw [h1, h2]; exact minv_fetch h0 d
    · rw [hr]
      exact minv_response ih token status body

theorem keeps_step (ops : List (VmOp H)) (op : VmOp H) :
    Keeps (Vm.run lib parse o ops).root.manager (Vm.run lib parse o (ops ++ [op])).root.manager := by
  rw [vm_run_snoc]
  have hinv := minv_run (lib := lib) (parse := parse) (o := o) ops
  rcases step_root (lib := lib) (parse := parse) (o := o) (Vm.run lib parse o ops) op with
    ⟨r0, hm, hl, hr⟩ | ⟨token, status, body, rfl, hr⟩
  · have h0 : Keeps (Vm.run lib parse o ops).root.manager r0.manager ∧ UniqueKeys r0.manager.descriptors := by
      rcases hm with hm | ⟨cfg, -, -, -, hm⟩
      · rw [hm]; exact ⟨Keeps.refl _, hinv.unique⟩
      · rcases hm with ⟨hm, -⟩ | ⟨hm, -⟩
        · rw [hm]; exact ⟨keeps_services _ _, (minv_services _ hinv).unique⟩
        · rw [hm]
          exact ⟨(keeps_services _ _).trans (keeps_setService _ _),
            (minv_setService (minv_services _ hinv) _).unique⟩
    rcases hr with ⟨h1, -⟩ | ⟨-, d, h1, -⟩
    · rw [h1]; exact h0.1
    · rw [h1]; exact h0.1.trans (keeps_fetch _ h0.2 d)
  · rw [hr]
    refine Keeps.trans ?_ (keeps_reset _ token)
    split
    · exact Keeps.refl _
    · split
      · exact Keeps.refl _
      · exact keeps_handleResponse _ _ _

theorem keeps_run (ops more : List (VmOp H)) :
    Keeps (Vm.run lib parse o ops).root.manager (Vm.run lib parse o (ops ++ more)).root.manager := by
  induction more using snoc_ind with
  | nil => rw [List.append_nil]; exact Keeps.refl _
  | snoc more op ih => rw [← List.append_assoc]; exact ih.trans (keeps_step _ _)

/-- What a fetch adds to the log. -/
theorem fetch_log (r : Root P) (d : Text → List DescKey → Option Nat) :
    (r.fetch d).log = r.log ∧ (r.fetch d).manager = r.manager ∧
      (r.manager.getMissing = [] ∨ r.manager.service = none) ∨
    ∃ u, r.manager.service = some u ∧ (r.fetch d).manager.service = some u ∧ r.manager.getMissing ≠ [] ∧
      (r.fetch d).log = r.log ++ [.requested u r.manager.getMissing (d u r.manager.getMissing)] := by
  simp only [Root.fetch, Manager.fetchMissing]
  split
  · rename_i h
    refine .inl ⟨by simp, rfl, .inl ?_⟩
    simpa using h
  · rename_i h
    have h : r.manager.getMissing ≠ [] := by simpa using h
    split
    · rename_i hs; exact .inl ⟨by simp, rfl, .inr hs⟩
    · rename_i u hs
      refine .inr ⟨u, hs, ?_, h, ?_⟩
      · split <;> rename_i hd <;> simp [hs]
      · split <;> rename_i hd <;> simp [hd]

/-- Creating services keeps everything that is known. -/
theorem services_same (cfgs : List (Text × ServiceConfig)) : ∀ m : Manager P,
    (createServices m cfgs).1.pools = m.pools ∧ (createServices m cfgs).1.embedded = m.embedded ∧
    (createServices m cfgs).1.service = m.service ∧
    ∀ k s, mapGet m.descriptors k = some s → mapGet (createServices m cfgs).1.descriptors k = some s := by
  induction cfgs with
  | nil => exact fun _ => ⟨rfl, rfl, rfl, fun _ _ h => h⟩
  | cons c rest ih =>
    intro m
    obtain ⟨name, s⟩ := c
    unfold createServices
    cases s.instance with
    | none => exact ⟨rfl, rfl, rfl, fun _ _ h => h⟩
    | some inst =>
      simp only
      cases inst.descriptor with
      | none =>
        simp only
        have := ih m
        split <;> rename_i he <;> rw [he] at this <;> exact this
      | some key =>
        simp only
        have := ih (m.addExpected key)
        have hk : ∀ k s, mapGet m.descriptors k = some s →
            mapGet (m.addExpected key).descriptors k = some s := by
          intro k s hs
          refine (mapGet_orInsert _ _ _ _).trans ?_
          rw [hs]
        split <;> rename_i he <;> rw [he] at this <;>
          exact ⟨this.1, this.2.1, this.2.2.1, fun k s hs => this.2.2.2 k s (hk k s hs)⟩

/-- The services of a configuration are known afterwards. -/
theorem services_known (cfgs : List (Text × ServiceConfig)) : ∀ m : Manager P,
    (servicesOf cfgs).isSome → ∀ name s inst key, (name, s) ∈ cfgs → s.instance = some inst →
    inst.descriptor = some key → (mapGet (createServices m cfgs).1.descriptors key).isSome := by
  induction cfgs with
  | nil => intro m _ name s inst key hm; exact nomatch hm
  | cons c rest ih =>
    intro m hs name s inst key hm hi hd
    obtain ⟨name0, s0⟩ := c
    unfold servicesOf at hs
    unfold createServices
    cases hi0 : s0.instance with
    | none => rw [hi0] at hs; exact nomatch hs
    | some inst0 =>
      rw [hi0] at hs
      have hs' : (servicesOf rest).isSome := by
        cases hr : servicesOf rest with
        | none => rw [hr] at hs; exact nomatch hs
        | some _ => rfl
      simp only
      suffices hsuf : ∀ m' : Manager P, (∀ k0, inst0.descriptor = some k0 → (mapGet m'.descriptors k0).isSome) →
          (mapGet (createServices m' rest).1.descriptors key).isSome by
        cases hd0 : inst0.descriptor with
        | none =>
          simp only
          have := hsuf m (by rw [hd0]; intro _ h; exact nomatch h)
          split <;> rename_i he <;> rw [he] at this <;> exact this
        | some k0 =>
          simp only
          have := hsuf (m.addExpected k0) (by
            rw [hd0]; rintro _ ⟨⟩
            simp only [Manager.addExpected]
            rw [mapGet_orInsert]
            cases mapGet m.descriptors k0 <;> simp)
          split <;> rename_i he <;> rw [he] at this <;> exact this
      intro m' hk0
      rcases List.mem_cons.1 hm with he | hm
      · cases he
        rw [hi0] at hi
        cases hi
        obtain ⟨w, hw⟩ := Option.isSome_iff_exists.1 (hk0 key hd)
        rw [(services_same rest m').2.2.2 key w hw]; rfl
      · exact ih m' hs' name s inst key hm hi hd

theorem handleAll_service (ds : List (DescKey × Bytes)) : ∀ m : Manager P,
    (ds.foldl (fun m d => m.handleDescriptor lib d.1 d.2) m).service = m.service := by
  induction ds with
  | nil => exact fun _ => rfl
  | cons d ds ih =>
    intro m
    rw [List.foldl_cons, ih]
    unfold Manager.handleDescriptor
    split
    · rfl
    · split
      · unfold Manager.insertPool
        split <;> rfl
      · rfl

/-- What a callback adds to the log. -/
theorem step_log (ops : List (VmOp H)) (op : VmOp H) :
    let r := (Vm.run lib parse o ops).root
    let r' := (Vm.run lib parse o (ops ++ [op])).root
    (r'.log = r.log ∧ (r.manager.service.isSome → r'.manager.service.isSome)) ∨
    (∃ token status body, op = .grpcResponse token status body ∧ r'.log = r.log ++ [.responded token] ∧
      r'.manager.service = r.manager.service) ∨
    (∃ u keys tok, r'.log = r.log ++ [.requested u keys tok] ∧ r'.manager.service = some u ∧
      (∀ k ∈ keys, mapGet r.manager.embedded k.service = none ∧
        (mapGet r.manager.descriptors k = none ∨ mapGet r.manager.descriptors k = some .missing))) := by
  intro r r'
  have hinv : MInv lib ops r.log r.manager := minv_run ops
  have hr' : r' = ((Vm.run lib parse o ops).step lib parse o op).root := by
    show (Vm.run lib parse o (ops ++ [op])).root = _
    rw [vm_run_snoc]
  rcases step_root (lib := lib) (parse := parse) (o := o) (Vm.run lib parse o ops) op with
    ⟨r0, hm, hl, hr⟩ | ⟨token, status, body, rfl, hr⟩
  · rw [← hr'] at hr
    have h0 : (r.manager.service.isSome → r0.manager.service.isSome) ∧
        MInv lib ops r0.log r0.manager ∧
        ∀ k s, mapGet r.manager.descriptors k = some s → mapGet r0.manager.descriptors k = some s := by
      rw [hl]
      rcases hm with hm | ⟨cfg, -, -, -, hm⟩
      · rw [hm]; exact ⟨id, hinv, fun _ _ h => h⟩
      · have hs := services_same cfg.services r.manager
        rcases hm with ⟨hm, -⟩ | ⟨hm, -⟩
        · rw [hm]
          exact ⟨fun h => by rw [hs.2.2.1]; exact h, minv_services _ hinv, hs.2.2.2⟩
        · rw [hm]
          refine ⟨fun _ => ?_, minv_setService (minv_services _ hinv) _, fun k s hk => ?_⟩
          · simp only [prepared, Manager.setService]
            split
            · rename_i h; rw [h]; rfl
            · rfl
          · simp only [prepared, Manager.setService]
            split <;> exact hs.2.2.2 k s hk
    rcases hr with ⟨h1, h2⟩ | ⟨-, d, h1, h2⟩
    · exact .inl ⟨h2.trans hl, fun h => by rw [h1]; exact h0.1 h⟩
    · rcases fetch_log r0 d with ⟨h3, h4, -⟩ | ⟨u, -, h5, -, h3⟩
      · exact .inl ⟨h2.trans (h3.trans hl), fun h => by rw [h1, h4]; exact h0.1 h⟩
      · refine .inr (.inr ⟨u, _, _, h2.trans (h3.trans (by rw [hl])), by rw [h1]; exact h5, fun k hk => ?_⟩)
        have hmis := (mem_getMissing r0.manager h0.2.1.unique k).1 hk
        have he := h0.2.1.missing k hmis
        rw [h0.2.1.emb, ← hinv.emb] at he
        refine ⟨he, ?_⟩
        cases hs : mapGet r.manager.descriptors k with
        | none => exact .inl rfl
        | some s =>
          rw [h0.2.2 k s hs] at hmis
          exact .inr hmis
  · refine .inr (.inl ⟨token, status, body, rfl, ?_, ?_⟩)
    · rw [hr', hr]; rfl
    · rw [hr', hr]
      show (Manager.resetPending _ _).service = _
      simp only [Manager.resetPending]
      split
      · rfl
      · split
        · rfl
        · simp only [Manager.handleResponse]
          split
          · split
            · rfl
            · rename_i ds _
              exact handleAll_service ds _
          · rfl

theorem fetch_service (r : Root P) (d : Text → List DescKey → Option Nat) :
    (r.fetch d).manager.service = r.manager.service := by
  rcases fetch_log r d with ⟨-, h, -⟩ | ⟨u, h1, h2, -⟩
  · rw [h]
  · rw [h1, h2]

/-- Descriptors are fetched from the upstream of the last accepted configuration. -/
theorem service_eq (ops : List (VmOp H)) :
    (Vm.run lib parse o ops).root.manager.service = fetchesFrom parse ops := by
  induction ops using snoc_ind with
  | nil =>
    show (Manager.new lib).service = none
    unfold Manager.new Manager.registerEmbedded
    cases lib.build lib.ratelimit <;> cases lib.build lib.auth <;> rfl
  | snoc ops op ih =>
    rw [vm_run_snoc]
    unfold fetchesFrom at ih ⊢
    rw [List.foldl_append, ← ih]
    simp only [List.foldl_cons, List.foldl_nil]
    cases op with
    | configure cfg d ok =>
      cases cfg with
      | none => rfl
      | some cfg =>
        simp only [Vm.step]
        cases hc : compiled parse cfg with
        | none =>
          rw [(configure_rejected (Vm.run lib parse o ops).root cfg d ok hc).1,
            (services_same cfg.services _).2.2.1]
          simp
        | some f =>
          have hp : (prepared (Vm.run lib parse o ops).root cfg).manager.service = some cfg.descriptorService := by
            simp only [prepared, Manager.setService]
            split
            · rename_i h; exact h
            · rfl
          rcases (configure_accepted (Vm.run lib parse o ops).root cfg d ok hc).1 with ⟨h, -⟩ | ⟨h, -⟩
          · rw [h, fetch_service, hp]; simp
          · rw [h, hp]; simp
    | tick d => exact fetch_service _ d
    | grpcResponse t s b =>
      simp only [Vm.step, Root.onGrpcResponse, Manager.resetPending]
      split
      · rfl
      · split
        · rfl
        · simp only [Manager.handleResponse]
          split
          · split
            · rfl
            · exact handleAll_service _ _
          · rfl
    | create id => rfl
    | headers id h => rfl
    | event id e => rfl

/-- Once something was requested, the descriptor service is known. -/
theorem service_known (ops : List (VmOp H)) {u : Text} {keys : List DescKey} {tok : Option Nat}
    (h : RootEffect.requested u keys tok ∈ (Vm.run lib parse o ops).root.log) :
    (Vm.run lib parse o ops).root.manager.service.isSome := by
  induction ops using snoc_ind with
  | nil => exact nomatch h
  | snoc ops op ih =>
    rcases step_log (lib := lib) (parse := parse) (o := o) ops op with
      ⟨hl, hs⟩ | ⟨_, _, _, -, hl, hs⟩ | ⟨u', k', t', hl, hs, -⟩
    · rw [hl] at h; exact hs (ih h)
    · rw [hl] at h
      rw [hs]
      rcases List.mem_append.1 h with h | h
      · exact ih h
      · simp at h
    · rw [hs]; rfl

end Verif
