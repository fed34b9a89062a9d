import Verif.Lemmas.CelVars
import Verif.Props.Store
/-! C44, C45, C55: what an expression sees. -/
set_option linter.unusedSimpArgs false
namespace Verif.Props
open Verif Spec

theorem grpcPath_iff (p : Path) : isGrpcPath p = true ↔ grpcRoot <+: p := by
  unfold isGrpcPath grpcRoot
  rw [decide_eq_true_eq, List.prefix_iff_eq_take]
  exact eq_comm

/-- C45: every chain of selections in an expression is among the paths it reads, though perhaps with more fields
after it; those below `request.grpc` are noted separately. -/
theorem C45_covered (e : CelExpr) (p : Path) (h : Refers e p) :
    (∃ more, p ++ more ∈ (compileExpr e).attributes) ∨
    (∃ more, grpcRoot <+: p ++ more ∧ (compileExpr e).needsGrpc = true) := by
  obtain ⟨more, hm⟩ := refers_covered h {}
  by_cases hg : isGrpcPath (p ++ more) = true
  · refine .inr ⟨more, (grpcPath_iff _).mp hg, ?_⟩
    unfold compileExpr
    exact List.any_eq_true.mpr ⟨_, hm, hg⟩
  · exact .inl ⟨more, (compile_mem e _).mpr ⟨hm, by simpa using hg⟩⟩

/-- C45: if fields are selected from identifiers and the results of functions only, the paths read are exactly the
chains of selections in the expression. -/
theorem C45_exact (e : CelExpr) (h : PlainExpr e) (p : Path) :
    (p ∈ (compileExpr e).attributes ↔ Refers e p ∧ ¬grpcRoot <+: p) ∧
    ((compileExpr e).needsGrpc = true ↔ ∃ p, Refers e p ∧ grpcRoot <+: p) := by
  have hall : ∀ p, p ∈ (properties e {}).all ↔ Refers e p := fun p => by
    rw [(plain_adds e h {} (.inl rfl)).2]; simp
  constructor
  · rw [compile_mem, hall, ← grpcPath_iff]; simp
  · unfold compileExpr
    simp only [List.any_eq_true, hall, grpcPath_iff]

/-- C45: the fields of the bodies an expression waits for are exactly the literals its calls of the two functions
have as their only argument. -/
theorem C45_body_fields (e : CelExpr) (t : Text) :
    (t ∈ (compileExpr e).requestFields ↔ Part e (.call "requestBodyJSON".toList [.string t])) ∧
    (t ∈ (compileExpr e).responseFields ↔ Part e (.call "responseBodyJSON".toList [.string t])) := by
  unfold compileExpr
  exact ⟨by rw [request_fields]; simp, by rw [response_fields]; simp⟩

/-- The paths found in the data map. -/
theorem data_follow {ex : CelExpr} {s : ValueStore} {alive : List Text} {stored : List (Text × Val)}
    (hist : StoreHistory s alive stored) {get : Path → Ans Val} {m : List (Key × Val)}
    (h : dataMap s get (compileExpr ex) = .available m) {p : Path} (hp : p ∈ (compileExpr ex).attributes)
    {t : Text} {ts : Path} (hq : t :: ts <+: p) (ht : t ≠ [])
    (hfree : ∀ r, Above r (t :: ts) → stored.lookup (dotted r) = none)
    (hno : ∀ r, Above r (t :: ts) → r ∉ (compileExpr ex).attributes) :
    (∀ v, stored.lookup (dotted (t :: ts)) = some v → follow (.map m) (t :: ts) = some v) ∧
    (stored.lookup (dotted (t :: ts)) = none → t :: ts = p →
      (t ∈ rootsOfHost ∨ (∃ path v, (path, v) ∈ stored ∧ t ++ ['.'] <+: path) ∨ ∃ path ∈ alive, t ++ ['.'] <+: path) →
      ∃ v, get p = .available v ∧ follow (.map m) p = some v) := by
  have hget : ∀ path, s.get path = stored.lookup path := C24_latest s alive stored hist
  have hunder : ∀ r, Above r (t :: ts) → under [] r = dotted r := by
    intro r hr
    refine under_nil ?_
    cases r with
    | nil => exact absurd rfl hr.1
    | cons a as =>
      obtain ⟨rfl, _⟩ := List.cons_prefix_cons.mp hr.2.1
      exact ⟨a, as, rfl, ht⟩
  have hunder' : under [] (t :: ts) = dotted (t :: ts) := under_nil ⟨t, ts, rfl, ht⟩
  have htree := compile_tree ex (t :: ts) (by simp)
  have hkind : ∃ k, kindAt (attrTree (compileExpr ex).attributes) (t :: ts) = some k ∧ (t :: ts = p → k = some p) := by
    by_cases hv : IsValue (compileExpr ex).attributes (t :: ts)
    · rw [if_pos hv] at htree
      exact ⟨_, htree, fun he => by rw [he]⟩
    · rw [if_neg hv, if_pos] at htree
      · exact ⟨_, htree, fun he => absurd ⟨he ▸ hp, hno⟩ hv⟩
      · refine ⟨⟨p, hp, hq, fun he => hv ⟨he ▸ hp, hno⟩⟩, fun r hr hrq hrp => ?_⟩
        by_cases he : r = t :: ts
        · exact hv ⟨he ▸ hrp, hno⟩
        · exact hno r ⟨hr, hrq, he⟩ hrp
  obtain ⟨k, hk, hkp⟩ := hkind
  have hmain := map_follow (store := s) (get := get) h t ts (.inr ht) hk
    (fun r hr => by rw [hunder r hr, hget]; exact hfree r hr)
  rw [hunder', hget] at hmain
  constructor
  · intro v hv
    refine hmain.1 v hv ?_
    by_cases hts : ts = []
    · exact .inl hts
    · refine .inr fun hs => ?_
      have hm : (dotted (t :: ts), v) ∈ stored := by
        rw [List.lookup_eq_some_iff] at hv
        obtain ⟨a, b, rfl, _⟩ := hv
        simp
      have := (C25_prefix s alive stored hist (t ++ ['.'])).mpr (.inl ⟨_, v, hm, by
        unfold dotted
        rw [joinWith]
        · exact ⟨joinWith ['.'] ts, by simp⟩
        · exact hts⟩)
      rw [hs.2.2] at this
      cases this
  · intro hn he hvis
    obtain ⟨_, hv⟩ := hmain.2 hn (by
      rintro ⟨_, h1, h2⟩
      rcases hvis with h | h
      · revert h1
        suffices isHostRoot t = true by rw [this]; simp
        simp only [isHostRoot, List.contains_iff_mem]
        exact h
      · rw [← C25_prefix s alive stored hist] at h
        rw [h2] at h
        cases h)
    rw [← he] at hkp ⊢
    exact hv _ (hkp rfl)

/-- C44: following a path the expression reads in the data map leads to the attribute's value, if no beginning of
the path is read too and nothing is stored there. -/
theorem C44_reached (ex : CelExpr) (s : ValueStore) (alive : List Text) (stored : List (Text × Val))
    (hist : StoreHistory s alive stored) (get : Path → Ans Val) (m : List (Key × Val))
    (h : dataMap s get (compileExpr ex) = .available m) (p : Path) (hp : p ∈ (compileExpr ex).attributes)
    (root : Text) (hroot : p.head? = some root) (hhost : root ∈ rootsOfHost)
    (hfree : ∀ r, r ≠ [] → r <+: p → stored.lookup (dotted r) = none)
    (hno : ∀ r, Above r p → r ∉ (compileExpr ex).attributes) :
    ∃ v, get p = .available v ∧ follow (.map m) p = some v := by
  cases p with
  | nil => cases hroot
  | cons t ts =>
    cases hroot
    have ht : root ≠ [] := by rintro rfl; exact absurd hhost (by decide)
    exact (data_follow hist h hp (List.prefix_refl _) ht (fun r hr => hfree r hr.1 hr.2.1) hno).2
      (hfree _ (by simp) (List.prefix_refl _)) rfl (.inl hhost)

/-- C44: otherwise it leads to the value of the shortest beginning that is read. -/
theorem C44_shortest (ex : CelExpr) (s : ValueStore) (alive : List Text) (stored : List (Text × Val))
    (hist : StoreHistory s alive stored) (get : Path → Ans Val) (m : List (Key × Val))
    (h : dataMap s get (compileExpr ex) = .available m) (p : Path) (hp : p ∈ (compileExpr ex).attributes)
    (root : Text) (hroot : p.head? = some root) (hhost : root ∈ rootsOfHost)
    (hfree : ∀ r, r ≠ [] → r <+: p → stored.lookup (dotted r) = none) :
    ∃ q v, q ≠ [] ∧ q <+: p ∧ q ∈ (compileExpr ex).attributes ∧ (∀ r, Above r q → r ∉ (compileExpr ex).attributes) ∧
      get q = .available v ∧ follow (.map m) q = some v := by
  have hne : p ≠ [] := by rintro rfl; cases hroot
  obtain ⟨q, h1, h2, h3, h4⟩ := shortest (List.prefix_refl p) hne hp
  have hq : q.head? = some root := by
    obtain ⟨x, rfl⟩ := h2
    cases q with
    | nil => exact absurd rfl h1
    | cons a as => exact hroot
  obtain ⟨v, h5, h6⟩ := C44_reached ex s alive stored hist get m h q h3 root hq hhost
    (fun r hr hrq => hfree r hr (hrq.trans h2)) h4
  exact ⟨q, v, h1, h2, h3, h4, h5, h6⟩

/-- C44: a stored value takes the place of everything at and below its path. -/
theorem C44_stored (ex : CelExpr) (s : ValueStore) (alive : List Text) (stored : List (Text × Val))
    (hist : StoreHistory s alive stored) (get : Path → Ans Val) (m : List (Key × Val))
    (h : dataMap s get (compileExpr ex) = .available m) (p q : Path) (hp : p ∈ (compileExpr ex).attributes)
    (hq : q <+: p) (root : Text) (hroot : q.head? = some root) (hne : root ≠ []) (v : Val)
    (hv : stored.lookup (dotted q) = some v) (hfree : ∀ r, Above r q → stored.lookup (dotted r) = none)
    (hno : ∀ r, Above r q → r ∉ (compileExpr ex).attributes) : follow (.map m) q = some v := by
  cases q with
  | nil => cases hroot
  | cons t ts =>
    cases hroot
    exact (data_follow hist h hp hq hne hfree hno).1 v hv

/-- C44: the data map is available as soon as the attributes are and no writer of a path on the way to one of them
is alive without having stored a value. -/
theorem C44_available (ex : CelExpr) (s : ValueStore) (alive : List Text) (stored : List (Text × Val))
    (hist : StoreHistory s alive stored) (get : Path → Ans Val)
    (hnames : ∀ p ∈ (compileExpr ex).attributes, p.head? ≠ some [])
    (hget : ∀ p ∈ (compileExpr ex).attributes, ∃ v, get p = .available v)
    (hdone : ∀ p ∈ (compileExpr ex).attributes, ∀ q, q <+: p → dotted q ∈ alive → ∃ v, (dotted q, v) ∈ stored) :
    ∃ m, dataMap s get (compileExpr ex) = .available m := by
  refine map_available (ps := (compileExpr ex).attributes) ?_ hget [] _ ?_
  · rintro q hq ⟨p, hp, hqp⟩
    have hu : under [] q = dotted q := by
      refine under_nil ?_
      cases q with
      | nil => exact absurd rfl hq
      | cons t ts =>
        refine ⟨t, ts, rfl, ?_⟩
        rintro rfl
        obtain ⟨x, rfl⟩ := hqp
        exact hnames _ hp rfl
    rw [hu, Bool.eq_false_iff]
    intro hpend
    obtain ⟨h1, h2⟩ := (C24_pending s alive stored hist _).mp hpend
    obtain ⟨v, hv⟩ := hdone p hp q hqp h2
    exact h1 v hv
  · exact located_mono _ (fun p hp => ⟨hp, fun he => by have := compile_long ex p hp; rw [he] at this; simp at this⟩)
      [] trivial

/-- C44: it is pending or an error if an attribute is. -/
theorem C44_waits (ex : CelExpr) (s : ValueStore) (alive : List Text) (stored : List (Text × Val))
    (hist : StoreHistory s alive stored) (get : Path → Ans Val) (p : Path) (hp : p ∈ (compileExpr ex).attributes)
    (root : Text) (hroot : p.head? = some root) (hhost : root ∈ rootsOfHost)
    (hfree : ∀ r, r ≠ [] → r <+: p → stored.lookup (dotted r) = none)
    (hno : ∀ r, Above r p → r ∉ (compileExpr ex).attributes) (hget : ∀ v, get p ≠ .available v)
    (m : List (Key × Val)) : dataMap s get (compileExpr ex) ≠ .available m := by
  intro h
  obtain ⟨v, hv, _⟩ := C44_reached ex s alive stored hist get m h p hp root hroot hhost hfree hno
  exact hget v hv

/-! ### Variables -/


theorem host_iff (t : Text) : isHostRoot t = true ↔ t ∈ rootsOfHost := by
  simp only [isHostRoot, List.contains_iff_mem]
  exact Iff.rfl

/-- What is found in the data map is found from the variables. -/
theorem seen_of_follow {s : ValueStore} {grpc : Option Val} {scope : List (Text × Val)} {e : CompiledExpr}
    {m : List (Key × Val)} {vars : List (Text × Val)} {t : Text} {ts : Path} {v : Val}
    (hvars : mapGet vars t = varValue s grpc scope e m t) (hf : follow (.map m) (t :: ts) = some v)
    (hh : t ∉ hiddenRoots) (hg : t = "request".toList → ts ≠ [] ∧ ts.head? ≠ some "grpc".toList) :
    seenAt vars (t :: ts) = some v := by
  rw [follow_cons] at hf
  cases hk : keyGet m t with
  | none => rw [hk] at hf; cases hf
  | some w =>
    rw [hk] at hf
    have hf : follow w ts = some v := hf
    rw [seenAt, hvars]
    unfold varValue
    rw [if_neg (by rw [hk]; simp)]
    by_cases h1 : isHostRoot t = false
    · rw [if_pos ⟨h1, by rw [hk]; simp⟩, hk]
      exact hf
    · rw [if_neg (fun h => h1 h.1)]
      by_cases h2 : t ∈ fourRoots
      · rw [if_pos h2, hk]
        exact hf
      · rw [if_neg h2]
        have h3 : t = "request".toList := by
          have := (host_iff t).mp (by simpa using h1)
          simp only [rootsOfHost, hiddenRoots, fourRoots, List.mem_cons, List.not_mem_nil, or_false, not_or] at this hh h2
          rcases this with h | h | h | h | h | h | h | h
          · exact h
          · exact absurd h hh.1
          · exact absurd h h2.2.1
          · exact absurd h h2.2.2.1
          · exact absurd h hh.2.1
          · exact absurd h hh.2.2.1
          · exact absurd h hh.2.2.2
          · exact absurd h h2.1
        obtain ⟨hts, hgr⟩ := hg h3
        rw [if_pos h3]
        show follow (requestVal e grpc m) ts = some v
        unfold requestVal
        rw [h3] at hk
        rw [hk]
        simp only [Option.getD_some]
        split
        · cases ts with
          | nil => exact absurd rfl hts
          | cons u us =>
            cases w with
            | map fields =>
              rw [follow_cons] at hf
              simp only
              split
              · rw [follow_cons]
                have : ∀ g, keyGet (mapInsert fields (Key.str "grpc".toList) g) u = keyGet fields u := by
                  intro g
                  unfold keyGet
                  rw [mapGet_mapInsert, if_neg]
                  intro he
                  exact hgr (by rw [Key.str.inj he]; rfl)
                rw [this]
                exact hf
              · rw [follow_cons]; exact hf
            | _ => simp [follow] at hf
        · exact hf

/-- C55: an expression sees the value of each attribute it refers to under the path by which it refers to it. -/
theorem C55_attribute (ex : CelExpr) (hplain : PlainExpr ex) (s : ValueStore) (alive : List Text)
    (stored : List (Text × Val)) (hist : StoreHistory s alive stored) (get : Path → Ans Val) (grpc : Option Val)
    (req resp scope vars : List (Text × Val))
    (h : celVars s get grpc req resp scope (compileExpr ex) = .available vars) (p : Path) (href : Refers ex p)
    (root : Text) (hroot : p.head? = some root) (hvis : root ∈ visibleRoots) (hgrpc : ¬grpcRoot <+: p)
    (hfree : ∀ r, r ≠ [] → r <+: p → stored.lookup (dotted r) = none) (hno : ∀ r, Above r p → ¬Refers ex r) :
    ∃ v, get p = .available v ∧ seenAt vars p = some v := by
  obtain ⟨m, r, q, hm, _, _, _, _, hv⟩ := vars_get h
  have hp : p ∈ (compileExpr ex).attributes := (C45_exact ex hplain p).1.mpr ⟨href, hgrpc⟩
  have hhost : root ∈ rootsOfHost := by
    simp only [visibleRoots, List.mem_cons, List.not_mem_nil, or_false] at hvis
    rcases hvis with rfl | rfl | rfl | rfl <;> decide
  obtain ⟨v, h1, h2⟩ := C44_reached ex s alive stored hist get m hm p hp root hroot hhost hfree
    (fun r hr hrm => hno r hr ((C45_exact ex hplain r).1.mp hrm).1)
  refine ⟨v, h1, ?_⟩
  have hlen : 2 ≤ p.length := by
    have := compile_long ex p hp
    exact this
  cases p with
  | nil => cases hroot
  | cons t ts =>
    cases hroot
    have hne : root ≠ "@responseBodyJSON".toList ∧ root ≠ "@requestBodyJSON".toList ∧ root ∉ hiddenRoots := by
      simp only [visibleRoots, List.mem_cons, List.not_mem_nil, or_false] at hvis
      rcases hvis with rfl | rfl | rfl | rfl <;> decide
    refine seen_of_follow (hv root hne.1 hne.2.1) h2 hne.2.2 ?_
    rintro rfl
    refine ⟨by rintro rfl; simp at hlen, fun hh => hgrpc ?_⟩
    cases ts with
    | nil => cases hh
    | cons u us =>
      cases hh
      exact ⟨us, rfl⟩

/-- C55: an expression that refers to a path at or below a stored value sees the value stored last. -/
theorem C55_stored (ex : CelExpr) (hplain : PlainExpr ex) (s : ValueStore) (alive : List Text)
    (stored : List (Text × Val)) (hist : StoreHistory s alive stored) (get : Path → Ans Val) (grpc : Option Val)
    (req resp scope vars : List (Text × Val))
    (h : celVars s get grpc req resp scope (compileExpr ex) = .available vars) (p q : Path) (href : Refers ex p)
    (hgrpc : ¬grpcRoot <+: p) (hq : q <+: p) (root : Text) (hroot : q.head? = some root) (hne : root ≠ [])
    (hvis : root ∉ hiddenRoots) (hbody : root ∉ bodyNames) (hreq : q ≠ ["request".toList]) (v : Val)
    (hv : stored.lookup (dotted q) = some v) (hfree : ∀ r, Above r q → stored.lookup (dotted r) = none)
    (hno : ∀ r, Above r q → ¬Refers ex r) : seenAt vars q = some v := by
  obtain ⟨m, _, _, hm, _, _, _, _, hvars⟩ := vars_get h
  have hp : p ∈ (compileExpr ex).attributes := (C45_exact ex hplain p).1.mpr ⟨href, hgrpc⟩
  have hf := C44_stored ex s alive stored hist get m hm p q hp hq root hroot hne v hv hfree
    (fun r hr hrm => hno r hr ((C45_exact ex hplain r).1.mp hrm).1)
  cases q with
  | nil => cases hroot
  | cons t ts =>
    cases hroot
    simp only [bodyNames, List.mem_cons, List.not_mem_nil, or_false, not_or] at hbody
    refine seen_of_follow (hvars root hbody.2 hbody.1) hf hvis ?_
    rintro rfl
    refine ⟨by rintro rfl; exact hreq rfl, fun hh => hgrpc ?_⟩
    cases ts with
    | nil => cases hh
    | cons u us =>
      cases hh
      refine List.IsPrefix.trans ?_ hq
      exact ⟨us, rfl⟩

/-- C55: a value stored under a single name is seen under that name, whether or not fields of it are selected. -/
theorem C55_stored_name (ex : CelExpr) (s : ValueStore) (alive : List Text)
    (stored : List (Text × Val)) (hist : StoreHistory s alive stored) (get : Path → Ans Val) (grpc : Option Val)
    (req resp scope vars : List (Text × Val))
    (h : celVars s get grpc req resp scope (compileExpr ex) = .available vars) (name : Text) (hdot : '.' ∉ name)
    (hvis : name ∉ hiddenRoots) (hreq : name ≠ "request".toList) (hbody : name ∉ bodyNames) (v : Val)
    (hv : stored.lookup name = some v) : mapGet vars name = some v := by
  obtain ⟨m, _, _, hm, _, _, _, _, hvars⟩ := vars_get h
  simp only [bodyNames, List.mem_cons, List.not_mem_nil, or_false, not_or] at hbody
  have hget : s.get name = some v := by rw [C24_latest s alive stored hist, hv]
  rw [hvars name hbody.2 hbody.1]
  unfold varValue
  cases hk : keyGet m name with
  | none => rw [if_pos ⟨hdot, rfl, by rw [hget]; simp⟩, hget]
  | some w =>
    have hw : w = v := by
      have := map_get hm name
      cases hg : mapGet (attrTree (compileExpr ex).attributes) name with
      | none => rw [this.1 hg] at hk; cases hk
      | some tree =>
        have hpath : entryPath [] name = name := rfl
        rcases this.2 tree hg with ⟨v', h1, h2⟩ | ⟨h1, _⟩
        · rw [hpath, hget] at h1
          rw [hk] at h2
          cases h1; cases h2; rfl
        · rw [hpath, hget] at h1; cases h1
    subst hw
    rw [if_neg (by simp)]
    by_cases h1 : isHostRoot name = false
    · rw [if_pos ⟨h1, by simp⟩]
    · rw [if_neg (fun h => h1 h.1)]
      have hmem := (host_iff name).mp (by simpa using h1)
      have h2 : name ∈ fourRoots := by
        simp only [rootsOfHost, hiddenRoots, List.mem_cons, List.not_mem_nil, or_false, not_or] at hmem hvis
        rcases hmem with h | h | h | h | h | h | h | h
        · exact absurd h hreq
        · exact absurd h hvis.1
        · subst h; decide
        · subst h; decide
        · exact absurd h hvis.2.1
        · exact absurd h hvis.2.2.1
        · exact absurd h hvis.2.2.2
        · subst h; decide
      rw [if_pos h2]
      rfl

/-- C55: a variable of the context is what the expression sees under its name, unless the name is one of the five
roots or something is, or will be, stored at or below it. In particular nothing else is seen under the roots
`response`, `connection`, `ratelimit` and `filter_state`. -/
theorem C55_scope (ex : CelExpr) (s : ValueStore) (alive : List Text)
    (stored : List (Text × Val)) (hist : StoreHistory s alive stored) (get : Path → Ans Val) (grpc : Option Val)
    (req resp scope vars : List (Text × Val))
    (h : celVars s get grpc req resp scope (compileExpr ex) = .available vars) (name : Text)
    (hroots : name ∉ "auth".toList :: visibleRoots) (hbody : name ∉ bodyNames)
    (hself : stored.lookup name = none) (hbelow : ∀ path v, (path, v) ∈ stored → ¬name ++ ['.'] <+: path)
    (hwriters : ∀ path ∈ alive, ¬name ++ ['.'] <+: path) : mapGet vars name = mapGet scope name := by
  obtain ⟨m, _, _, hm, _, _, _, _, hvars⟩ := vars_get h
  simp only [bodyNames, List.mem_cons, List.not_mem_nil, or_false, not_or] at hbody
  have hget : s.get name = none := by rw [C24_latest s alive stored hist, hself]
  rw [hvars name hbody.2 hbody.1]
  unfold varValue
  rw [if_neg (by rw [hget]; simp)]
  have hpre : s.hasPrefix (name ++ ['.']) = false := by
    rw [Bool.eq_false_iff]
    intro hp
    rcases (C25_prefix s alive stored hist _).mp hp with ⟨path, v, h1, h2⟩ | ⟨path, h1, h2⟩
    · exact hbelow path v h1 h2
    · exact hwriters path h1 h2
  rw [if_neg, if_neg, if_neg]
  · rintro rfl; exact hroots (by decide)
  · intro hf
    simp only [fourRoots, List.mem_cons, List.not_mem_nil, or_false] at hf
    refine hroots ?_
    rcases hf with rfl | rfl | rfl | rfl <;> decide
  · rintro ⟨h1, h2⟩
    have := map_get hm name
    cases hg : mapGet (attrTree (compileExpr ex).attributes) name with
    | none => exact h2 (this.1 hg)
    | some tree =>
      have hpath : entryPath [] name = name := rfl
      rcases this.2 tree hg with ⟨v', h3, _⟩ | ⟨_, _, ⟨_, h3⟩ | ⟨h3, _⟩⟩
      · rw [hpath, hget] at h3; cases h3
      · exact h2 h3
      · exact h3 ⟨rfl, h1, hpre⟩

/-- C55: under the five roots a variable of the context is never seen. -/
theorem C55_five_roots (ex : CelExpr) (s : ValueStore) (get : Path → Ans Val) (grpc : Option Val)
    (req resp scope scope' vars vars' : List (Text × Val))
    (h : celVars s get grpc req resp scope (compileExpr ex) = .available vars)
    (h' : celVars s get grpc req resp scope' (compileExpr ex) = .available vars') (name : Text)
    (hroots : name ∈ "auth".toList :: visibleRoots) : mapGet vars name = mapGet vars' name := by
  obtain ⟨m, _, _, hm, _, _, _, _, hvars⟩ := vars_get h
  obtain ⟨m', _, _, hm', _, _, _, _, hvars'⟩ := vars_get h'
  rw [hm] at hm'
  cases hm'
  have hne : name ≠ "@responseBodyJSON".toList ∧ name ≠ "@requestBodyJSON".toList ∧
      (name ∈ fourRoots ∨ name = "request".toList) := by
    simp only [visibleRoots, List.mem_cons, List.not_mem_nil, or_false] at hroots
    rcases hroots with rfl | rfl | rfl | rfl | rfl <;> decide
  rw [hvars name hne.1 hne.2.1, hvars' name hne.1 hne.2.1]
  unfold varValue
  split
  · rfl
  · split
    · rfl
    · split
      · rfl
      · rw [if_pos (hne.2.2.resolve_left ‹_›), if_pos (hne.2.2.resolve_left ‹_›)]

/-- C55: a root of which no field is selected is null, unless a value is stored under its name. -/
theorem C55_bare_root (ex : CelExpr) (hplain : PlainExpr ex) (s : ValueStore) (alive : List Text)
    (stored : List (Text × Val)) (hist : StoreHistory s alive stored) (get : Path → Ans Val) (grpc : Option Val)
    (req resp scope vars : List (Text × Val))
    (h : celVars s get grpc req resp scope (compileExpr ex) = .available vars) (name : Text)
    (hroots : name ∈ "auth".toList :: visibleRoots) (hno : ∀ p, Refers ex p → p.head? ≠ some name)
    (hself : stored.lookup name = none) : mapGet vars name = some .null := by
  obtain ⟨m, _, _, hm, _, _, _, _, hvars⟩ := vars_get h
  have hne : name ≠ "@responseBodyJSON".toList ∧ name ≠ "@requestBodyJSON".toList ∧
      (name ∈ fourRoots ∨ name = "request".toList) ∧ name ≠ [] := by
    simp only [visibleRoots, List.mem_cons, List.not_mem_nil, or_false] at hroots
    rcases hroots with rfl | rfl | rfl | rfl | rfl <;> decide
  have hget : s.get name = none := by rw [C24_latest s alive stored hist, hself]
  have hk : keyGet m name = none := by
    refine (map_get hm name).1 ?_
    have hkind := compile_tree ex [name] (by simp)
    have hbad : ∀ p ∈ (compileExpr ex).attributes, ¬[name] <+: p := by
      rintro p hp ⟨x, rfl⟩
      exact hno _ ((C45_exact ex hplain _).1.mp hp).1 rfl
    rw [if_neg (fun hv => hbad _ hv.1 (List.prefix_refl _)),
      if_neg (fun hn => by obtain ⟨⟨p, hp, hpre, _⟩, _⟩ := hn; exact hbad p hp hpre)] at hkind
    unfold kindAt at hkind
    split at hkind
    · assumption
    · simp at hkind
    · simp [kindAt] at hkind
  rw [hvars name hne.1 hne.2.1]
  unfold varValue
  rw [if_neg (by rw [hget]; simp), if_neg (by rw [hk]; simp)]
  split
  · rw [hk]; rfl
  · have hr := hne.2.2.1.resolve_left ‹_›
    rw [if_pos hr]
    unfold requestVal
    have hg : (compileExpr ex).needsGrpc = false := by
      rw [Bool.eq_false_iff]
      intro hg
      obtain ⟨p, hp, x, rfl⟩ := (C45_exact ex hplain []).2.mp hg
      exact hno _ hp (by rw [hr]; rfl)
    rw [← hr, hk, hg]
    rfl

theorem bodyMap_get {values : List (Text × Val)} {fs : List Text} {m : List (Key × Val)}
    (h : bodyMap values fs = some m) (f : Text) :
    keyGet m f = if f ∈ fs then mapGet values f else none := by
  induction fs generalizing m with
  | nil => cases h; rfl
  | cons g gs ih =>
    unfold bodyMap at h
    cases hv : mapGet values g with
    | none => rw [hv] at h; cases h
    | some v =>
      rw [hv] at h
      cases hb : bodyMap values gs with
      | none => rw [hb] at h; cases h
      | some m' =>
        rw [hb] at h
        cases h
        have := ih hb
        unfold keyGet at this ⊢
        rw [mapGet_mapInsert, this]
        by_cases he : f = g
        · subst he; simp [hv]
        · have : Key.str f ≠ Key.str g := fun h => he (Key.str.inj h)
          simp [he, this]

theorem bodyMap_some {values : List (Text × Val)} {fs : List Text} {m : List (Key × Val)}
    (h : bodyMap values fs = some m) (f : Text) (hf : f ∈ fs) : ∃ v, mapGet values f = some v := by
  induction fs generalizing m with
  | nil => cases hf
  | cons g gs ih =>
    unfold bodyMap at h
    cases hv : mapGet values g with
    | none => rw [hv] at h; cases h
    | some v =>
      rw [hv] at h
      cases hb : bodyMap values gs with
      | none => rw [hb] at h; cases h
      | some m' =>
        rcases List.mem_cons.mp hf with rfl | hf
        · exact ⟨v, hv⟩
        · exact ih hb hf

/-- C55: a call of one of the two functions with a literal gives the field of the body, and the expression is not
evaluated before that is known. -/
theorem C55_body (ex : CelExpr) (s : ValueStore) (get : Path → Ans Val) (grpc : Option Val)
    (req resp scope vars : List (Text × Val))
    (h : celVars s get grpc req resp scope (compileExpr ex) = .available vars) (t : Text) :
    (Part ex (.call "requestBodyJSON".toList [.string t]) →
      ∃ v, mapGet req t = some v ∧ bodyLookup vars "@requestBodyJSON".toList t = some v) ∧
    (Part ex (.call "responseBodyJSON".toList [.string t]) →
      ∃ v, mapGet resp t = some v ∧ bodyLookup vars "@responseBodyJSON".toList t = some v) := by
  obtain ⟨m, r, q, hm, hr, hq, h1, h2, _⟩ := vars_get h
  constructor
  · intro hp
    have hmem := (C45_body_fields ex t).1.mpr hp
    obtain ⟨v, hv⟩ := bodyMap_some hq t hmem
    refine ⟨v, hv, ?_⟩
    unfold bodyLookup
    rw [h1]
    simp only
    rw [bodyMap_get hq, if_pos hmem, hv]
    rfl
  · intro hp
    have hmem := (C45_body_fields ex t).2.mpr hp
    obtain ⟨v, hv⟩ := bodyMap_some hr t hmem
    refine ⟨v, hv, ?_⟩
    unfold bodyLookup
    rw [h2]
    simp only
    rw [bodyMap_get hr, if_pos hmem, hv]
    rfl

/-- Any other field is null, whatever the body contains. -/
theorem C55_body_other (ex : CelExpr) (s : ValueStore) (get : Path → Ans Val) (grpc : Option Val)
    (req resp scope vars : List (Text × Val))
    (h : celVars s get grpc req resp scope (compileExpr ex) = .available vars) (t : Text)
    (hno : ¬Part ex (.call "requestBodyJSON".toList [.string t])) :
    bodyLookup vars "@requestBodyJSON".toList t = some .null := by
  obtain ⟨m, r, q, hm, hr, hq, h1, h2, _⟩ := vars_get h
  unfold bodyLookup
  rw [h1]
  simp only
  rw [bodyMap_get hq, if_neg (fun hm => hno ((C45_body_fields ex t).1.mp hm))]
  rfl

end Verif.Props
