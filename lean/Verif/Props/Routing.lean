import Verif.Lemmas.Truth
import Verif.Lemmas.Routing
import Verif.Props.Demo
/-! C17-C20, C47: which action set serves a request. -/
set_option linter.unusedSimpArgs false
namespace Verif.Props
open Verif Spec

variable {H : Type} (o : Oracle H)

/-- C17: a request is routed by the most specific configured hostname that covers its host (the host itself if it
is configured, else the longest wildcard), among the action sets configured for that hostname; if no configured
hostname covers the host there is no match. `$` marks the start of a hostname in the index, so no hostname may
contain it, and the host must not itself begin with `*`. -/
theorem C17_most_specific (parse : Text → Option Expr) (cfg : PluginConfig) (factory : Factory)
    (hf : Factory.tryFrom parse cfg = some factory) (hc : ∀ p ∈ patterns cfg, '$' ∉ p)
    (c : Ctx H) (raw : Text) (h : H) (hraw : o.hostname c = (.available (some raw), h))
    (hd : '$' ∉ hostOf raw) (hs : (hostOf raw).head? ≠ some '*') :
    (∃ p, Best cfg (hostOf raw) p ∧ ∃ pick,
      FirstOf o parse (c.withHost h) (candidates cfg p) pick (factory.select o c).2 ∧
      Chosen parse cfg pick (factory.select o c).1) ∨
    ((∀ p ∈ patterns cfg, ¬ Covers p (hostOf raw)) ∧ (factory.select o c).1 = .none) := by
  have hg : getHostname o c = (some (hostOf raw), c.withHost h) := by
    unfold getHostname; rw [hraw]; rfl
  obtain ⟨_, _, hfb⟩ := tryFrom_index hf
  unfold Factory.select
  rw [hg]
  dsimp only
  rcases entry_spec hf hd hs hc with ⟨h1, h2⟩ | ⟨k, bs, p, h1, h2, h3⟩
  · rw [h1]
    exact .inr ⟨h2, rfl⟩
  · rw [h1]
    dsimp only
    refine .inl ⟨p, h2, ?_⟩
    obtain ⟨pick, g1, g2⟩ := firstMatch_pick o (candidates cfg p) bs h3 (c.withHost h)
    refine ⟨pick, ?_⟩
    generalize firstMatch o (c.withHost h) bs = r at g1 g2 ⊢
    obtain ⟨r, c'⟩ := r
    rcases g2 with ⟨rfl, rfl⟩ | ⟨g2, g3⟩
    · dsimp only
      cases hdm : devModeAction cfg with
      | none =>
        rw [hfb, hdm]
        exact ⟨g1, .none (devMode_none.1 hdm)⟩
      | some a =>
        rw [hfb, hdm]
        exact ⟨g1, .fallback a hdm⟩
    · cases r with
      | none => exact absurd rfl g2
      | found b => exact ⟨g1, g3⟩
      | error => exact ⟨g1, g3⟩

/-- There is only one most specific hostname. -/
theorem C17_unique (cfg : PluginConfig) (host p q : Text) (hs : host.head? ≠ some '*')
    (hp : Best cfg host p) (hq : Best cfg host q) : p = q := hp.unique hs hq

/-- C17: an exactly configured host is used. -/
theorem C17_exact (cfg : PluginConfig) (host : Text) (h : host ∈ patterns cfg) : Best cfg host host :=
  ⟨h, .exact _, fun _ _ _ => .inl rfl⟩

/-- C17: a wildcard does not cover the bare suffix. -/
theorem C17_not_bare (suffix : Text) : ¬ Covers ("*.".toList ++ suffix) suffix := by
  intro h
  have : ∀ p host, Covers p host → p.length ≤ host.length + 1 := by
    intro p host h
    cases h <;> simp
  have := this _ _ h
  simp at this
  exact absurd this (Nat.not_succ_le_self _)

/-- C17: a hostname that is no wildcard covers itself only. -/
theorem C17_other_exact (p host : Text) (hp : p.head? ≠ some '*') (h : Covers p host) : p = host := by
  cases h with
  | exact => rfl
  | wildcard => simp at hp

/-- The host of a request is given by the world. -/
def hostWorld (host : String) : Oracle Nat :=
  { Demo.world with hostname := fun c => (.available (some host.toList), c.host) }

/-- An action set with a call, for one hostname. -/
def hostSet (name host predicate : String) : ActionSet where
  name := name.toList
  hostnames := [host.toList]
  predicates := [predicate.toList]
  actions := [Demo.grpc "deny"]

/-- Several action sets. -/
def hostConfig (sets : List ActionSet) (header : Option String := none) : PluginConfig where
  services := Demo.services
  headerIdentifier := header.map (·.toList)
  actionSets := sets

/-- The set used for a request, by name. -/
def chosen (world : Oracle Nat) (cfg : PluginConfig) : Option String :=
  match ((Demo.factory cfg).select world { host := 0 }).1 with
  | .found b => some (String.ofList b.name)
  | .none => none
  | .error => some "error"

def wildSets : List ActionSet :=
  [hostSet "all" "*" "true", hostSet "com" "*.COM" "true", hostSet "ex" "*.example.com" "true",
    hostSet "a" "a.example.com" "true"]

example : chosen (hostWorld "A.example.com:80") (hostConfig wildSets) = some "a" ∧
    chosen (hostWorld "b.example.com") (hostConfig wildSets) = some "ex" ∧
    chosen (hostWorld "example.com") (hostConfig wildSets) = some "com" ∧
    chosen (hostWorld "com") (hostConfig wildSets) = some "all" := by decide +kernel

/-- The theorem applied to a request. -/
example : ∃ p pick, Best (hostConfig wildSets) "b.example.com".toList p ∧
    FirstOf (hostWorld "B.example.com:1") Demo.parse { host := 0 } (candidates (hostConfig wildSets) p) pick
      ((Demo.factory (hostConfig wildSets)).select (hostWorld "B.example.com:1") { host := 0 }).2 ∧ p = "*.example.com".toList := by
  have hb : Best (hostConfig wildSets) "b.example.com".toList "*.example.com".toList := by
    refine ⟨by decide, .wildcard "b".toList ".example.com".toList, ?_⟩
    intro q hq _
    have : ∀ q ∈ patterns (hostConfig wildSets), "*.example.com".toList = "b.example.com".toList ∨
        q ≠ "b.example.com".toList ∧ q.length ≤ "*.example.com".toList.length := by decide
    exact this q hq
  rcases C17_most_specific (hostWorld "B.example.com:1") Demo.parse (hostConfig wildSets) _
    (Demo.factory_eq _ (by decide +kernel)) (by decide) { host := 0 } "B.example.com:1".toList 0 rfl (by decide)
    (by decide) with ⟨p, h1, pick, h2, _⟩ | ⟨h1, _⟩
  · exact ⟨p, pick, h1, h2, h1.unique (by decide) hb⟩
  · exact absurd (.wildcard "b".toList ".example.com".toList) (h1 "*.example.com".toList (by decide))

/-- A host that contains `$` is taken for the hostname after it: the restriction of C17 is needed. -/
theorem C17_dollar : ∃ (cfg : PluginConfig) (factory : Factory) (c : Ctx Nat) (b : Blueprint),
    Factory.tryFrom Demo.parse cfg = some factory ∧ patterns cfg = ["example.com".toList] ∧
    (hostWorld "evil$example.com").hostname c = (.available (some "evil$example.com".toList), 0) ∧
    ¬ Covers "example.com".toList "evil$example.com".toList ∧
    (factory.select (hostWorld "evil$example.com") c).1 = .found b :=
  ⟨hostConfig [hostSet "s" "example.com" "true"], _, { host := 0 }, _,
    Demo.factory_eq _ (by decide +kernel), by decide, rfl,
    fun h => absurd (C17_other_exact _ _ (by decide) h) (by decide), rfl⟩

/-- A less specific hostname is not tried when no set of the most specific one matches. -/
theorem C17_no_backtracking : ∃ (cfg : PluginConfig) (factory : Factory) (c : Ctx Nat),
    Factory.tryFrom Demo.parse cfg = some factory ∧
    candidates cfg "*.example.com".toList = [hostSet "wild" "*.example.com" "true"] ∧
    Covers "*.example.com".toList "a.example.com".toList ∧
    (hostWorld "a.example.com").hostname c = (.available (some "a.example.com".toList), 0) ∧
    (factory.select (hostWorld "a.example.com") c).1 = .none :=
  ⟨hostConfig [hostSet "wild" "*.example.com" "true", hostSet "exact" "a.example.com" "false"], _, { host := 0 },
    Demo.factory_eq _ (by decide +kernel), rfl, .wildcard "a".toList ".example.com".toList, rfl, rfl⟩

/-- Two texts that differ only in the case of the letters A to Z. -/
def SameLetters (a b : Text) : Prop :=
  a.length = b.length ∧ ∀ (i : Nat) x y, a[i]? = some x → b[i]? = some y →
    x = y ∨ ('A' ≤ x ∧ x ≤ 'Z' ∧ y.toNat = x.toNat + 32) ∨ ('A' ≤ y ∧ y ≤ 'Z' ∧ x.toNat = y.toNat + 32)

theorem lower_char {x y : Char} (h : x = y ∨ ('A' ≤ x ∧ x ≤ 'Z' ∧ y.toNat = x.toNat + 32) ∨
    ('A' ≤ y ∧ y ≤ 'Z' ∧ x.toNat = y.toNat + 32)) : asciiLower [x] = asciiLower [y] := by
  have key : ∀ x y : Char, 'A' ≤ x → x ≤ 'Z' → y.toNat = x.toNat + 32 → asciiLower [x] = asciiLower [y] := by
    intro x y h1 h2 h3
    have h1' : 65 ≤ x.toNat := UInt32.le_iff_toNat_le.1 h1
    have h2' : x.toNat ≤ 90 := UInt32.le_iff_toNat_le.1 h2
    have hy : ¬ ('A' ≤ y ∧ y ≤ 'Z') := by
      rintro ⟨_, g⟩
      have : y.toNat ≤ 90 := UInt32.le_iff_toNat_le.1 g
      omega
    simp only [asciiLower, List.map_cons, List.map_nil, if_pos (And.intro h1 h2), if_neg hy, ← h3,
      Char.ofNat_toNat]
  rcases h with rfl | ⟨h1, h2, h3⟩ | ⟨h1, h2, h3⟩
  · rfl
  · exact key x y h1 h2 h3
  · exact (key y x h1 h2 h3).symm

theorem lower_same {a b : Text} (h : SameLetters a b) : asciiLower a = asciiLower b := by
  induction a generalizing b with
  | nil =>
    have : b = [] := List.length_eq_zero_iff.1 h.1.symm
    rw [this]
  | cons x a ih =>
    cases b with
    | nil => simp [SameLetters] at h
    | cons y b =>
      have h0 := lower_char (h.2 0 x y rfl rfl)
      have ht := ih (b := b) ⟨by simpa using h.1, fun i x' y' hx hy => h.2 (i + 1) x' y' (by simpa using hx) (by simpa using hy)⟩
      simp only [asciiLower, List.map_cons, List.map_nil, List.cons.injEq, and_true] at h0 ht ⊢
      exact ⟨h0, ht⟩

/-- Two request hosts that differ only in case or in what follows the first colon. -/
inductive SameHost : Text → Text → Prop
  | mk {a b portA portB : Text} (h : SameLetters a b) (ha : ':' ∉ a) (hb : ':' ∉ b)
      (hpa : portA = [] ∨ portA.head? = some ':') (hpb : portB = [] ∨ portB.head? = some ':') :
      SameHost (a ++ portA) (b ++ portB)

theorem stripPort_append {a port : Text} (ha : ':' ∉ a) (hp : port = [] ∨ port.head? = some ':') :
    stripPort (a ++ port) = a := by
  unfold stripPort
  rw [List.takeWhile_append_of_pos (by intro x hx; simp; rintro rfl; exact ha hx)]
  rcases hp with rfl | hp
  · simp
  · cases port with
    | nil => simp
    | cons x port => simp at hp; subst hp; simp

theorem firstMatch_hostname (g : Ctx H → Ans (Option Text) × H) (c : Ctx H) (bs : List Blueprint) :
    firstMatch { o with hostname := g } c bs = firstMatch o c bs := by
  have hp : ∀ (c : Ctx H) e, testPred { o with hostname := g } c [] e = testPred o c [] e := fun _ _ => rfl
  have hl : ∀ ps (c : Ctx H), testAllLoop { o with hostname := g } c ps = testAllLoop o c ps := by
    intro ps
    induction ps with
    | nil => intro c; rfl
    | cons p ps ih =>
      intro c
      simp only [testAllLoop, hp, ih]
  have ha : ∀ ps (c : Ctx H), testAll { o with hostname := g } c ps = testAll o c ps := by
    intro ps c
    simp only [testAll, hl]
  induction bs generalizing c with
  | nil => rfl
  | cons b bs ih => simp only [firstMatch, ha, ih]

/-- C18: requests whose hosts differ only in case or port are given the same action set. The two worlds are alike
except for the host. -/
theorem C18_host (factory : Factory) (raw raw' : Text) (h : H) (hsame : SameHost raw raw') (c : Ctx H) :
    factory.select { o with hostname := fun _ => (.available (some raw), h) } c =
    factory.select { o with hostname := fun _ => (.available (some raw'), h) } c := by
  have hstrip : asciiLower (stripPort raw) = asciiLower (stripPort raw') := by
    cases hsame with
    | mk hl ha hb hpa hpb => rw [stripPort_append ha hpa, stripPort_append hb hpb, lower_same hl]
  have hg : getHostname { o with hostname := fun _ => (.available (some raw), h) } c =
      getHostname { o with hostname := fun _ => (.available (some raw'), h) } c := by
    unfold getHostname; dsimp only; rw [hstrip]
  unfold Factory.select
  rw [hg]
  simp only [firstMatch_hostname o]

/-- C18: the case of configured hostnames does not matter. -/
theorem C18_config (parse : Text → Option Expr) (cfg : PluginConfig) (g : ActionSet → List Text)
    (hsame : ∀ s ∈ cfg.actionSets, (g s).length = s.hostnames.length ∧
      ∀ (i : Nat) a b, s.hostnames[i]? = some a → (g s)[i]? = some b → SameLetters a b) :
    Factory.tryFrom parse { cfg with actionSets := cfg.actionSets.map fun s => { s with hostnames := g s } } =
      Factory.tryFrom parse cfg := by
  have hfold : ∀ (b : Blueprint) (hs hs' : List Text) (x : List (Text × List Blueprint)),
      hs'.length = hs.length → (∀ (i : Nat) a b, hs[i]? = some a → hs'[i]? = some b → SameLetters a b) →
      hs'.foldl (fun index h => indexInsert index (reverseSubdomain (asciiLower h)) b) x =
      hs.foldl (fun index h => indexInsert index (reverseSubdomain (asciiLower h)) b) x := by
    intro b hs
    induction hs with
    | nil =>
      intro hs' x hl _
      have : hs' = [] := List.length_eq_zero_iff.1 hl
      rw [this]
    | cons h hs ih =>
      intro hs' x hl hs2
      cases hs' with
      | nil => simp at hl
      | cons h' hs' =>
        rw [List.foldl_cons, List.foldl_cons, lower_same (hs2 0 h h' rfl rfl)]
        exact ih hs' _ (by simpa using hl) fun i a b ha hb => hs2 (i + 1) a b (by simpa using ha) (by simpa using hb)
  have hloop : ∀ (ss : List ActionSet) (x : List (Text × List Blueprint)), (∀ s ∈ ss, s ∈ cfg.actionSets) →
      indexLoop parse { cfg with actionSets := cfg.actionSets.map fun s => { s with hostnames := g s } } x
        (ss.map fun s => { s with hostnames := g s }) = indexLoop parse cfg x ss := by
    intro ss
    induction ss with
    | nil => intro x _; rfl
    | cons s ss ih =>
      intro x hss
      obtain ⟨h1, h2⟩ := hsame s (hss s (by simp))
      rw [List.map_cons]
      unfold indexLoop
      have hcomp : Blueprint.compile parse cfg.services { s with hostnames := g s } =
          Blueprint.compile parse cfg.services s := rfl
      dsimp only
      rw [hcomp]
      split
      · rfl
      · have hdev : devModeAction { cfg with actionSets := cfg.actionSets.map fun s => { s with hostnames := g s } } =
            devModeAction cfg := rfl
        rw [hdev, hfold _ _ _ _ h1 h2]
        exact ih _ fun s hs => hss s (by simp [hs])
  unfold Factory.tryFrom
  dsimp only
  rw [hloop cfg.actionSets [] fun _ h => h]
  rfl

example : SameHost "A.b:443".toList "a.B".toList :=
  .mk (a := ['A', '.', 'b']) (b := ['a', '.', 'B']) (portA := ":443".toList) (portB := [])
    ⟨rfl, fun i x y hx hy => by
      match i with
      | 0 => cases hx; cases hy; exact .inr (.inl (by decide))
      | 1 => cases hx; cases hy; exact .inl rfl
      | 2 => cases hx; cases hy; exact .inr (.inr (by decide))
      | n + 3 => simp at hx⟩ (by decide) (by decide) (.inr rfl) (.inl rfl)

example : chosen (hostWorld "EXAMPLE.com:1") (hostConfig wildSets) = chosen (hostWorld "example.com") (hostConfig wildSets) := by
  decide +kernel

/-- The outcome of the route predicates of a set, when it does not depend on when they are tested. -/
def outcome (parse : Text → Option Expr) (holds : Expr → Ans Bool) (s : ActionSet) : Ans Bool :=
  (((s.predicates.filterMap parse).map holds).find? (· ≠ .available true)).getD (.available true)

/-- C47: if the outcome of each predicate does not depend on when it is tested, the first outcome that is not true
is the outcome of the list, and a list without such an outcome holds. -/
theorem C47_first_outcome (holds : Expr → Ans Bool) (ps : List Expr)
    (h : ∀ p ∈ ps, ∀ c : Ctx H, (tests o c [] p).1 = holds p) (c : Ctx H) :
    (testAll o c ps).1 = ((ps.map holds).find? (· ≠ .available true)).getD (.available true) := by
  have hl : ∀ (ps : List Expr) (c : Ctx H), (∀ p ∈ ps, ∀ c : Ctx H, (tests o c [] p).1 = holds p) →
      (testAllLoop o c ps).1 = ((ps.map holds).find? (· ≠ .available true)).getD (.available true) := by
    intro ps
    induction ps with
    | nil => intro c _; rfl
    | cons p ps ih =>
      intro c h
      have hp := h p (by simp) c
      rw [← testPred_tests] at hp
      have ih := fun c => ih c fun q hq => h q (by simp [hq])
      unfold testAllLoop
      split <;> rename_i heq <;> rw [heq] at hp <;> dsimp only at hp <;>
        simp only [List.map_cons, List.find?_cons, ← hp]
      · simpa using ih _
      · simp
      · simp
      · simp
  unfold testAll
  split
  · rename_i he
    have : ps = [] := by simpa using he
    subst this
    rfl
  · exact hl ps _ h

/-- C47, in general: predicates are tested from left to right, each in the context the one before left behind,
until one is not true, which decides. Before that the host is asked for the attributes. -/
theorem C47_left_to_right (c : Ctx H) (ps : List Expr) (hne : ps ≠ []) :
    Conj o (c.withHost (o.ensure c ps)) ps (testAll o c ps).1 (testAll o c ps).2 := by
  unfold testAll
  rw [if_neg (by simpa using hne)]
  exact testAllLoop_conj o _ _

theorem C47_empty (c : Ctx H) : testAll o c [] = (.available true, c) := rfl

/-- True, then false, then failing: false. True, then failing, then false: failing. -/
example : (testAll Demo.world ({ host := 0 } : Ctx Nat)
      [Demo.const (.bool true), Demo.const (.bool false), Demo.const .null]).1 = .available false ∧
    (testAll Demo.world ({ host := 0 } : Ctx Nat)
      [Demo.const (.bool true), Demo.const .null, Demo.const (.bool false)]).1 = .err := by decide +kernel

example : ∀ p ∈ [Demo.const (.bool true), Demo.const .null], ∀ c : Ctx Nat, (tests Demo.world c [] p).1 =
    (fun e : Expr => match e.lit with | some (.bool b) => Ans.available b | _ => .err) p := by
  intro p hp c
  rcases List.mem_cons.1 hp with rfl | hp
  · rfl
  · rcases List.mem_singleton.1 hp with rfl; rfl

theorem routes_outcome {parse : Text → Option Expr} {holds : Expr → Ans Bool} {s : ActionSet} {c c' : Ctx H}
    {a : Ans Bool} (h : ∀ t ∈ s.predicates, ∀ p, parse t = some p → ∀ c : Ctx H, (tests o c [] p).1 = holds p)
    (hr : Routes o parse c s a c') : a = outcome parse holds s := by
  cases hr with
  | always hp ha hc => subst ha; simp [outcome, hp]
  | test es hne hp hc =>
    have hes : s.predicates.filterMap parse = es := by
      have : (s.predicates.map parse).filterMap id = (es.map some).filterMap id := by rw [hp]
      simpa [List.filterMap_map, Function.comp_def] using this
    have hh : ∀ p ∈ es, ∀ c : Ctx H, (tests o c [] p).1 = holds p := by
      intro p hpm
      rw [← hes] at hpm
      obtain ⟨t, ht, htp⟩ := List.mem_filterMap.1 hpm
      exact h t ht p htp
    have := (hc.unique (C47_left_to_right o c es hne)).1
    rw [this, C47_first_outcome o holds es hh c, outcome, hes]

/-- C19: among the action sets configured for the selected hostname the first one in configuration order whose
route predicates do not turn out false decides: it serves the request if they hold, and otherwise the selection
fails. If all are false there is no match, except for the fallback of developer mode. Here the outcome of a
predicate does not depend on when it is tested; C17_most_specific says the same without this assumption. -/
theorem C19_first_set (parse : Text → Option Expr) (cfg : PluginConfig) (factory : Factory)
    (hf : Factory.tryFrom parse cfg = some factory) (hc : ∀ p ∈ patterns cfg, '$' ∉ p)
    (c : Ctx H) (raw : Text) (h : H) (hraw : o.hostname c = (.available (some raw), h))
    (hd : '$' ∉ hostOf raw) (hs : (hostOf raw).head? ≠ some '*')
    (p : Text) (hp : Best cfg (hostOf raw) p) (holds : Expr → Ans Bool)
    (hh : ∀ s ∈ cfg.actionSets, ∀ t ∈ s.predicates, ∀ e, parse t = some e → ∀ c : Ctx H,
      (tests o c [] e).1 = holds e) :
    match (cfg.actionSets.filter fun s => s.hostnames.any fun q => asciiLower q = p).find?
      (fun s => outcome parse holds s ≠ .available false) with
    | some s => if outcome parse holds s = .available true
        then ∃ b, blueprintOf parse cfg s = some b ∧ (factory.select o c).1 = .found b
        else (factory.select o c).1 = .error
    | none => match devModeAction cfg with
        | none => (factory.select o c).1 = .none
        | some a => (factory.select o c).1 =
            .found { name := "kuadrant.devMode".toList, routePredicates := [], actions := [a] } := by
  have hfind : ∀ ss : List ActionSet, (ss.filter fun s => s.hostnames.any fun q => asciiLower q = p).find?
        (fun s => outcome parse holds s ≠ .available false) =
      (ss.flatMap fun s => (s.hostnames.filter fun h => asciiLower h = p).map fun _ => s).find?
        (fun s => outcome parse holds s ≠ .available false) := by
    intro ss
    induction ss with
    | nil => rfl
    | cons s ss ih =>
      rw [List.flatMap_cons, List.find?_append, List.filter_cons]
      cases hx : (s.hostnames.filter fun h => asciiLower h = p) with
      | nil =>
        have : ¬ (s.hostnames.any fun q => decide (asciiLower q = p)) = true := by
          intro ha
          obtain ⟨q, hq, hqp⟩ := List.any_eq_true.1 ha
          have : q ∈ (s.hostnames.filter fun h => asciiLower h = p) := List.mem_filter.2 ⟨hq, hqp⟩
          rw [hx] at this
          simp at this
        rw [if_neg this, ih]
        simp
      | cons q qs =>
        have : (s.hostnames.any fun q => decide (asciiLower q = p)) = true := by
          have : q ∈ (s.hostnames.filter fun h => asciiLower h = p) := by rw [hx]; simp
          obtain ⟨h1, h2⟩ := List.mem_filter.1 this
          exact List.any_eq_true.2 ⟨q, h1, h2⟩
        rw [if_pos this, List.find?_cons, ih]
        by_cases ho : outcome parse holds s ≠ .available false
        · simp [ho]
        · have hno : ∀ l : List Text, (l.map fun _ => s).find? (fun s => decide (outcome parse holds s ≠ .available false)) = none := by
            intro l
            simp only [List.find?_eq_none, List.mem_map]
            rintro x ⟨_, _, rfl⟩
            simpa using ho
          rw [hno]
          simp [ho]
  rw [hfind cfg.actionSets]
  change (match (candidates cfg p).find? (fun s => outcome parse holds s ≠ .available false) with
    | some s => _
    | none => _)
  rcases C17_most_specific o parse cfg factory hf hc c raw h hraw hd hs with ⟨p', hp', pick, h1, h2⟩ | ⟨h1, _⟩
  · have : p' = p := hp'.unique hs hp
    subst this
    have hmem : ∀ s ∈ candidates cfg p', s ∈ cfg.actionSets := by
      intro s hs
      obtain ⟨x, hx, hm⟩ := List.mem_flatMap.1 hs
      obtain ⟨_, _, rfl⟩ := List.mem_map.1 hm
      exact hx
    have hrun : ∀ (pick : Pick) (ss : List ActionSet) (c c' : Ctx H), (∀ s ∈ ss, s ∈ cfg.actionSets) →
        FirstOf o parse c ss pick c' →
        pick = match ss.find? (fun s => outcome parse holds s ≠ .available false) with
          | some s => if outcome parse holds s = .available true then .set s else .error
          | none => .none := by
      intro pick ss c c' hss hfo
      induction hfo with
      | nil c => rfl
      | @hit c c' s ss h =>
        have := routes_outcome o (hh s (hss s (by simp))) h
        simp [List.find?_cons, ← this]
      | @skip c c' c'' s ss r h hr ih =>
        have := routes_outcome o (hh s (hss s (by simp))) h
        rw [List.find?_cons]
        simp only [← this]
        simpa using ih (fun s hs => hss s (by simp [hs]))
      | @pending c c' s ss h =>
        have := routes_outcome o (hh s (hss s (by simp))) h
        simp [List.find?_cons, ← this]
      | @failed c c' s ss h =>
        have := routes_outcome o (hh s (hss s (by simp))) h
        simp [List.find?_cons, ← this]
    have hpick := hrun _ _ _ _ hmem h1
    generalize (candidates cfg p').find? (fun s => outcome parse holds s ≠ .available false) = r at hpick ⊢
    cases r with
    | none =>
      dsimp only at hpick ⊢
      subst hpick
      generalize (factory.select o c).1 = r at h2 ⊢
      cases h2 with
      | none hn =>
        have : devModeAction cfg = none := devMode_none.2 hn
        rw [this]
      | fallback a ha => rw [ha]
    | some s =>
      dsimp only at hpick ⊢
      split at hpick
      · rename_i ho
        rw [if_pos ho]
        subst hpick
        generalize (factory.select o c).1 = r at h2 ⊢
        cases h2 with
        | set s b hb => exact ⟨b, hb, rfl⟩
      · rename_i ho
        rw [if_neg ho]
        subst hpick
        generalize (factory.select o c).1 = r at h2 ⊢
        cases h2
        rfl
  · exact absurd hp.covers (h1 p hp.configured)

/-- Two sets for one host: the first whose predicates hold; a failing one before it; the fallback. -/
example :
    chosen (hostWorld "a") (hostConfig [hostSet "1" "a" "false", hostSet "2" "a" "true", hostSet "3" "a" "true"]) =
      some "2" ∧
    chosen (hostWorld "a") (hostConfig [hostSet "1" "a" "null", hostSet "2" "a" "true"]) = some "error" ∧
    chosen (hostWorld "a") (hostConfig [hostSet "1" "a" "false"]) = none ∧
    chosen (hostWorld "a") (hostConfig [hostSet "1" "a" "false"] (some "h")) = some "kuadrant.devMode" := by
  decide +kernel

/-- The hypotheses of C19 met. -/
example : ((Demo.factory (hostConfig [hostSet "1" "a" "false", hostSet "2" "A" "true"])).select (hostWorld "a")
    { host := 0 }).1 ≠ .none := by
  have := C19_first_set (hostWorld "a") Demo.parse (hostConfig [hostSet "1" "a" "false", hostSet "2" "A" "true"]) _
    (Demo.factory_eq _ (by decide +kernel)) (by decide) { host := 0 } "a".toList 0 rfl (by decide) (by decide)
    "a".toList (C17_exact _ _ (by decide))
    (fun e => match e.lit with | some (.bool b) => .available b | _ => .err) (by
      intro s hs t ht e he c
      simp only [hostConfig, List.mem_cons, List.mem_singleton, List.not_mem_nil, or_false] at hs
      rcases hs with rfl | rfl <;> simp only [hostSet, List.mem_singleton] at ht <;> subst ht <;> cases he <;> rfl)
  obtain ⟨b, _, hb⟩ : ∃ b, blueprintOf Demo.parse (hostConfig [hostSet "1" "a" "false", hostSet "2" "A" "true"])
    (hostSet "2" "A" "true") = some b ∧ _ = Choice.found b := this
  rw [hb]
  simp

/-- C20: splitting a request data key either leaves it whole, with an empty domain, or yields a non-empty domain
and field that joined by a dot give the key. -/
theorem C20_lossless (alphabetic : Char → Bool) (name : Text) :
    domainAndField alphabetic name = ([], name) ∨
    ∃ domain field, domainAndField alphabetic name = (domain, field) ∧ domain ≠ [] ∧ field ≠ [] ∧
      name = domain ++ '.' :: field := by
  unfold domainAndField
  dsimp only
  have hpre : ∀ (f : Char → Bool) (l : Text), ((l.reverse.dropWhile f).drop 1).reverse <+: l := by
    intro f l
    have : (l.reverse.dropWhile f).drop 1 <:+ l.reverse :=
      (List.drop_suffix _ _).trans (List.dropWhile_suffix _)
    rw [← List.reverse_prefix, List.reverse_reverse] at this
    exact this
  generalize hh : ((name.reverse.dropWhile fun c => !alphabetic c).drop 1).reverse = hay
  have hhay : hay <+: name := by rw [← hh]; exact hpre _ _
  split
  · rename_i hdot
    generalize hpp : ((hay.reverse.dropWhile (· ≠ '.')).drop 1).reverse = pre
    have hsplit : ∃ rest, hay = pre ++ '.' :: rest := by
      have hmem : '.' ∈ hay.reverse := by simpa using hdot
      have htd := List.takeWhile_append_dropWhile (p := fun x : Char => decide (x ≠ '.')) (l := hay.reverse)
      cases hd : hay.reverse.dropWhile (fun x : Char => decide (x ≠ '.')) with
      | nil =>
        have hall : ∀ l : Text, l.dropWhile (fun x : Char => decide (x ≠ '.')) = [] → '.' ∉ l := by
          intro l
          induction l with
          | nil => simp
          | cons y l ih =>
            intro h
            rw [List.dropWhile_cons] at h
            split at h
            · rename_i hy
              simp only [List.mem_cons, not_or]
              exact ⟨fun hd => of_decide_eq_true hy hd.symm, ih h⟩
            · cases h
        exact absurd hmem (hall _ hd)
      | cons x xs =>
        have hx : x = '.' := by
          have := List.head_dropWhile_not (fun x : Char => decide (x ≠ '.')) (l := hay.reverse) (by rw [hd]; simp)
          simp only [hd, List.head_cons] at this
          simpa using this
        rw [hd] at htd hpp
        have := congrArg List.reverse htd
        rw [List.reverse_reverse, List.reverse_append, List.reverse_cons] at this
        simp only [List.drop_succ_cons, List.drop_zero] at hpp
        refine ⟨(hay.reverse.takeWhile (fun x : Char => decide (x ≠ '.'))).reverse, ?_⟩
        rw [hpp, hx] at this
        simpa using this.symm
    obtain ⟨rest, hrest⟩ := hsplit
    obtain ⟨tail, htail⟩ := hhay
    split
    · exact .inl rfl
    · rename_i hcond
      simp only [Bool.or_eq_true, List.isEmpty_iff, decide_eq_true_eq, not_or] at hcond
      have hname : name = pre ++ '.' :: (rest ++ tail) := by
        rw [← htail, hrest]; simp
      refine .inr ⟨pre, name.drop (pre.length + 1), rfl, hcond.1, ?_, ?_⟩
      · intro hnil
        have := List.drop_eq_nil_iff.1 hnil
        rw [hname] at this hcond
        simp at this hcond
        exact hcond.2 (this.1) this.2 |>.elim
      · conv => lhs; rw [hname]
        congr 2
        rw [hname]
        simp [List.drop_append]
  · exact .inl rfl

example : domainAndField Char.isAlpha "auth.identity.user".toList = ("auth.identity".toList, "user".toList) ∧
    domainAndField Char.isAlpha "metrics.labels.a.1".toList = ("metrics.labels".toList, "a.1".toList) ∧
    domainAndField Char.isAlpha ".user".toList = ([], ".user".toList) ∧
    domainAndField Char.isAlpha "user".toList = ([], "user".toList) := by decide

/-- What comes before the last element that satisfies a predicate. -/
theorem before_last {p : Char → Bool} {a b : Text} {x : Char} (hx : p x = true) (hb : ∀ y ∈ b, p y = false) :
    (((a ++ x :: b).reverse.dropWhile fun c => !p c).drop 1).reverse = a := by
  have : ((a ++ x :: b).reverse.dropWhile fun c => !p c) = x :: a.reverse := by
    rw [List.reverse_append, List.reverse_cons, List.append_assoc, List.dropWhile_append_of_pos]
    · simp [hx]
    · intro y hy
      simp [hb y (by simpa using hy)]
  rw [this]
  simp

theorem exists_last {p : Char → Bool} {l : Text} (h : ∃ x ∈ l, p x = true) :
    ∃ a x b, l = a ++ x :: b ∧ p x = true ∧ ∀ y ∈ b, p y = false := by
  induction l with
  | nil => obtain ⟨x, hx, _⟩ := h; cases hx
  | cons z l ih =>
    by_cases hl : ∃ x ∈ l, p x = true
    · obtain ⟨a, x, b, h1, h2, h3⟩ := ih hl
      exact ⟨z :: a, x, b, by rw [h1]; rfl, h2, h3⟩
    · obtain ⟨x, hx, hp⟩ := h
      rcases List.mem_cons.1 hx with rfl | hx
      · refine ⟨[], x, l, rfl, hp, fun y hy => ?_⟩
        cases hpy : p y with
        | false => rfl
        | true => exact absurd ⟨y, hy, hpy⟩ hl
      · exact absurd ⟨x, hx, hp⟩ hl

/-- C20: a key is cut at the last dot that has a letter after it, unless nothing is before that dot. -/
theorem C20_cut (alphabetic : Char → Bool) (name domain field : Text) (hne : domain ≠ [])
    (h : CutAtLastDot alphabetic name domain field) : domainAndField alphabetic name = (domain, field) := by
  obtain ⟨m, c, t, hf, hc, ht⟩ := exists_last h.letter
  have hm : '.' ∉ m := by
    intro hm
    obtain ⟨a, b, rfl⟩ := List.append_of_mem hm
    have := h.last a (b ++ c :: t) (by rw [hf]; simp) c (by simp)
    rw [hc] at this
    cases this
  have hay : (((name.reverse.dropWhile fun c => !alphabetic c).drop 1).reverse) = domain ++ '.' :: m := by
    have : name = (domain ++ '.' :: m) ++ c :: t := by rw [h.joined, hf]; simp
    rw [this]
    exact before_last hc ht
  have hpre : (((domain ++ '.' :: m).reverse.dropWhile (· ≠ '.')).drop 1).reverse = domain := by
    have := before_last (p := fun c => decide (c = '.')) (a := domain) (b := m) (x := '.') (by simp)
      (by intro y hy; simp; rintro rfl; exact hm hy)
    simpa using this
  unfold domainAndField
  dsimp only
  rw [hay, hpre, h.joined]
  have hlen : field ≠ [] := by rw [hf]; simp
  have : 0 < field.length := List.length_pos_iff.2 hlen
  simp [hne]
  omega

/-- C20: a key without such a dot, or with nothing before it, is left whole. -/
theorem C20_whole (alphabetic : Char → Bool) (name : Text) (hdot : alphabetic '.' = false)
    (h : ∀ domain field, domain ≠ [] → ¬CutAtLastDot alphabetic name domain field) :
    domainAndField alphabetic name = ([], name) := by
  unfold domainAndField
  dsimp only
  by_cases hl : ∃ x ∈ name, alphabetic x = true
  · obtain ⟨a, x, b, rfl, hx, hb⟩ := exists_last hl
    rw [before_last hx hb]
    split
    · rename_i hdt
      obtain ⟨pre, y, m, rfl, hy, hm⟩ := exists_last (p := fun c => decide (c = '.')) (l := a)
        ⟨'.', by simpa using hdt, by simp⟩
      obtain rfl : y = '.' := by simpa using hy
      have hpre : (((pre ++ '.' :: m).reverse.dropWhile (· ≠ '.')).drop 1).reverse = pre := by
        simpa using before_last (p := fun c => decide (c = '.')) (a := pre) (b := m) (x := '.') (by simp) hm
      rw [hpre]
      cases pre with
      | nil => simp
      | cons z pre =>
        exfalso
        refine h (z :: pre) (m ++ x :: b) (by simp) ⟨by simp, ⟨x, by simp, hx⟩, ?_⟩
        intro u v huv c hc
        rcases List.append_eq_append_iff.1 huv with ⟨w, h1, h2⟩ | ⟨w, h1, h2⟩
        · cases w with
          | nil =>
            simp only [List.nil_append, List.cons.injEq] at h2
            obtain ⟨rfl, rfl⟩ := h2
            rw [hdot] at hx; cases hx
          | cons w ws =>
            simp only [List.cons_append, List.cons.injEq] at h2
            obtain ⟨rfl, rfl⟩ := h2
            exact hb c (by simp [hc])
        · cases w with
          | nil =>
            simp only [List.nil_append, List.cons.injEq] at h2
            obtain ⟨rfl, rfl⟩ := h2
            rw [hdot] at hx; cases hx
          | cons w ws =>
            simp only [List.cons_append, List.cons.injEq] at h2
            obtain ⟨rfl, rfl⟩ := h2
            have := hm '.' (by rw [h1]; simp)
            simp at this
    · rfl
  · have : (name.reverse.dropWhile fun c => !alphabetic c) = [] := by
      have hnil : ∀ l : Text, (∀ x ∈ l, alphabetic x = false) → (l.dropWhile fun c => !alphabetic c) = [] := by
        intro l
        induction l with
        | nil => simp
        | cons y l ih =>
          intro h
          rw [List.dropWhile_cons, if_pos (by simp [h y (by simp)])]
          exact ih fun x hx => h x (by simp [hx])
      refine hnil _ fun x hx => ?_
      cases hp : alphabetic x with
      | false => rfl
      | true => exact absurd ⟨x, by simpa using hx, hp⟩ hl
    rw [this]
    rfl

example : CutAtLastDot Char.isAlpha "metrics.a.b.7".toList "metrics.a".toList "b.7".toList :=
  ⟨by decide, ⟨'b', by decide, by decide⟩, by
    intro a b h c hc
    have : b = ['7'] := by
      match a, h with
      | ['b'], h => simpa using h.symm
      | [], h => simp at h
      | [_, _], h => simp at h
      | [_, _, _], h => simp at h
      | _ :: _ :: _ :: _ :: _, h => have := congrArg List.length h; simp at this
    subst this
    simp at hc
    subst hc
    decide⟩
example : domainAndField Char.isAlpha "metrics.a.b.7".toList = ("metrics.a".toList, "b.7".toList) := by decide
example : domainAndField Char.isAlpha "field.7".toList = ([], "field.7".toList) := by decide
end Verif.Props
