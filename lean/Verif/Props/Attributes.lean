import Verif.Lemmas.Truth
import Verif.Lemmas.Asked
import Verif.Props.HeaderPairs
import Verif.Spec.HeaderList
import Verif.Lemmas.Attributes
import Verif.Lemmas.Identity
import Verif.Lemmas.Text
import Verif.Props.Order
/-! C21-C23, C49-C52: attributes and headers. -/
set_option linter.unusedSimpArgs false
namespace Verif.Props
open Verif Spec

/-- C21: parsing a printed path gives back the path. -/
theorem C21_round_trip (p : Path) (hne : p ≠ []) (h : ∀ t ∈ p, '\\' ∉ t) : Path.parse p.print = p :=
  parse_print ⟨hne, h⟩

/-- C21: a backslash at the very end of a path written out, where it escapes nothing, is no part of the path. -/
theorem C21_trailing (t : Text) (h : '\\' ∉ t) : Path.parse (t ++ ['\\']) = Path.parse t := by
  have key : ∀ (t token : Text), '\\' ∉ t → parsePathLoop token (t ++ ['\\']) = parsePathLoop token t := by
    intro t
    induction t with
    | nil => intro token _; simp [parsePathLoop]
    | cons c t ih =>
      intro token h
      have hc : c ≠ '\\' := fun e => h (by simp [e])
      have ht : '\\' ∉ t := fun e => h (by simp [e])
      rw [List.cons_append]
      by_cases hd : c = '.'
      · subst hd; rw [loop_dot, loop_dot, ih _ ht]
      · rw [show c :: (t ++ ['\\']) = [c] ++ (t ++ ['\\']) from rfl, show c :: t = [c] ++ t from rfl,
          parse_plain [c] _ _ (by simpa using Ne.symm hc) (by simpa using Ne.symm hd),
          parse_plain [c] _ _ (by simpa using Ne.symm hc) (by simpa using Ne.symm hd), ih _ ht]
  exact key t [] h

example : '\\' ∉ "request.path".toList ∧ Path.parse "request.path\\".toList = ["request".toList, "path".toList] := by
  decide +kernel

/-- C21: different paths have different entries of the cache: what is inserted under one is not found under the
other. -/
theorem C21_no_sharing {W : Type} (s : Attrs W) (p q : Path) (hp : p ≠ []) (hp' : ∀ t ∈ p, '\\' ∉ t) (hq : q ≠ [])
    (hq' : ∀ t ∈ q, '\\' ∉ t) (hne : p ≠ q) (v : Cached) : (s.insert p v).cached q = s.cached q := by
  rw [cached_insert ⟨hp, hp'⟩ ⟨hq, hq'⟩, if_neg (Ne.symm hne)]

example : Path.print ["a.b".toList, "".toList, "c".toList] = "a\\.b..c".toList ∧
    Path.parse "a\\.b..c".toList = ["a.b".toList, "".toList, "c".toList] := by decide +kernel

/-- With backslashes the path is not given back. -/
theorem C21_backslash : ∃ p : Path, p ≠ [] ∧ Path.parse p.print ≠ p :=
  ⟨["a\\b".toList], by decide, by decide +kernel⟩

/-- With backslashes different paths share an entry of the cache. -/
theorem C21_shared : ∃ p q : Path, p ≠ [] ∧ q ≠ [] ∧ p ≠ q ∧
    ∀ (W : Type) (s : Attrs W) (v : Cached), (s.insert p v).cached q = some v :=
  ⟨["a\\".toList, "b".toList], ["a.b".toList], by decide, by decide, by decide, fun W s v => by
    have : Path.print ["a.b".toList] = Path.print ["a\\".toList, "b".toList] := by decide
    unfold Attrs.insert Attrs.cached
    rw [mapGet_mapInsert, if_pos this]⟩

section C22
variable {W : Type} (b : Backend W)

/-- C22: once an attribute was read, later reads give the same value and do not touch the host, whatever else is
read or written and however the host changes, until the filter itself writes that attribute. -/
theorem C22_stable {α : Type} (as : Cached → Except AttrErr α) (p : Path) (hp : Clean p) (s s' t : Attrs W) (a : α)
    (hread : s.read b as p = (.available a, s')) (ops : List (AttrOp W)) (hops : Leaves b p s' ops t) :
    t.read b as p = (.available a, t) := by
  obtain ⟨v, h1, h2⟩ := read_available as hp hread
  rw [read_cached as (leaves_known hp hops h1), h2]

/-- C22: after a write of bytes, reads give what was written and do not touch the host. -/
theorem C22_own_bytes {α : Type} (as : Cached → Except AttrErr α) (p : Path) (hp : Clean p) (v : Bytes)
    (s s' t : Attrs W) (hwrite : s.writeBytes b p v = (.available (), s')) (ops : List (AttrOp W))
    (hops : Leaves b p s' ops t) : t.read b as p = (answer as (.bytes (some v)), t) := by
  refine read_cached as (leaves_known hp hops ?_)
  unfold Attrs.writeBytes at hwrite
  split at hwrite
  · rw [← (Prod.mk.inj hwrite).2, cached_insert hp hp, if_pos rfl]
  · cases (Prod.mk.inj hwrite).1
  · cases (Prod.mk.inj hwrite).1

/-- C22: after a write of a header map, reads give what was written and do not touch the host. -/
theorem C22_own_headers (target : Target) (hs : Headers) (s s' t : Attrs W)
    (hwrite : s.writeHeaders b target hs = (.available (), s')) (ops : List (AttrOp W))
    (hops : Leaves b (headersPath target) s' ops t) :
    t.read b asHeaders (headersPath target) = (.available hs, t) := by
  have hc := clean_headers target
  have := read_cached (b := b) asHeaders (v := .headers hs) (leaves_known hc hops (by
    unfold Attrs.writeHeaders at hwrite
    split at hwrite
    · rw [← (Prod.mk.inj hwrite).2, cached_insert hc hc, if_pos rfl]
    · have h := (Prod.mk.inj hwrite).1
      split at h <;> cases h
    · cases (Prod.mk.inj hwrite).1))
  exact this

/-- C22: a read the host could not answer is not remembered: the next read asks the host again, in the state it is
in then. -/
theorem C22_not_remembered {α β : Type} (as : Cached → Except AttrErr α) (as' : Cached → Except AttrErr β) (p : Path)
    (s s' : Attrs W) (hnew : s.cached p = none) (e : AttrErr) (hfail : (fetchAttribute b s.world p).1 = .error e)
    (hread : (s.read b as p).2 = s') (f : W → W) :
    (∀ q, s'.cached q = s.cached q) ∧
    ∀ v w, fetchAttribute b (f s'.world) p = (.ok v, w) →
      ({ s' with world := f s'.world }.read b as' p).1 = answer as' v := by
  have hcache : s'.cache = s.cache := by
    subst hread
    unfold Attrs.read
    rw [hnew]
    dsimp only
    split
    · rename_i heq; rw [heq] at hfail; cases hfail
    · rfl
    · rfl
  have hc : ∀ q, s'.cached q = s.cached q := fun q => by unfold Attrs.cached; rw [hcache]
  refine ⟨hc, fun v w hf => ?_⟩
  unfold Attrs.read
  have : ({ s' with world := f s'.world } : Attrs W).cached p = none := (hc p).trans hnew
  rw [this]
  dsimp only
  rw [hf]
  rfl

/-- C22: a failed write changes nothing that is remembered. -/
theorem C22_failed_write (p : Path) (v : Bytes) (s : Attrs W) (h : (s.writeBytes b p v).1 ≠ .available ()) (q : Path) :
    (s.writeBytes b p v).2.cached q = s.cached q := by
  unfold Attrs.writeBytes at h ⊢
  split at h
  · exact absurd rfl h
  · rfl
  · rfl

end C22

/-- A host that counts how often it is asked and answers with that number. -/
def countingHost : Backend Nat where
  getAttr w _ := (.ok (some [UInt8.ofNat w]), w + 1)
  getMap w _ := (.ok [("n".toList, (toString w).toList)], w + 1)
  setAttr w _ _ := (.ok (), w)
  setMap w _ _ := (.ok (), w)

def asBytes : Cached → Except AttrErr (Option Bytes) := fromBytes some

/-- Read, other reads and writes, read again: the first answer, and the host is not asked. -/
example :
    let p : Path := ["request".toList, "path".toList]
    let s : Attrs Nat := { world := 5 }
    let s1 := (s.read countingHost asBytes p).2
    let s2 := (AttrOp.writeBytes ["x".toList] [1]).step countingHost
      ((AttrOp.read _ asBytes ["request".toList, "host".toList]).step countingHost s1)
    (s.read countingHost asBytes p).1 = .available (some [5]) ∧
    s2.read countingHost asBytes p = (.available (some [5]), s2) ∧
    (s2.read countingHost asHeaders (headersPath .request)).2.world = 8 := by
  intro p s s1 s2
  refine ⟨rfl, ?_, rfl⟩
  refine C22_stable countingHost asBytes p (by decide) s s1 s2 (some [5]) rfl
    [.read _ asBytes ["request".toList, "host".toList], .writeBytes ["x".toList] [1]] ?_
  exact .cons (by show Clean _; decide) (by simp [AttrOp.Writes]) (.cons (by show Clean _; decide)
    (by simp only [AttrOp.Writes]; intro h; exact absurd h.1 (by decide)) (.nil _))

/-- A header map is written and read back. -/
example : ∃ s', (({ world := 0 } : Attrs Nat).writeHeaders countingHost .request [("a".toList, "b".toList)]) =
    (.available (), s') ∧ s'.read countingHost asHeaders (headersPath .request) =
      (.available [("a".toList, "b".toList)], s') :=
  ⟨_, rfl, C22_own_headers countingHost .request _ _ _ _ rfl [] (.nil _)⟩

/-- A host without an answer at first. -/
def lateHost : Backend Nat :=
  { countingHost with getAttr := fun w _ => (if w < 3 then .error .notAvailable else .ok (some [7]), w) }

/-- The first answer is not remembered, the later one is given. -/
example : (({ world := 0 } : Attrs Nat).read lateHost asBytes ["a".toList]).1 = .pending ∧
    (({ world := 4 } : Attrs Nat).read lateHost asBytes ["a".toList]).1 = .available (some [7]) :=
  ⟨rfl, (C22_not_remembered lateHost asBytes asBytes ["a".toList] { world := 0 } _ rfl .notAvailable rfl rfl
    (fun _ => 4)).2 (.bytes (some [7])) 4 rfl⟩

theorem setAll_replaced (old pairs : Headers) : Replaced old pairs (setAll old pairs) := by
  have key : ∀ (pairs old : Headers),
      (∀ k, (∀ w, (k, w) ∉ pairs) →
        (setAll old pairs).filter (fun p => p.1 = k) = old.filter (fun p => p.1 = k)) := by
    intro pairs
    induction pairs with
    | nil => intro old k _; rfl
    | cons q pairs ih =>
      intro old k hk
      obtain ⟨k', v'⟩ := q
      have hne : k' ≠ k := by rintro rfl; exact hk v' (by simp)
      have := ih (Headers.set old k' v') k (fun w hw => hk w (by simp [hw]))
      show (setAll (Headers.set old k' v') pairs).filter _ = _
      rw [this]
      unfold Headers.set
      show (_ ++ _ : List _).filter _ = _
      rw [List.filter_append, List.filter_filter]
      simp only [List.filter_cons, List.filter_nil, hne, decide_false]
      simp only [Bool.false_eq_true, if_false, List.append_nil]
      apply List.filter_congr
      intro x _
      by_cases hx : x.1 = k
      · simp [hx, Ne.symm hne]
      · simp [hx]
  constructor
  · intro before k v after hp hlast
    subst hp
    have : setAll old (before ++ (k, v) :: after) = setAll (Headers.set (setAll old before) k v) after := by
      simp [setAll, List.foldl_append]
    rw [this, key after _ k hlast]
    unfold Headers.set
    show (_ ++ _ : List _).filter _ = _
    rw [List.filter_append, List.filter_filter]
    simp
  · have key2 : ∀ (pairs old : Headers) (S : List Text), (∀ p ∈ pairs, p.1 ∈ S) →
        (setAll old pairs).filter (fun p => p.1 ∉ S) = old.filter (fun p => p.1 ∉ S) := by
      intro pairs
      induction pairs with
      | nil => intro old S _; rfl
      | cons q pairs ih =>
        intro old S hS
        obtain ⟨k', v'⟩ := q
        have hk : k' ∈ S := hS (k', v') (by simp)
        show (setAll (Headers.set old k' v') pairs).filter _ = _
        rw [ih _ S (fun p hp => hS p (by simp [hp]))]
        unfold Headers.set
        show (_ ++ _ : List _).filter _ = _
        rw [List.filter_append, List.filter_filter]
        simp only [List.filter_cons, List.filter_nil, hk, not_true_eq_false, decide_false, Bool.false_eq_true,
          if_false, List.append_nil]
        apply List.filter_congr
        intro x _
        by_cases hx : x.1 = k'
        · simp [hx, hk]
        · simp [hx]
    exact key2 pairs old _ fun p hp => List.mem_map.2 ⟨p, hp, rfl⟩

/-- C23: the header action replaces exactly the named headers. The action is evaluated with its predicate true and
its value a list of entries that stand for name and value pairs, the host gives the existing headers and accepts the
new ones. -/
theorem C23_header_action {H : Type} (o : Oracle H) (parse : Text → Option Expr) (cfg : PluginConfig)
    (factory : Factory) (host : H) (s : ActionSet) (hs : ServedBy o parse cfg factory host s)
    (x : Text) (head : TypedHead) (target : Target) (source : Text)
    (hat : At cfg.services s x (.headers head target source))
    (pred e : Expr) (hp : parse head.predicate = some pred) (he : parse source = some e)
    (events : List (Event H)) (pre post : List Effect)
    (hlog : (Filter.run o factory host events).log = pre ++ .applied x :: post)
    (items : List Val) (pairs : Headers) (hpairs : Pairs items pairs) (hne : pairs ≠ [])
    (hd : ∀ c : Ctx H, Acting o factory host events c → c.log = pre ++ [.applied x] → ∃ c' c'' old h,
      tests o c x pred = (.available true, c') ∧
      evalExpr o c' x e = (.available (.list items), c'') ∧
      o.getHeaders c'' target = (.available old, h) ∧
      ∀ new, (o.setHeaders (c''.withHost h) target new).1 = .available ()) :
    ∃ old new rest, post = .headersSet target new :: rest ∧ Replaced old pairs new ∧
      ∃ c : Ctx H, Fetching o factory host events c ∧ c.log = pre ++ [.applied x] ∧
        (o.getHeaders c target).1 = .available old := by
  replace hpairs := (C40_list items pairs).2 hpairs
  by_cases hb : ∃ p, factory.build o { host := host } = .pipeline p
  · obtain ⟨p, hb⟩ := hb
    obtain ⟨b, hbuilt, hfs⟩ := servedBy_fromSet hs hb
    have htasks : Tasks (OnlyAt x (.headers x pred e target head.terminal)) p [] := by
      refine fromSet_tasks hbuilt hfs hat (fun k hk h => absurd h hk) ?_
      intro y deps k hco hm hid hw
      cases hco with
      | headers _ _ _ _ pred' e' hp' he' =>
        rw [hp] at hp'; cases hp'
        rw [he] at he'; cases he'
        cases hm
        rfl
    have hinv : CtxInv o (OnlyAt x (.headers x pred e target head.terminal)) (fun _ => True) :=
      ⟨onlyAt_closed x _ (by simp) (by simp), fun _ _ _ _ _ _ => trivial, fun _ _ _ _ _ _ _ _ => trivial,
        fun _ _ => trivial, fun _ _ _ _ => trivial⟩
    refine hinv.after_run (x := x)
      (Q := fun pre post => (∀ c : Ctx H, Acting o factory host events c → c.log = pre ++ [.applied x] → ∃ c' c'' old h,
        tests o c x pred = (.available true, c') ∧
        evalExpr o c' x e = (.available (.list items), c'') ∧
        o.getHeaders c'' target = (.available old, h) ∧
        ∀ new, (o.setHeaders (c''.withHost h) target new).1 = .available ()) →
        ∃ old new rest, post = .headersSet target new :: rest ∧ Replaced old pairs new ∧
          ∃ c : Ctx H, Fetching o factory host events c ∧ c.log = pre ++ [.applied x] ∧
            (o.getHeaders c target).1 = .available old)
      ?_ ?_ hb htasks trivial pre post hlog hd
    · intro pre post es h hd
      obtain ⟨old, new, rest, h1, h2⟩ := h hd
      exact ⟨old, new, rest ++ es, by rw [h1]; rfl, h2⟩
    · intro k c es hk hid hw _ hS hl hd
      rw [hk hid hw] at hl
      obtain ⟨c', c'', old, h, h1, h2, h3, h4⟩ := hd (c.push (.applied x)) hS rfl
      rw [← testPred_tests] at h1
      have hst := (testPred_steady (o := o) (c.push (.applied x)) x pred).trans
        (by rw [h1]; exact evalExpr_steady (o := o) c' x e)
      rw [h2] at hst
      have hemp : pairs.isEmpty = false := by simpa using hne
      have h5 := h4 (setAll old pairs)
      simp only [Core.apply, applyHeaders, h1, h2, hpairs, hemp, h3, Bool.false_eq_true, if_false] at hl
      generalize hq : o.setHeaders (c''.withHost h) target (setAll old pairs) = r at h5 hl
      obtain ⟨a, h'⟩ := r
      dsimp only at h5
      subst h5
      dsimp only at hl
      have hlog' : (((c''.withHost h).withHost h').push (.headersSet target (setAll old pairs))).log =
          c.log ++ [.applied x] ++ es := by
        split at hl <;> exact hl
      have hlog'' : c''.log = c.log ++ [.applied x] := hst.log
      simp only [Ctx.push, Ctx.withHost, hlog''] at hlog'
      have := List.append_cancel_left (as := c.log ++ [.applied x]) hlog'
      refine ⟨old, setAll old pairs, [], this.symm, setAll_replaced old pairs, c'', ⟨_, hS, ?_⟩, hlog'', by rw [h3]⟩
      have ha := testPred_asked (o := o) (c.push (.applied x)) x pred
      rw [h1] at ha
      have hb := evalExpr_asked (o := o) c' x e
      rw [h2] at hb
      exact ha.trans hb
  · exfalso
    have := unrelated_run_idle (o := o) factory host events (fun p hp => hb ⟨p, hp⟩) (.applied x)
      (by rw [hlog]; simp)
    simp [Effect.unrelated] at this

/-- A world in which requests have headers. -/
def oldHeaders : Headers := [("x".toList, "a".toList), ("y".toList, "b".toList), ("x".toList, "c".toList)]

def withHeaders : Oracle Nat := { Demo.world with getHeaders := fun c _ => (.available oldHeaders, c.host) }

/-- Both old values of the header `x` are replaced. -/
example : ∃ old new rest, ((Filter.run withHeaders (Demo.factory (Demo.config [.typed Demo.headers])) 0 []).log.drop 2) =
    .headersSet .request new :: rest ∧ Replaced old [("x".toList, "1".toList)] new ∧
    ∃ c : Ctx Nat, Fetching withHeaders (Demo.factory (Demo.config [.typed Demo.headers])) 0 [] c ∧
      c.log = (Filter.run withHeaders (Demo.factory (Demo.config [.typed Demo.headers])) 0 []).log.take 1 ++
        [.applied "0".toList] ∧ (withHeaders.getHeaders c .request).1 = .available old :=
  C23_header_action withHeaders Demo.parse _ _ 0 _
    (demo_served_by withHeaders [.typed Demo.headers] (by decide +kernel) ⟨_, rfl⟩)
    "0".toList { predicate := "true".toList } .request "headers".toList
    (.top (i := 0) rfl rfl) _ _ rfl rfl [] _ _ (applied_at _ 1 "0".toList (by decide +kernel))
    [.list [.str "x".toList, .str "1".toList]] [("x".toList, "1".toList)] (.entry (.pair _ _) .nil) (by simp)
    (fun _ _ _ => ⟨_, _, _, _, rfl, rfl, rfl, fun _ => rfl⟩)

example : setAll oldHeaders [("x".toList, "1".toList), ("z".toList, "2".toList), ("x".toList, "3".toList)] =
    [("y".toList, "b".toList), ("z".toList, "2".toList), ("x".toList, "3".toList)] := by decide +kernel

/-- C49: an authorization attribute exported to the host is read back by its path under the name it was written
under: the host prefixes the written name with `wasm.` and keeps it among the filter state. -/
theorem C49_exported_name (p : Path) (hne : p ≠ []) (hc : ∀ t ∈ p, '\\' ∉ t ∧ '.' ∉ t) :
    ∃ name, Attrs.hostPath p = [name] ∧ wasmProp p = ["filter_state".toList, "wasm.".toList ++ name] := by
  have key : ∀ (p : Path) (token : Text), p ≠ [] → (∀ t ∈ p, '\\' ∉ t ∧ '.' ∉ t) →
      parsePathLoop token (joinWith "\\.".toList p) = [token ++ joinWith ['.'] p] := by
    intro p
    induction p with
    | nil => intro _ h; exact absurd rfl h
    | cons t ts ih =>
      intro token _ hc
      obtain ⟨h1, h2⟩ := hc t (by simp)
      cases ts with
      | nil =>
        have := parse_plain t token [] h1 h2
        simp only [List.append_nil] at this
        simp only [joinWith, this, parsePathLoop]
      | cons u us =>
        have e1 : joinWith "\\.".toList (t :: u :: us) = t ++ '\\' :: '.' :: joinWith "\\.".toList (u :: us) := by
          show t ++ "\\.".toList ++ _ = _
          rw [List.append_assoc]; rfl
        have e2 : joinWith ['.'] (t :: u :: us) = t ++ '.' :: joinWith ['.'] (u :: us) := by
          show t ++ ['.'] ++ _ = _
          rw [List.append_assoc]; rfl
        rw [e1, parse_plain t token _ h1 h2, loop_escape,
          ih _ (by simp) (fun x hx => hc x (by simp [hx])), e2]
        simp
  refine ⟨"kuadrant.".toList ++ joinWith ['.'] p, ?_, ?_⟩
  · have h := key p ("kuadrant".toList ++ ['.']) hne hc
    have e1 : "kuadrant\\.".toList = "kuadrant".toList ++ ['\\', '.'] := by decide
    have e2 : "kuadrant.".toList = "kuadrant".toList ++ ['.'] := by decide
    unfold Attrs.hostPath Path.parse
    rw [e1, e2, List.append_assoc, parse_plain _ _ _ (by decide) (by decide), List.cons_append, List.cons_append,
      List.nil_append, loop_escape, List.nil_append, h]
  · have h := key p (("wasm".toList ++ ['.']) ++ "kuadrant".toList ++ ['.']) hne hc
    have e1 : "filter_state.wasm\\.kuadrant\\.".toList =
        "filter_state".toList ++ '.' :: ("wasm".toList ++ '\\' :: '.' :: ("kuadrant".toList ++ ['\\', '.'])) := by
      decide
    have e2 : "wasm.".toList ++ ("kuadrant.".toList ++ joinWith ['.'] p) =
        "wasm".toList ++ ['.'] ++ "kuadrant".toList ++ ['.'] ++ joinWith ['.'] p := by
      rw [← List.append_assoc, show "wasm.".toList ++ "kuadrant.".toList =
        "wasm".toList ++ ['.'] ++ "kuadrant".toList ++ ['.'] from by decide]
    unfold wasmProp Path.parse
    rw [e1, e2, ← h]
    simp only [List.append_assoc, List.cons_append, List.nil_append]
    rw [parse_plain _ _ _ (by decide) (by decide), loop_dot, parse_plain _ _ _ (by decide) (by decide), loop_escape,
      parse_plain _ _ _ (by decide) (by decide), loop_escape]
    simp only [List.append_assoc, List.cons_append, List.nil_append]

/-- C49: so what the filter reads for the path of an authorization attribute is what the host has under the exported
name. -/
theorem C49_exported_read {W : Type} (b : Backend W) (w : W) (rest : Path)
    (hc : ∀ t ∈ rest, '\\' ∉ t ∧ '.' ∉ t) :
    ∃ name, Attrs.hostPath ("auth".toList :: rest) = [name] ∧
      match b.getAttr w ["filter_state".toList, "wasm.".toList ++ name] with
      | (.ok v, w') => fetchAttribute b w ("auth".toList :: rest) = (.ok (.bytes v), w')
      | (.error e, w') => fetchAttribute b w ("auth".toList :: rest) = (.error e, w') := by
  obtain ⟨name, h1, h2⟩ := C49_exported_name ("auth".toList :: rest) (by simp) (fun t ht => by
    rcases List.mem_cons.1 ht with rfl | ht
    · decide
    · exact hc t ht)
  refine ⟨name, h1, ?_⟩
  rw [← h2]
  have e : fetchAttribute b w ("auth".toList :: rest) =
      match b.getAttr w (wasmProp ("auth".toList :: rest)) with
      | (.ok bytes, w) => (.ok (.bytes bytes), w)
      | (.error e, w) => (.error e, w) := by
    have n1 : ¬("auth".toList :: rest = headersPath .request) := fun h =>
      absurd (List.cons.inj h).1 (by decide)
    have n2 : ¬("auth".toList :: rest = headersPath .response) := fun h =>
      absurd (List.cons.inj h).1 (by decide)
    have n3 : ¬("auth".toList :: rest = ["source".toList, "remote_address".toList]) := fun h =>
      absurd (List.cons.inj h).1 (by decide)
    unfold fetchAttribute
    rw [if_neg n1, if_neg n2, if_neg n3, if_pos (by rfl)]
    rfl
  rw [e]
  generalize b.getAttr w (wasmProp ("auth".toList :: rest)) = q
  rcases q with ⟨_ | _, _⟩ <;> rfl

example : Attrs.hostPath ["auth".toList, "identity".toList] = ["kuadrant.auth.identity".toList] ∧
    wasmProp ["auth".toList, "identity".toList] = ["filter_state".toList, "wasm.kuadrant.auth.identity".toList] := by
  decide +kernel

/-- A dot within a segment breaks the correspondence. -/
theorem C49_dot : ∃ p : Path, Attrs.hostPath p = ["kuadrant.a".toList, "b".toList] :=
  ⟨["a.b".toList], by decide +kernel⟩

/-- C50: the remote address is what precedes the first colon of the source address. -/
theorem C50_remote_address {W : Type} (b : Backend W) (w w' : W) (address port : Text) (hc : ':' ∉ address)
    (h : b.getAttr w ["source".toList, "address".toList] = (.ok (some (utf8 (address ++ ':' :: port))), w')) :
    fetchAttribute b w ["source".toList, "remote_address".toList] = (.ok (.bytes (some (utf8 address))), w') := by
  have hu : fromUtf8 (utf8 (address ++ ':' :: port)) = some (address ++ ':' :: port) := fromUtf8_utf8 _
  have hr : remoteAddress b w = (.ok (some (utf8 address)), w') := by
    unfold remoteAddress
    rw [h]
    dsimp only
    rw [hu]
    dsimp only
    rw [List.takeWhile_append_of_pos (by intro x hx; simp; rintro rfl; exact hc hx)]
    simp
  unfold fetchAttribute
  rw [if_neg (by decide), if_neg (by decide), if_pos rfl, hr]

/-- The source address is constant. -/
def addressHost (address : String) : Backend Nat :=
  { countingHost with getAttr := fun w _ => (.ok (some (utf8 address.toList)), w) }

example : (fetchAttribute (addressHost "10.0.0.1:80") 0 ["source".toList, "remote_address".toList]).1 =
    .ok (.bytes (some (utf8 "10.0.0.1".toList))) := by
  rw [C50_remote_address (addressHost "10.0.0.1:80") 0 0 "10.0.0.1".toList "80".toList (by decide) rfl]

/-- An IPv6 address is cut off at its first colon. -/
theorem C50_ipv6 : ∃ (b : Backend Nat) (w : Nat),
    b.getAttr w ["source".toList, "address".toList] = (.ok (some (utf8 "[2001:db8::1]:80".toList)), w) ∧
    fetchAttribute b w ["source".toList, "remote_address".toList] = (.ok (.bytes (some (utf8 "[2001".toList))), w) :=
  ⟨addressHost "[2001:db8::1]:80", 0, rfl,
    C50_remote_address _ 0 0 "[2001".toList "db8::1]:80".toList (by decide) rfl⟩

/-- The little-endian encoding in `n` bytes. -/
def leBytes : Nat → Nat → Bytes
  | 0, _ => []
  | n + 1, v => UInt8.ofNat (v % 256) :: leBytes n (v / 256)

theorem leBytes_length (n v : Nat) : (leBytes n v).length = n := by
  induction n generalizing v with
  | zero => rfl
  | succ n ih => simp [leBytes, ih]

theorem leNat_leBytes (n v : Nat) (h : v < 256 ^ n) : leNat (leBytes n v) = v := by
  induction n generalizing v with
  | zero => simp at h; subst h; rfl
  | succ n ih =>
    have : v / 256 < 256 ^ n := by
      rw [Nat.pow_succ] at h
      exact Nat.div_lt_of_lt_mul (by rw [Nat.mul_comm]; exact h)
    simp only [leBytes, leNat, ih _ this]
    have : (UInt8.ofNat (v % 256)).toNat = v % 256 := by
      simp [UInt8.toNat_ofNat]
    rw [this]
    omega

/-- C51: numbers and times the host gives as 8 little-endian bytes are decoded exactly; other lengths are
rejected. -/
theorem C51_unsigned (n : Nat) (h : n < 2 ^ 64) : attrU64 (leBytes 8 n) = some n := by
  unfold attrU64
  rw [if_pos (leBytes_length 8 n), leNat_leBytes 8 n (by simpa using h)]

theorem C51_signed (i : Int) (hlo : -2 ^ 63 ≤ i) (hhi : i < 2 ^ 63) : attrI64 (leBytes 8 (i % 2 ^ 64).toNat) = some i := by
  unfold attrI64
  have h0 : (i % 2 ^ 64).toNat < 256 ^ 8 := by omega
  rw [if_pos (leBytes_length 8 _), leNat_leBytes 8 _ h0]
  congr 1
  split <;> omega

theorem C51_timestamp (secs : Int) (nanos : Nat) (hn : nanos < 1000000000)
    (hlo : -2 ^ 63 ≤ secs * 1000000000 + nanos) (hhi : secs * 1000000000 + nanos < 2 ^ 63) :
    attrTimestamp (leBytes 8 ((secs * 1000000000 + nanos) % 2 ^ 64).toNat) = some (secs, nanos) := by
  unfold attrTimestamp
  rw [C51_signed _ hlo hhi]
  simp only [Option.map_some, Option.some.injEq, Prod.mk.injEq]
  rw [Int.fdiv_eq_ediv_of_nonneg _ (by decide), Int.fmod_eq_emod_of_nonneg _ (by decide)]
  omega

theorem C51_length (v : Bytes) (h : v.length ≠ 8) : attrU64 v = none ∧ attrI64 v = none ∧ attrTimestamp v = none := by
  simp [attrU64, attrI64, attrTimestamp, h]

example : attrI64 [0xff, 0xff, 0xff, 0xff, 0xff, 0xff, 0xff, 0xff] = some (-1) ∧
    attrTimestamp (leBytes 8 1500000000) = some (1, 500000000) := by decide +kernel

/-- C52: a header given several times is presented to CEL once, its values joined by commas in order; a header that
is not given is absent. -/
theorem C52_joined (hs : Headers) (k : Text) :
    (Headers.toMap hs).lookup k = if Headers.getAll hs k = [] then none else some (joinWith [','] (Headers.getAll hs k)) := by
  have hj : ∀ (l : List Text) (v : Text), l ≠ [] → joinWith [','] (l ++ [v]) = joinWith [','] l ++ ',' :: v := by
    intro l
    induction l with
    | nil => intro v h; exact absurd rfl h
    | cons t ts ih =>
      intro v _
      cases ts with
      | nil => simp [joinWith]
      | cons u us =>
        have := ih v (by simp)
        simp only [List.cons_append, joinWith] at this ⊢
        rw [this]
        simp
  have step : ∀ (m : List (Text × Text)) (k' v' : Text),
      (if m.any (fun e => e.1 = k') then m.map (fun e => if e.1 = k' then (k', e.2 ++ ',' :: v') else e)
        else List.append m [(k', v')]).lookup k =
      if k = k' then some (match m.lookup k with | some w => w ++ ',' :: v' | none => v') else m.lookup k := by
    intro m k' v'
    split
    · rename_i hany
      induction m with
      | nil => simp at hany
      | cons e m ih =>
        obtain ⟨a, w⟩ := e
        rw [List.map_cons]
        by_cases ha : a = k'
        · subst ha
          simp only [if_true, List.lookup_cons]
          by_cases hk : k = a
          · subst hk; simp
          · have hb : (k == a) = false := by simpa using hk
            simp only [hb, if_neg hk]
            clear ih hany
            induction m with
            | nil => rfl
            | cons e m ih =>
              obtain ⟨a', w'⟩ := e
              rw [List.map_cons]
              by_cases h' : a' = a
              · subst h'; simp only [if_true, List.lookup_cons, hb, ih]
              · simp only [if_neg h', List.lookup_cons, ih]
        · simp only [if_neg ha, List.lookup_cons]
          have hany' : (m.any fun e => decide (e.1 = k')) = true := by
            simpa [ha] using hany
          by_cases hk : k = a
          · subst hk; simp [ha]
          · have hb : (k == a) = false := by simpa using hk
            simp only [hb]
            exact ih hany'
    · rename_i hany
      show (m ++ [(k', v')]).lookup k = _
      have hno : m.lookup k' = none := by
        induction m with
        | nil => rfl
        | cons e m ih =>
          obtain ⟨a, w⟩ := e
          simp only [List.any_cons, Bool.or_eq_true, decide_eq_true_eq, not_or] at hany
          have hb : (k' == a) = false := beq_false_of_ne (fun e => hany.1 e.symm)
          rw [List.lookup_cons, hb]
          exact ih hany.2
      have happ : (m ++ [(k', v')]).lookup k = (m.lookup k).or ([(k', v')].lookup k) := by
        clear hany hno
        induction m with
        | nil => simp
        | cons e m ih =>
          obtain ⟨a, w⟩ := e
          simp only [List.cons_append, List.lookup_cons, ih]
          split <;> simp
      rw [happ]
      by_cases hk : k = k'
      · subst hk; simp [hno]
      · have hb : (k == k') = false := by simpa using hk
        simp [List.lookup_cons, hb, hk]
  have main : ∀ (hs done : Headers) (m : List (Text × Text)),
      (m.lookup k = if Headers.getAll done k = [] then none else some (joinWith [','] (Headers.getAll done k))) →
      (hs.foldl (fun m (p : Text × Text) =>
        if m.any (fun e => e.1 = p.1) then m.map (fun e => if e.1 = p.1 then (p.1, e.2 ++ ',' :: p.2) else e)
        else List.append m [(p.1, p.2)]) m).lookup k =
      if Headers.getAll (done ++ hs) k = [] then none else some (joinWith [','] (Headers.getAll (done ++ hs) k)) := by
    intro hs
    induction hs with
    | nil => intro done m h; simpa using h
    | cons p hs ih =>
      intro done m h
      obtain ⟨k', v'⟩ := p
      rw [List.foldl_cons]
      have := ih (done ++ [(k', v')]) (if m.any (fun e => e.1 = k') then
          m.map (fun e => if e.1 = k' then (k', e.2 ++ ',' :: v') else e) else List.append m [(k', v')]) (by
        rw [step]
        have hga : Headers.getAll (done ++ [(k', v')]) k =
            if k = k' then Headers.getAll done k ++ [v'] else Headers.getAll done k := by
          unfold Headers.getAll
          rw [List.filter_append, List.map_append]
          by_cases hk : k = k'
          · subst hk; simp
          · have : ¬ k' = k := fun e => hk e.symm
            simp [hk, this]
        rw [hga]
        by_cases hk : k = k'
        · subst hk
          simp only [if_true, h]
          by_cases hn : Headers.getAll done k = []
          · simp [hn, joinWith]
          · simp [hn, hj _ v' hn]
        · simp only [if_neg hk, h])
      simpa using this
  exact main hs [] [] rfl

example : (Headers.toMap [("a".toList, "1".toList), ("b".toList, "2".toList), ("a".toList, "3".toList)]).lookup "a".toList =
    some "1,3".toList := by decide +kernel

end Verif.Props
