import Verif.Lemmas.HostInv
import Verif.Lemmas.Attributes
set_option linter.unusedSimpArgs false
set_option linter.unusedSectionVars false
/-! Reading through the cache only adds to what is known. -/
namespace Verif

section
variable {W : Type} (a : Abi W)

theorem fetch_world (x : W) (p : Path) : (fetchAttribute a.backend x p).2 = x := by
  have hm : ∀ t, (a.backend.getMap x t).2 = x := fun _ => rfl
  have hg : ∀ p, (a.backend.getAttr x p).2 = x := fun _ => rfl
  generalize a.backend = b at hm hg
  have hr : (remoteAddress b x).2 = x := by
    have h := hg ["source".toList, "address".toList]
    unfold remoteAddress
    generalize b.getAttr x ["source".toList, "address".toList] = q at h
    obtain ⟨r, y⟩ := q
    match r with
    | .ok (some v) => simp only; split <;> exact h
    | .ok none => exact h
    | .error e => exact h
  unfold fetchAttribute
  split
  · have h := hm .request
    generalize b.getMap x .request = q at h
    obtain ⟨r, y⟩ := q
    cases r with
    | ok v => exact h
    | error e => cases e <;> exact h
  · split
    · have h := hm .response
      generalize b.getMap x .response = q at h
      obtain ⟨r, y⟩ := q
      cases r <;> exact h
    · split
      · generalize remoteAddress b x = q at hr
        obtain ⟨r, y⟩ := q
        cases r <;> exact hr
      · have h := hg (if p.head? = some "auth".toList then wasmProp p else p)
        generalize b.getAttr x (if p.head? = some "auth".toList then wasmProp p else p) = q at h
        obtain ⟨r, y⟩ := q
        cases r <;> exact h

/-- The host is as before; what is known stays and anything new was read from the host. -/
structure Grows (s s' : Attrs W) : Prop where
  world : s'.world = s.world
  kept : ∀ k v, mapGet s.cache k = some v → mapGet s'.cache k = some v
  new : ∀ k v, mapGet s'.cache k = some v →
    mapGet s.cache k = some v ∨ ∃ p : Path, p.print = k ∧ (fetchAttribute a.backend s.world p).1 = .ok v

variable {a}

theorem Grows.refl (s : Attrs W) : Grows a s s := ⟨rfl, fun _ _ h => h, fun _ _ h => .inl h⟩

theorem Grows.trans {s s' s'' : Attrs W} (h : Grows a s s') (h' : Grows a s' s'') : Grows a s s'' where
  world := h'.world.trans h.world
  kept k v hk := h'.kept k v (h.kept k v hk)
  new k v hk := by
    cases h'.new k v hk with
    | inl h1 => exact h.new k v h1
    | inr h1 => rw [h.world] at h1; exact .inr h1

theorem grows_insert {s : Attrs W} {p : Path} {v : Cached} {y : W} (hn : s.cached p = none)
    (h : fetchAttribute a.backend s.world p = (.ok v, y)) : Grows a s (Attrs.insert { s with world := y } p v) := by
  have hy : y = s.world := by
    have := fetch_world a s.world p
    rw [h] at this
    exact this
  subst hy
  refine ⟨rfl, fun k u hk => ?_, fun k u hk => ?_⟩
  · simp only [Attrs.insert, mapGet_mapInsert]
    split
    · rename_i he
      subst he
      unfold Attrs.cached at hn
      rw [hn] at hk
      cases hk
    · exact hk
  · simp only [Attrs.insert, mapGet_mapInsert] at hk
    split at hk
    · rename_i he
      cases hk
      refine .inr ⟨p, he.symm, ?_⟩
      rw [h]
    · exact .inl hk

theorem grows_world {s : Attrs W} {p : Path} {e : AttrErr} {y : W}
    (h : fetchAttribute a.backend s.world p = (.error e, y)) : Grows a s { s with world := y } := by
  have hy : y = s.world := by
    have := fetch_world a s.world p
    rw [h] at this
    exact this
  subst hy
  exact Grows.refl s

theorem grows_read {α : Type} (as : Cached → Except AttrErr α) (s : Attrs W) (p : Path) :
    Grows a s (s.read a.backend as p).2 := by
  unfold Attrs.read
  simp only
  split
  · exact Grows.refl s
  · rename_i hn
    split
    · rename_i h; exact grows_insert hn h
    · rename_i h; exact grows_world h
    · rename_i h; exact grows_world h

theorem grows_populate (s : Attrs W) (p : Path) : Grows a s (s.populate a.backend p) := by
  unfold Attrs.populate
  split
  · exact Grows.refl s
  · rename_i hn
    split
    · rename_i h; exact grows_insert hn h
    · rename_i h; exact grows_world h

theorem grows_ensure (ps : List Path) (s : Attrs W) : Grows a s (s.ensure a.backend ps) := by
  unfold Attrs.ensure
  induction ps generalizing s with
  | nil => exact Grows.refl s
  | cons p ps ih => exact (grows_populate s p).trans (ih _)

section
variable {S : Type} {R : S → S → Prop} (store : ValueStore) {get : S → Path → Ans Val × S}
  (hr : ∀ s, R s s) (ht : ∀ s s' s'', R s s' → R s' s'' → R s s'') (hg : ∀ s p, R s (get s p).2)
include hr ht hg

mutual
theorem readMap_rel (pre : Text) (m : List (Text × AttrTree)) (s : S) : R s (readMap store get pre m s).2 := by
  match m with
  | [] => rw [readMap]; exact hr s
  | (key, tree) :: rest =>
    have hrest := fun s => readMap_rel pre rest s
    rw [readMap]
    split
    · have h1 := hrest s
      generalize readMap store get pre rest s = q at h1
      obtain ⟨r, s1⟩ := q
      cases r <;> exact h1
    · split
      · exact hr s
      · split
        · exact hrest s
        · have h1 := readTree_rel (entryPath pre key) tree s
          generalize readTree store get (entryPath pre key) tree s = q at h1
          obtain ⟨r, s1⟩ := q
          cases r with
          | pending => exact h1
          | err => exact h1
          | available v =>
            have h2 := hrest s1
            simp only
            generalize readMap store get pre rest s1 = q at h2
            obtain ⟨r, s2⟩ := q
            cases r <;> exact ht _ _ _ h1 h2

theorem readTree_rel (path : Text) (t : AttrTree) (s : S) : R s (readTree store get path t s).2 := by
  match t with
  | .value p => rw [readTree]; exact hg s p
  | .node m =>
    have h1 := readMap_rel path m s
    rw [readTree]
    generalize readMap store get path m s = q at h1
    obtain ⟨r, s1⟩ := q
    cases r <;> exact h1
end

end

variable (w : World W)

theorem grows_data (c : Ctx (Attrs W)) (s : Attrs W) (e : CompiledExpr) : Grows w.abi s (w.readData c s e).2 :=
  readMap_rel _ Grows.refl (fun _ _ _ => Grows.trans) (fun s p => grows_read _ s p) _ _ _

theorem grows_grpc (s : Attrs W) : Grows w.abi s (w.readGrpc s).2 := by
  unfold World.readGrpc
  split
  · have h1 := grows_read (a := w.abi) (fromBytes fromUtf8) s ["request".toList, "url_path".toList]
    generalize s.read w.abi.backend (fromBytes fromUtf8) ["request".toList, "url_path".toList] = q at h1
    obtain ⟨r, s1⟩ := q
    cases r <;> exact h1
  · exact Grows.refl s

theorem grows_attrs (c : Ctx (Attrs W)) (e : Expr) : Grows w.abi c.host (w.oracle.attrs c e).2 := by
  simp only [World.oracle]
  split
  · exact Grows.refl _
  · rename_i x _
    have h1 := (grows_ensure (World.hostAttributes x) c.host).trans
      (grows_data w c (c.host.ensure w.abi.backend (World.hostAttributes x)) x)
    generalize w.readData c (c.host.ensure w.abi.backend (World.hostAttributes x)) x = q at h1
    obtain ⟨r, s1⟩ := q
    cases r <;> exact h1

theorem grows_resolve (c : Ctx (Attrs W)) (vars : List (Text × Val)) (e : Expr) :
    Grows w.abi c.host (w.oracle.resolve c vars e).2 := by
  simp only [World.oracle]
  split
  · exact Grows.refl _
  · rename_i x _
    have h1 : Grows w.abi c.host (if x.needsGrpc then w.readGrpc c.host else (none, c.host)).2 := by
      split
      · exact grows_grpc w _
      · exact Grows.refl _
    generalize (if x.needsGrpc then w.readGrpc c.host else (none, c.host)) = q at h1
    obtain ⟨r, s1⟩ := q
    simp only
    split <;> exact h1

theorem grows_getHeaders (c : Ctx (Attrs W)) (t : Target) : Grows w.abi c.host (w.oracle.getHeaders c t).2 := by
  simp only [World.oracle]
  exact grows_read _ _ _

theorem grows_hostname (c : Ctx (Attrs W)) : Grows w.abi c.host (w.oracle.hostname c).2 := by
  simp only [World.oracle]
  exact grows_read _ _ _

theorem grows_oracle_ensure (c : Ctx (Attrs W)) (es : List Expr) : Grows w.abi c.host (w.oracle.ensure c es) := by
  simp only [World.oracle]
  exact grows_ensure _ _

/-- The calls that change the host. What is known stays as it is; only the host's part changes. -/
theorem dispatch_host (c : Ctx (Attrs W)) (svc : Svc) (m : Bytes) (rid : Text) :
    ∃ call, call.upstream = svc.upstream ∧ call.service = svc.service ∧ call.method = svc.method ∧
      call.message = m ∧ call.timeout = svc.timeout ∧
      call.headers = w.traceHeaders c ++ [("x-request-id".toList, utf8 rid)] ∧
      w.oracle.dispatch c svc m rid =
        ((w.abi.dispatchCall c.host.world call).1, { c.host with world := (w.abi.dispatchCall c.host.world call).2 }) := by
  refine ⟨{ upstream := svc.upstream, service := svc.service, method := svc.method,
            headers := w.traceHeaders c ++ [("x-request-id".toList, utf8 rid)], message := m,
            timeout := svc.timeout }, rfl, rfl, rfl, rfl, rfl, rfl, ?_⟩
  simp only [World.oracle]

/-- For an invariant of the host and the history on sessions it is enough to look at what is read and at the calls
that change the host. -/
structure SessionInv (w : World W) (J : Attrs W → List Effect → Prop) : Prop where
  push : ∀ s l e, e.inner = true → J s l → J s (l ++ [e])
  grows : ∀ s s' l, Grows w.abi s s' → J s l → J s' l
  dispatch : ∀ (c : Ctx (Attrs W)) svc m rid id guard call, J c.host c.log →
    call.upstream = svc.upstream → call.service = svc.service → call.method = svc.method → call.message = m →
    call.timeout = svc.timeout → call.headers = w.traceHeaders c ++ [("x-request-id".toList, utf8 rid)] →
    match w.abi.dispatch c.host.world call with
    | (.ok token, y) => J { c.host with world := y } (c.log ++ [.dispatch id guard token svc m rid])
    | (.error _, y) => J { c.host with world := y } c.log
  exported : ∀ (c : Ctx (Attrs W)) call, J c.host c.log → w.spans c = some call.message →
    call.service = "opentelemetry.proto.collector.trace.v1.TraceService".toList → call.method = "Export".toList →
    match w.abi.dispatch c.host.world call with
    | (.ok token, y) => J { c.host with world := y } (c.log ++ [.exported token])
    | (.error _, y) => J { c.host with world := y } c.log
  reply : ∀ s l status hs (body : Option Text), J s l →
    match w.abi.reply s.world status hs (body.map utf8) with
    | (.ok _, y) => J { s with world := y } (l ++ [.reply status hs body true])
    | (.error _, y) => J { s with world := y } (l ++ [.reply status hs body false])
  headers : ∀ s l t old pairs, J s l → mapGet s.cache (headersPath t).print = some (.headers old) → pairs ≠ [] →
    match w.abi.setMap s.world t (setAll old pairs) with
    | (.ok _, y) => J (Attrs.insert { s with world := y } (headersPath t) (.headers (setAll old pairs)))
        (l ++ [.headersSet t (setAll old pairs)])
    | (.error _, y) => J { s with world := y } l
  property : ∀ s l path v, J s l →
    match w.abi.setProperty s.world (Attrs.hostPath (Path.parse path)) v with
    | (.ok _, y) => J (Attrs.insert { s with world := y } (Path.parse path) (.bytes (some v)))
        (l ++ [.attrSet path v true])
    | (.error _, y) => J { s with world := y } l

/-- A header map that was read is known. -/
theorem getHeaders_known {c : Ctx (Attrs W)} {t : Target} {hs : Headers} {s : Attrs W}
    (h : w.oracle.getHeaders c t = (.available hs, s)) :
    mapGet s.cache (headersPath t).print = some (.headers hs) := by
  simp only [World.oracle, Attrs.read] at h
  split at h
  · rename_i v hv
    cases v with
    | bytes x => cases h
    | headers x => cases h; exact hv
  · split at h
    · rename_i v y _
      cases v with
      | bytes x => cases h
      | headers x =>
        cases h
        simp only [Attrs.insert, mapGet_mapInsert, if_true]
    · cases h
    · cases h

variable {w}

theorem SessionInv.hostInv {J : Attrs W → List Effect → Prop} (hi : SessionInv w J) : HostInv w.oracle J where
  push := hi.push
  attrs c e h := hi.grows _ _ _ (grows_attrs w c e) h
  resolve c vars e h := hi.grows _ _ _ (grows_resolve w c vars e) h
  dispatch c svc m rid id guard h := by
    obtain ⟨call, h1, h2, h3, h4, h5, h6, he⟩ := dispatch_host w c svc m rid
    have := hi.dispatch c svc m rid id guard call h h1 h2 h3 h4 h5 h6
    rw [he]
    unfold Abi.dispatchCall
    generalize w.abi.dispatch c.host.world call = q at this
    obtain ⟨r, y⟩ := q
    cases r <;> exact this
  response c svc n h := h
  sendReply c s hs b h := by
    have := hi.reply c.host c.log s hs b h
    simp only [World.oracle, Abi.sendReply]
    generalize w.abi.reply c.host.world s hs (b.map utf8) = q at this
    obtain ⟨r, y⟩ := q
    cases r <;> exact this
  getHeaders c t h := hi.grows _ _ _ (grows_getHeaders w c t) h
  readBody c s x n h := h
  exportSpans c u h := by
    simp only [World.oracle]
    split
    · rename_i he
      split at he
      · cases he
      · rename_i m hm
        generalize hc : ({ upstream := u, service := _, method := _, headers := _, message := m, timeout := _ } : GrpcCall) = call at he
        have := hi.exported c call h (by rw [hm, ← hc]) (by rw [← hc]) (by rw [← hc])
        unfold Abi.dispatchCall at he
        generalize w.abi.dispatch c.host.world call = q at this he
        obtain ⟨r, y⟩ := q
        cases r with
        | error e => cases he
        | ok token => cases he; exact this
    · rename_i he
      split at he
      · cases he; exact h
      · rename_i m hm
        generalize hc : ({ upstream := u, service := _, method := _, headers := _, message := m, timeout := _ } : GrpcCall) = call at he
        have := hi.exported c call h (by rw [hm, ← hc]) (by rw [← hc]) (by rw [← hc])
        unfold Abi.dispatchCall at he
        generalize w.abi.dispatch c.host.world call = q at this he
        obtain ⟨r, y⟩ := q
        cases r with
        | error e => cases he; exact this
        | ok token => cases he
  hostname c h := hi.grows _ _ _ (grows_hostname w c) h
  ensure c es h := hi.grows _ _ _ (grows_oracle_ensure w c es) h
  uuid c h := h
  writeHeaders c t hs s pairs h hg hp := by
    have h1 : J s c.log := by
      have := hi.grows _ _ _ (grows_getHeaders w c t) h
      rw [hg] at this
      exact this
    have h2 := hi.headers s c.log t hs pairs h1 (getHeaders_known w hg) hp
    simp only [World.oracle, Attrs.writeHeaders, Abi.backend, Abi.setAttributeMap, Ctx.withHost]
    generalize w.abi.setMap s.world t (setAll hs pairs) = q at h2
    obtain ⟨r, y⟩ := q
    cases r with
    | ok u => exact h2
    | error e =>
      cases e with
      | badArgument => cases t <;> exact h2
      | other n => exact h2
  writeAttr c path v bytes h hb := by
    have h2 := hi.property c.host c.log path bytes h
    simp only [World.oracle, Attrs.writeBytes, Abi.backend, Abi.setAttribute]
    generalize w.abi.setProperty c.host.world (Attrs.hostPath (Path.parse path)) bytes = q at h2
    obtain ⟨r, y⟩ := q
    cases r <;> exact h2

end

end Verif
