import Verif.Lemmas.Verdict
import Verif.Props.Attributes
import Verif.Props.HeaderPairs
/-! The reply actions of the translated actions, run one after the other. -/
set_option linter.unusedSimpArgs false
namespace Verif
open Spec Cel Legacy

variable {H : Type} {o : Oracle H}

/-- The tasks do this. -/
def Ran (o : Oracle H) (p : Pipe H) (ts : List PTask) (es : List Effect) : Prop :=
  Stops o p ts es ∨ ∃ q, Goes o p ts q es

theorem Ran.log {p : Pipe H} {ts : List PTask} {es : List Effect} (h : Ran o p ts es) (more : List PTask) :
    ∃ rest, (Pipe.processTasks o p (ts ++ more)).1.ctx.log = p.ctx.log ++ es ++ rest := by
  rcases h with h | ⟨q, h⟩
  · obtain ⟨q, h1, h2⟩ := h more
    exact ⟨[], by rw [h1, List.append_nil]; exact h2⟩
  · obtain ⟨more', h1, _⟩ := processTasks_started (o := o) q more
    exact ⟨more', by rw [h.next, h1, h.log]⟩

theorem list_three {α : Type} {l : List α} (h : l.length = 3) : ∃ a b c, l = [a, b, c] := by
  match l, h with
  | [a, b, c], _ => exact ⟨a, b, c, rfl⟩

theorem list_five {α : Type} {l : List α} (h : l.length = 5) : ∃ a b c d e, l = [a, b, c, d, e] := by
  match l, h with
  | [a, b, c, d, e], _ => exact ⟨a, b, c, d, e, rfl⟩

section
variable {parse : Text → Option Expr} {services : Text → Option SvcInst} {x : Text} {ts : List PTask}
  {base : List Effect} {bs : List (Text × (Text × Val))} {p : Pipe H} {v : Val} {K : Ctx H → Prop}
  {more : List PTask}

theorem readDeny_message (st : Nat) (items : List Val) (body : Text) (hst : st < 2 ^ 32) :
    ∃ pairs, Pairs items pairs ∧ readDeny [(lit "status", .uint st), (lit "headers", .list items),
      (lit "body", .str body)] = (st, pairs, replyBody body) := by
  refine ⟨headerPairs (.list items), (Props.C40_list items _).1 rfl, ?_⟩
  have h1 : fieldValue [(lit "status", .uint st), (lit "headers", .list items), (lit "body", .str body)]
      "status".toList = some (.uint st) := rfl
  have h2 : fieldValue [(lit "status", .uint st), (lit "headers", .list items), (lit "body", .str body)]
      "headers".toList = some (.list items) := by with_unfolding_all rfl
  have h3 : fieldValue [(lit "status", .uint st), (lit "headers", .list items), (lit "body", .str body)]
      "body".toList = some (.str body) := by with_unfolding_all rfl
  unfold readDeny
  rw [h1, h2, h3]
  simp only [Nat.mod_eq_of_lt hst, replyBody]
  cases body <;> rfl

theorem limit_run {r : LimitReply} (hr : r.Is v) (hK : ∀ a c, K a → Asked o a c → K c) (hw : Offers o K .response)
    (hk : KidsOf parse services x (ratelimitOnReply rlName) (ts.map PTask.strip)) (ht : ∀ t ∈ ts, Traced t.strip t)
    (hg : Next o K base bs more p ts)
    (hcel : ∀ j t, (ratelimitOnReply rlName)[j]? = some t →
      Interprets o parse (exprTexts t) (x ++ '.' :: natText j) (bound rlName v) (Fine K base bs)) :
    ∃ es, Ran o p ts es ∧ r.verdict.Undertaken o K .response (x ++ '.' :: natText 1) p.ctx.log es := by
  obtain ⟨t0, t1, t2, rfl⟩ := list_three (l := ts) (by simpa [ratelimitOnReply] using hk.len)
  obtain ⟨p0, e0, hp0, he0, k0⟩ := kid_deny hk ht (i := 0) rfl rfl
  obtain ⟨p1, e1, hp1, he1, k1⟩ := kid_headers hk ht (i := 1) rfl rfl
  obtain ⟨p2, hp2, k2⟩ := kid_fail hk ht (i := 2) rfl rfl
  have a0 := hcel 0 _ rfl
  have a1 := hcel 1 _ rfl
  have a2 := hcel 2 _ rfl
  have q0 := fun c => (a0 _ (by simp [exprTexts]) _ _ parses_over hp0).2.2 _ (eval_over hr) c
  have d0 := fun c => (a0 _ (by simp [exprTexts]) _ _ parses_limitDeny he0).2.2 _ (eval_limitDeny hr) c
  have q1 := fun c => (a1 _ (by simp [exprTexts]) _ _ parses_under hp1).2.2 _ (eval_under hr) c
  have d1 := fun c => (a1 _ (by simp [exprTexts]) _ _ parses_limitHeaders he1).2.2 _ (eval_limitHeaders hr) c
  have q2 := fun c => (a2 _ (by simp [exprTexts]) _ _ parses_unknown hp2).2.2 _ (eval_unknown hr) c
  unfold LimitReply.verdict
  by_cases h2 : r.code = 2
  · -- over the limit
    rw [if_pos h2]
    simp only [h2, decide_true] at q0
    obtain ⟨c', h3, tr, h4, h5⟩ := sendReply_ends (o := o) (q0 _ (hg.first k0 rfl))
      (fun c' hq => d0 c' ((hg.first k0 rfl).asked hK hq))
      (fun a ha => hw.reply _ ⟨a, ((hg.first k0 rfl).asked hK ha).1, .inl rfl⟩)
    obtain ⟨pairs, h6, h7⟩ := readDeny_message 429 r.headers (lit "Too Many Requests\n") (by decide)
    rw [h7] at h5
    refine ⟨_, .inl ((stops_end (es := _) k0 rfl h3 h5).cons _), .inl ⟨_, pairs, _, rfl, h6, tr, h4, ?_⟩⟩
    rfl
  · rw [if_neg h2]
    simp only [h2, decide_false] at q0
    obtain ⟨r1, g0⟩ := goes_quiet (o := o) (p := p) k0 rfl (sendReply_skip (q0 _ (hg.first k0 rfl)))
    have hg1 := g0.ready hg
    by_cases h1 : r.code = 1
    · -- under the limit
      rw [if_pos h1]
      simp only [h1, decide_true] at q1
      simp only [h1, h2, ne_eq, not_true_eq_false, false_and, decide_false] at q2
      rcases headers_tried (o := o) (fun a ha => hw.read a ((hg1.first k1 rfl).asked hK ha).1)
        (fun a old h ha hh => hw.write a old h ((hg1.first k1 rfl).asked hK ha).1 hh) (q1 _ (hg1.first k1 rfl))
        (fun c' hq => d1 c' ((hg1.first k1 rfl).asked hK hq)) with
        ⟨c', h3, h4, h5⟩ | ⟨h3, c', new, h4, h5, c0, h6, h7, h8⟩
      case inr =>
        obtain ⟨r2, g1⟩ := goes_requeued (o := o) k1 rfl h4 h5
        obtain ⟨r3, g2⟩ := goes_quiet (o := o) k2 rfl (fail_skip (o := o) (q2 _ ((g1.ready hg1).first k2 rfl)))
        have g : Goes o p [t0, t1, t2] r3 ([.applied (x ++ '.' :: natText 0), .completed (x ++ '.' :: natText 0)] ++
            ([.applied (x ++ '.' :: natText 1)] ++
            ([.applied (x ++ '.' :: natText 2), .completed (x ++ '.' :: natText 2)] ++ []))) :=
          g0.cons (g1.cons (g2.cons (.nil _)))
        refine ⟨_, .inr ⟨r3, g⟩, .inr ⟨_, _, rfl, (Props.C40_list _ _).1 rfl, h3, ?_,
          [.applied (x ++ '.' :: natText 0), .completed (x ++ '.' :: natText 0)],
          [.applied (x ++ '.' :: natText 2), .completed (x ++ '.' :: natText 2)], rfl,
          c0, ((hg1.first k1 rfl).asked hK h6).1, ?_, h8⟩⟩
        · intro e he
          simp at he
          rcases he with rfl | rfl | rfl | rfl | rfl <;> simp
        · have h11 := g0.log
          rw [h7, Ctx.push, h11]
          rfl
      have fin : ∀ es, c'.log = (r1.ctx.push (.applied (x ++ '.' :: natText 1))).log ++ es →
          ∃ q, Goes o p [t0, t1, t2] q ([.applied (x ++ '.' :: natText 0), .completed (x ++ '.' :: natText 0)] ++
            (.applied (x ++ '.' :: natText 1) :: es ++ [.completed (x ++ '.' :: natText 1)] ++
            ([.applied (x ++ '.' :: natText 2), .completed (x ++ '.' :: natText 2)] ++ []))) := by
        intro es hes
        have g1 := goes_done (o := o) k1 rfl h3 hes h4
        obtain ⟨r2, g2⟩ := goes_quiet (o := o) k2 rfl (fail_skip (o := o) (q2 _ ((g1.ready hg1).first k2 rfl)))
        exact ⟨r2, g0.cons (g1.cons (g2.cons (.nil _)))⟩
      rcases h5 with ⟨h6, h7⟩ | ⟨h6, c0, old, hk0, h7, h8, h9⟩
      · obtain ⟨q, h10⟩ := fin [] (by rw [h7, List.append_nil]; rfl)
        refine ⟨_, .inr ⟨q, h10⟩, .inl ⟨[], (Props.C40_list _ _).1 h6, .inl ⟨rfl, ?_⟩⟩⟩
        intro e he
        simp at he
        rcases he with rfl | rfl | rfl | rfl | rfl | rfl <;> simp
      · obtain ⟨q, h10⟩ := fin _ h9
        refine ⟨_, .inr ⟨q, h10⟩, .inl ⟨_, (Props.C40_list _ _).1 rfl, .inr ⟨h6,
          [.applied (x ++ '.' :: natText 0), .completed (x ++ '.' :: natText 0), .applied (x ++ '.' :: natText 1)],
          setAll old (headerPairs (.list r.headers)),
          [.completed (x ++ '.' :: natText 1), .applied (x ++ '.' :: natText 2), .completed (x ++ '.' :: natText 2)],
          rfl, ?_, ?_, c0, old, ((hg1.first k1 rfl).asked hK hk0).1, ?_, h8, Props.setAll_replaced old _⟩⟩⟩
        · intro e he
          simp at he
          rcases he with rfl | rfl | rfl <;> simp
        · intro e he
          simp at he
          rcases he with rfl | rfl | rfl <;> simp
        · have h11 := g0.log
          rw [h7, Ctx.push, h11, List.append_assoc]
          rfl
    · -- anything else
      rw [if_neg h1]
      simp only [h1, decide_false] at q1
      obtain ⟨r2, g1⟩ := goes_quiet (o := o) (p := r1) k1 rfl (headers_skip (q1 _ (hg1.first k1 rfl)))
      have hg2 := g1.ready hg1
      simp only [h1, h2, ne_eq, not_false_eq_true, and_self, decide_true] at q2
      obtain ⟨c', h3, tr, h4, h5⟩ := fail_ends (o := o) (q2 _ (hg2.first k2 rfl))
        (fun a ha => hw.reply _ ⟨a, ((hg2.first k2 rfl).asked hK ha).1, .inr rfl⟩)
      refine ⟨_, .inl (g0.stops (g1.stops (stops_end (es := _) k2 rfl h3 h5))),
        .inl ⟨[.applied (x ++ '.' :: natText 0), .completed (x ++ '.' :: natText 0), .applied (x ++ '.' :: natText 1),
          .completed (x ++ '.' :: natText 1), .applied (x ++ '.' :: natText 2)], _, rfl, ?_, tr, h4, rfl⟩⟩
      intro e he
      simp at he
      rcases he with rfl | rfl | rfl | rfl | rfl <;> simp

theorem auth_run {r : CheckReply} (hr : r.Is v) (hK : ∀ a c, K a → Asked o a c → K c) (hw : Willing o K .request)
    (hstatus : ∀ status items body, r.result = .denied status items body →
      ∃ code, status = some code ∧ 0 ≤ code ∧ code < 2 ^ 32)
    (hmeta : ∀ m, r.metadata = some m → ∃ bytes, o.toBytes m = some bytes ∧
      ∀ c : Ctx H, K c → (o.setAttr c (lit "auth") bytes).1 ≠ .err)
    (hk : KidsOf parse services x (authOnReply authName) (ts.map PTask.strip)) (ht : ∀ t ∈ ts, Traced t.strip t)
    (hg : Next o K base bs more p ts)
    (hcel : ∀ j t, (authOnReply authName)[j]? = some t →
      Interprets o parse (exprTexts t) (x ++ '.' :: natText j) (bound authName v) (Fine K base bs)) :
    ∃ es, Ran o p ts es ∧ r.verdict.Done o K .request p.ctx.log es ∧
      ∀ items m, r.verdict = .proceed items → r.metadata = some m → .stored (lit "auth") m ∈ es := by
  obtain ⟨t0, t1, t2, t3, t4, rfl⟩ := list_five (l := ts) (by simpa [authOnReply] using hk.len)
  obtain ⟨p0, e0, hp0, he0, k0⟩ := kid_deny hk ht (i := 0) rfl rfl
  obtain ⟨p1, hp1, k1⟩ := kid_fail hk ht (i := 1) rfl rfl
  obtain ⟨p2, e2, hp2, he2, k2⟩ := kid_store hk ht (i := 2) rfl rfl
  obtain ⟨p3, e3, hp3, he3, k3⟩ := kid_headers hk ht (i := 3) rfl rfl
  obtain ⟨p4, hp4, k4⟩ := kid_fail hk ht (i := 4) rfl rfl
  have a0 := hcel 0 _ rfl
  have a1 := hcel 1 _ rfl
  have a2 := hcel 2 _ rfl
  have a3 := hcel 3 _ rfl
  have a4 := hcel 4 _ rfl
  have q0 := fun c => (a0 _ (by simp [exprTexts]) _ _ parses_denied hp0).2.2 _ (eval_denied hr) c
  have d0 := (a0 _ (by simp [exprTexts]) _ _ parses_authDeny he0).2.2
  have q1 := fun c => (a1 _ (by simp [exprTexts]) _ _ parses_unsupported hp1).2.2 _ (eval_unsupported hr) c
  have q2 := fun c => (a2 _ (by simp [exprTexts]) _ _ parses_store hp2).2.2 _ (eval_store hr) c
  have d2 := (a2 _ (by simp [exprTexts]) _ _ parses_metadata he2)
  have q3 := fun c => (a3 _ (by simp [exprTexts]) _ _ parses_ok hp3).2.2 _ (eval_ok hr) c
  have d3 := (a3 _ (by simp [exprTexts]) _ _ parses_okHeaders he3).2.2
  have q4 := fun c => (a4 _ (by simp [exprTexts]) _ _ parses_neither hp4).2.2 _ (eval_neither hr) c
  have hinit : initialParseState p2 e2 = .notNeeded := by
    obtain ⟨b1, b2, _⟩ := a2 _ (by simp [exprTexts]) _ _ parses_store hp2
    unfold initialParseState
    rw [b1, b2, d2.1, d2.2.1]
    rfl
  rw [hinit] at k2
  unfold CheckReply.verdict
  cases hres : r.result with
  | denied status items body =>
    obtain ⟨code, rfl, hc, hlt⟩ := hstatus _ _ _ hres
    rw [hres] at q0
    have hd := eval_authDeny hres hc hr
    obtain ⟨c', h3, tr, h4, h5⟩ := sendReply_ends (o := o) (q0 _ (hg.first k0 rfl))
      (fun c' hq => d0 _ hd c' ((hg.first k0 rfl).asked hK hq))
      (fun a ha => hw.reply _ ⟨a, ((hg.first k0 rfl).asked hK ha).1, .inl rfl⟩)
    have hsmall : denyStatus code < 2 ^ 32 := by unfold denyStatus; split <;> omega
    obtain ⟨pairs, h6, h7⟩ := readDeny_message (denyStatus code) items body hsmall
    rw [h7] at h5
    refine ⟨_, .inl ((stops_end (es := _) k0 rfl h3 h5).cons _), ⟨_, pairs, _, rfl, h6, tr, h4, rfl⟩, ?_⟩
    intro _ _ h
    cases h
  | absent =>
    rw [hres] at q0 q1 q2 q3 q4
    obtain ⟨r1, g0⟩ := goes_quiet (o := o) (p := p) k0 rfl (sendReply_skip (q0 _ (hg.first k0 rfl)))
    have hg1 := g0.ready hg
    obtain ⟨r2, g1⟩ := goes_quiet (o := o) (p := r1) k1 rfl (fail_skip (q1 _ (hg1.first k1 rfl)))
    have hg2 := g1.ready hg1
    obtain ⟨r3, g2⟩ := goes_quiet (o := o) (p := r2) k2 rfl (store_skip (q2 _ (hg2.first k2 rfl)))
    have hg3 := g2.ready hg2
    obtain ⟨r4, g3⟩ := goes_quiet (o := o) (p := r3) k3 rfl (headers_skip (q3 _ (hg3.first k3 rfl)))
    have hg4 := g3.ready hg3
    obtain ⟨c', h3, tr, h4, h5⟩ := fail_ends (o := o) (q4 _ (hg4.first k4 rfl))
        (fun a ha => hw.reply _ ⟨a, ((hg4.first k4 rfl).asked hK ha).1, .inr rfl⟩)
    refine ⟨_, .inl (g0.stops (g1.stops (g2.stops (g3.stops (stops_end (es := _) k4 rfl h3 h5))))),
      ⟨[.applied (x ++ '.' :: natText 0), .completed (x ++ '.' :: natText 0), .applied (x ++ '.' :: natText 1),
          .completed (x ++ '.' :: natText 1), .applied (x ++ '.' :: natText 2), .completed (x ++ '.' :: natText 2),
          .applied (x ++ '.' :: natText 3), .completed (x ++ '.' :: natText 3), .applied (x ++ '.' :: natText 4)],
        _, rfl, ?_, tr, h4, rfl⟩, ?_⟩
    · intro e he
      simp at he
      rcases he with rfl | rfl | rfl | rfl | rfl | rfl | rfl | rfl | rfl <;> simp
    · intro _ _ h
      cases h
  | ok k =>
    rw [hres] at q0 q1 q2 q3 q4
    obtain ⟨r1, g0⟩ := goes_quiet (o := o) (p := p) k0 rfl (sendReply_skip (q0 _ (hg.first k0 rfl)))
    have hg1 := g0.ready hg
    by_cases hun : k.unsupported = true
    · simp only [hun, if_true]
      simp only [asksMore, hun] at q1
      obtain ⟨c', h3, tr, h4, h5⟩ := fail_ends (o := o) (q1 _ (hg1.first k1 rfl))
        (fun a ha => hw.reply _ ⟨a, ((hg1.first k1 rfl).asked hK ha).1, .inr rfl⟩)
      refine ⟨_, .inl (g0.stops ((stops_end (es := _) k1 rfl h3 h5).cons _)),
        ⟨[.applied (x ++ '.' :: natText 0), .completed (x ++ '.' :: natText 0), .applied (x ++ '.' :: natText 1)],
          _, rfl, ?_, tr, h4, rfl⟩, ?_⟩
      · intro e he
        simp at he
        rcases he with rfl | rfl | rfl <;> simp
      · intro _ _ h
        cases h
    · have hun : k.unsupported = false := by simpa using hun
      simp only [hun, Bool.false_eq_true, if_false]
      simp only [asksMore, hun] at q1
      obtain ⟨r2, g1⟩ := goes_quiet (o := o) (p := r1) k1 rfl (fail_skip (q1 _ (hg1.first k1 rfl)))
      have hg2 := g1.ready hg1
      -- the metadata
      have hstore : ∃ r3 es2, Goes o r2 [t2] r3 (.applied (x ++ '.' :: natText 2) :: es2 ++
            [.completed (x ++ '.' :: natText 2)]) ∧ Calm es2 ∧
          ∀ m, r.metadata = some m → .stored (lit "auth") m ∈ es2 := by
        cases hm : r.metadata with
        | none =>
          rw [hm] at q2
          obtain ⟨r3, g2⟩ := goes_quiet (o := o) (p := r2) k2 rfl (store_skip (q2 _ (hg2.first k2 rfl)))
          exact ⟨r3, [], g2, (by intro e he; cases he), (by intro m h; cases h)⟩
        | some m =>
          rw [hm] at q2
          obtain ⟨bytes, hb, hset⟩ := hmeta m hm
          have hv := (eval_metadata hr).trans hm
          obtain ⟨c', ok, h3, h4, h5⟩ := store_done (o := o) hb
            (fun a ha => hset a ((hg2.first k2 rfl).asked hK ha).1)
            (q2 _ (hg2.first k2 rfl))
            (fun c' hq => d2.2.2 _ hv c' ((hg2.first k2 rfl).asked hK hq))
          refine ⟨_, _, goes_done (o := o) k2 rfl h3 h5 h4, ?_, ?_⟩
          · intro e he
            simp only [List.mem_cons, List.not_mem_nil, or_false] at he
            rcases he with rfl | rfl <;> simp
          · intro m' h
            cases h
            simp
      obtain ⟨r3, es2, g2, hes2, hstored⟩ := hstore
      have hg3 := g2.ready hg2
      have hh := eval_okHeaders hres hr
      obtain ⟨c', h3, h4, h5⟩ := headers_set (o := o) (fun a ha => hw.read a ((hg3.first k3 rfl).asked hK ha).1)
        (fun a ha => hw.write a ((hg3.first k3 rfl).asked hK ha).1) (q3 _ (hg3.first k3 rfl))
        (fun c' hq => d3 _ hh c' ((hg3.first k3 rfl).asked hK hq))
      have fin : ∀ es, c'.log = (r3.ctx.push (.applied (x ++ '.' :: natText 3))).log ++ es →
          ∃ q, Goes o p [t0, t1, t2, t3, t4] q
            ([.applied (x ++ '.' :: natText 0), .completed (x ++ '.' :: natText 0)] ++
            ([.applied (x ++ '.' :: natText 1), .completed (x ++ '.' :: natText 1)] ++
            ((.applied (x ++ '.' :: natText 2) :: es2 ++ [.completed (x ++ '.' :: natText 2)]) ++
            ((.applied (x ++ '.' :: natText 3) :: es ++ [.completed (x ++ '.' :: natText 3)]) ++
            ([.applied (x ++ '.' :: natText 4), .completed (x ++ '.' :: natText 4)] ++ []))))) := by
        intro es hes
        have g3 := goes_done (o := o) k3 rfl h3 hes h4
        obtain ⟨r5, g4⟩ := goes_quiet (o := o) k4 rfl (fail_skip (o := o) (q4 _ ((g3.ready hg3).first k4 rfl)))
        exact ⟨r5, g0.cons (g1.cons (g2.cons (g3.cons (g4.cons (.nil _)))))⟩
      rcases h5 with ⟨h6, h7⟩ | ⟨h6, c0, old, hk0, h7, h8, h9⟩
      · obtain ⟨q, h10⟩ := fin [] (by rw [h7, List.append_nil]; rfl)
        refine ⟨_, .inr ⟨q, h10⟩, ⟨[], (Props.C40_list _ _).1 h6, .inl ⟨rfl, ?_⟩⟩, ?_⟩
        · intro e he
          simp only [List.mem_append, List.mem_cons, List.not_mem_nil, or_false] at he
          rcases he with (rfl | rfl) | (rfl | rfl) | ((rfl | he) | rfl) | (rfl | rfl) | rfl | rfl
          all_goals first | exact hes2 _ he | simp
        · intro _ m _ hm
          have := hstored m hm
          simp [this]
      · obtain ⟨q, h10⟩ := fin _ h9
        refine ⟨_, .inr ⟨q, h10⟩, ⟨_, (Props.C40_list _ _).1 rfl, .inr ⟨h6,
          [.applied (x ++ '.' :: natText 0), .completed (x ++ '.' :: natText 0), .applied (x ++ '.' :: natText 1),
            .completed (x ++ '.' :: natText 1), .applied (x ++ '.' :: natText 2)] ++ es2 ++
            [.completed (x ++ '.' :: natText 2), .applied (x ++ '.' :: natText 3)],
          setAll old (headerPairs (.list k.headers)),
          [.completed (x ++ '.' :: natText 3), .applied (x ++ '.' :: natText 4), .completed (x ++ '.' :: natText 4)],
          ?_, ?_, ?_, c0, old, ((hg3.first k3 rfl).asked hK hk0).1, ?_, h8, Props.setAll_replaced old _⟩⟩, ?_⟩
        · simp only [List.cons_append, List.nil_append, List.append_assoc, List.append_nil]
        · intro e he
          simp only [List.mem_append, List.mem_cons, List.not_mem_nil, or_false] at he
          rcases he with ((rfl | rfl | rfl | rfl | rfl) | he) | rfl | rfl
          all_goals first | exact hes2 _ he | simp
        · intro e he
          simp only [List.mem_cons, List.not_mem_nil, or_false] at he
          rcases he with rfl | rfl | rfl <;> simp
        · have h11 : r3.ctx.log = r2.ctx.log ++ (.applied (x ++ '.' :: natText 2) :: es2 ++
            [.completed (x ++ '.' :: natText 2)]) := g2.log
          have h12 : r2.ctx.log = r1.ctx.log ++ [.applied (x ++ '.' :: natText 1),
            .completed (x ++ '.' :: natText 1)] := g1.log
          have h13 : r1.ctx.log = p.ctx.log ++ [.applied (x ++ '.' :: natText 0),
            .completed (x ++ '.' :: natText 0)] := g0.log
          have h14 : c0.log = r3.ctx.log ++ [.applied (x ++ '.' :: natText 3)] := h7
          rw [h14, h11, h12, h13]
          generalize x ++ '.' :: natText 0 = y0
          generalize x ++ '.' :: natText 1 = y1
          generalize x ++ '.' :: natText 2 = y2
          generalize x ++ '.' :: natText 3 = y3
          simp
        · intro _ m _ hm
          have := hstored m hm
          simp [this]

/-- A denial that cannot be evaluated. -/
theorem sendReply_fails {c : Ctx H} {id : Text} {pred e : Expr} {terminal : Bool}
    (hp : (evalExpr o c id pred).1 = .available (.bool true))
    (he : ∀ c', Asked o c c' → (evalExpr o c' id e).1 = .err) :
    ∃ c', Core.apply o c (.sendReply id pred e terminal) = (.failed, c') ∧ Quiet c c' := by
  have hq := evalExpr_quiet o c id pred
  have he' := he _ (evalExpr_asked c id pred)
  refine ⟨_, ?_, hq.trans (evalExpr_quiet o _ id e)⟩
  show applySendReply o c id pred e terminal = _
  unfold applySendReply
  rw [testPred_of hp]
  dsimp only
  generalize evalExpr o (evalExpr o c id pred).2 id e = w at he'
  obtain ⟨a, c2⟩ := w
  replace he' : a = .err := he'
  subst he'
  rfl

theorem denied_run {r : CheckReply} (hr : r.Is v) (hK : ∀ a c, K a → Asked o a c → K c) {status : Option Int} {items : List Val} {body : Text}
    (hres : r.result = .denied status items body) (hnone : eval (bound authName v) authDeny = none)
    (hk : KidsOf parse services x (authOnReply authName) (ts.map PTask.strip)) (ht : ∀ t ∈ ts, Traced t.strip t)
    (hg : Next o K base bs more p ts)
    (hcel : ∀ j t, (authOnReply authName)[j]? = some t →
      Interprets o parse (exprTexts t) (x ++ '.' :: natText j) (bound authName v) (Fine K base bs))
    (herr : ∀ t, (authOnReply authName)[0]? = some t →
      Rejects o parse (exprTexts t) (x ++ '.' :: natText 0) (bound authName v) (Fine K base bs)) :
    ∃ es, Ran o p ts es ∧ started es = replyIds x 5 ∧
      ∀ e ∈ es, (∃ id, e = .applied id) ∨ (∃ id, e = .completed id) ∨ (∃ id, e = .failed id) := by
  obtain ⟨t0, t1, t2, t3, t4, rfl⟩ := list_five (l := ts) (by simpa [authOnReply] using hk.len)
  obtain ⟨p0, e0, hp0, he0, k0⟩ := kid_deny hk ht (i := 0) rfl rfl
  obtain ⟨p1, hp1, k1⟩ := kid_fail hk ht (i := 1) rfl rfl
  obtain ⟨p2, e2, hp2, he2, k2⟩ := kid_store hk ht (i := 2) rfl rfl
  obtain ⟨p3, e3, hp3, he3, k3⟩ := kid_headers hk ht (i := 3) rfl rfl
  obtain ⟨p4, hp4, k4⟩ := kid_fail hk ht (i := 4) rfl rfl
  have a0 := hcel 0 _ rfl
  have a1 := hcel 1 _ rfl
  have a2 := hcel 2 _ rfl
  have a3 := hcel 3 _ rfl
  have a4 := hcel 4 _ rfl
  have q0 := fun c => (a0 _ (by simp [exprTexts]) _ _ parses_denied hp0).2.2 _ (eval_denied hr) c
  have d0 := herr _ rfl _ (by simp [exprTexts]) _ _ parses_authDeny he0 hnone
  have q1 := fun c => (a1 _ (by simp [exprTexts]) _ _ parses_unsupported hp1).2.2 _ (eval_unsupported hr) c
  have q2 := fun c => (a2 _ (by simp [exprTexts]) _ _ parses_store hp2).2.2 _ (eval_store hr) c
  have d2 := (a2 _ (by simp [exprTexts]) _ _ parses_metadata he2)
  have q3 := fun c => (a3 _ (by simp [exprTexts]) _ _ parses_ok hp3).2.2 _ (eval_ok hr) c
  have q4 := fun c => (a4 _ (by simp [exprTexts]) _ _ parses_neither hp4).2.2 _ (eval_neither hr) c
  have hinit : initialParseState p2 e2 = .notNeeded := by
    obtain ⟨b1, b2, _⟩ := a2 _ (by simp [exprTexts]) _ _ parses_store hp2
    unfold initialParseState
    rw [b1, b2, d2.1, d2.2.1]
    rfl
  rw [hinit] at k2
  rw [hres] at q0 q1 q2 q3 q4
  obtain ⟨c', h3, h4⟩ := sendReply_fails (o := o) (terminal := true) (q0 _ (hg.first k0 rfl))
    (fun c' hq => d0 c' ((hg.first k0 rfl).asked hK hq))
  have g0 := goes_failed (o := o) k0 rfl h3 h4
  have hg1 := g0.ready hg
  obtain ⟨r2, g1⟩ := goes_quiet (o := o) k1 rfl (fail_skip (q1 _ (hg1.first k1 rfl)))
  have hg2 := g1.ready hg1
  obtain ⟨r3, g2⟩ := goes_quiet (o := o) (p := r2) k2 rfl (store_skip (q2 _ (hg2.first k2 rfl)))
  have hg3 := g2.ready hg2
  obtain ⟨r4, g3⟩ := goes_quiet (o := o) (p := r3) k3 rfl (headers_skip (q3 _ (hg3.first k3 rfl)))
  have hg4 := g3.ready hg3
  obtain ⟨r5, g4⟩ := goes_quiet (o := o) (p := r4) k4 rfl (fail_skip (q4 _ (hg4.first k4 rfl)))
  refine ⟨_, .inr ⟨r5, g0.cons (g1.cons (g2.cons (g3.cons (g4.cons (.nil _)))))⟩, rfl, ?_⟩
  intro e he
  simp only [List.mem_append, List.mem_cons, List.not_mem_nil, or_false] at he
  rcases he with (rfl | rfl) | (rfl | rfl) | (rfl | rfl) | (rfl | rfl) | rfl | rfl <;> simp

end

end Verif
