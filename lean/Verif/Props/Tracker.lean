import Verif.Lemmas.Cel
import Verif.Lemmas.Identity
import Verif.Props.Identity
/-!
The id of a request in the expression of the tracking header (C67).
-/
namespace Verif.Props
open Cel Spec

/-- Texts that may stand in a literal as they are. -/
def Quotable (t : Text) : Prop := ∀ c ∈ t, c ≠ '\'' ∧ c ≠ '\\' ∧ c ≠ '\n' ∧ c ≠ '\r'

instance (t : Text) : Decidable (Quotable t) := inferInstanceAs (Decidable (∀ c ∈ t, _))

theorem scan_quotable {t : Text} (h : Quotable t) (out : List Token) (acc : Text) :
    scan t (out, .body { double := false, raw := false, bytes := false, acc }) =
      (out, .body { double := false, raw := false, bytes := false, acc := acc ++ t }) := by
  induction t generalizing acc with
  | nil => simp [scan]
  | cons c t ih =>
    obtain ⟨h1, h2, h3, h4⟩ := h c (.head _)
    have : step (out, .body { double := false, raw := false, bytes := false, acc }) c =
        (out, .body { double := false, raw := false, bytes := false, acc := acc ++ [c] }) := by
      simp [step, inBody, StrInfo.quote, h1, h2, h3, h4]
    have h' := ih (fun d hd => h d (.tail _ hd)) (acc ++ [c])
    unfold scan at h' ⊢
    rw [List.foldl_cons, this, h']
    simp

theorem scan_literal {t : Text} (h : Quotable t) (out : List Token) (c : Char) (hc : c ≠ '\'') (post : Text) :
    scan ('\'' :: (t ++ '\'' :: c :: post)) (out, .normal) = scan (c :: post) (out ++ [.str false t], .normal) := by
  have h0 : step (out, .normal) '\'' = (out, .open1 { double := false, raw := false, bytes := false }) := by
    simp [step, start, isBlank, single]
  cases t with
  | nil =>
    simp only [scan, List.nil_append, List.foldl_cons, h0]
    congr 1
    simp [step, StrInfo.quote, hc]
  | cons d t =>
    obtain ⟨h1, h2, h3, h4⟩ := h d (.head _)
    have h5 : step (out, .open1 { double := false, raw := false, bytes := false }) d =
        (out, .body { double := false, raw := false, bytes := false, acc := [d] }) := by
      simp [step, inBody, StrInfo.quote, h1, h2, h3, h4]
    have h6 := scan_quotable (fun x hx => h x (.tail _ hx)) out [d]
    unfold scan at h6 ⊢
    rw [List.foldl_cons, h0, List.cons_append, List.foldl_cons, h5, List.foldl_append, h6, List.foldl_cons]
    congr 1

theorem lex_tracking {var rid : Text} (hv : Quotable var) (hr : Quotable rid) :
    lex (trackingSource var rid) = some [.sym .lbrack, .sym .lbrack, .str false var, .sym .comma, .str false rid,
      .sym .rbrack, .sym .rbrack] := by
  have h0 : trackingSource var rid =
      '[' :: '[' :: '\'' :: (var ++ '\'' :: ',' :: (' ' :: '\'' :: (rid ++ '\'' :: ']' :: [']']))) := by
    simp [trackingSource]
  unfold lex
  rw [h0]
  have h1 : scan ('[' :: '[' :: '\'' :: (var ++ '\'' :: ',' :: (' ' :: '\'' :: (rid ++ '\'' :: ']' :: [']']))))
      ([], .normal) = scan ('\'' :: (var ++ '\'' :: ',' :: (' ' :: '\'' :: (rid ++ '\'' :: ']' :: [']']))))
      ([.sym .lbrack, .sym .lbrack], .normal) := rfl
  rw [h1, scan_literal hv _ ',' (by decide)]
  have h2 : scan (',' :: (' ' :: '\'' :: (rid ++ '\'' :: ']' :: [']'])))
      ([.sym .lbrack, .sym .lbrack] ++ [.str false var], .normal) =
      scan ('\'' :: (rid ++ '\'' :: ']' :: [']'])) ([.sym .lbrack, .sym .lbrack, .str false var, .sym .comma], .normal) := rfl
  rw [h2, scan_literal hr _ ']' (by decide)]
  rfl

/-- C67: an id without quotes, backslashes and line breaks is data: the expression for the tracking header is a list
of one pair of literals, the name of the header and the id. -/
theorem C67_as_data (var rid : Text) (hv : Quotable var) (hr : Quotable rid) :
    Parses (trackingSource var rid) (.list [.list [.str false var, .str false rid]]) :=
  ⟨_, 20, lex_tracking hv hr, by with_unfolding_all rfl⟩

example : Quotable "x-id".toList ∧ Quotable "3d9c-\"{}].//".toList := by decide

/-- C67, against the expectation for other ids: one quote is no expression at all. -/
theorem C67_no_expression (var : Text) (hv : Quotable var) (a : Ast) : ¬ Parses (trackingSource var ['\'']) a := by
  rintro ⟨toks, k, hl, _⟩
  have h0 : trackingSource var ['\''] =
      '[' :: '[' :: '\'' :: (var ++ '\'' :: ',' :: (' ' :: '\'' :: '\'' :: '\'' :: ']' :: [']'])) := by
    simp [trackingSource]
  unfold lex at hl
  rw [h0] at hl
  have h1 : scan ('[' :: '[' :: '\'' :: (var ++ '\'' :: ',' :: (' ' :: '\'' :: '\'' :: '\'' :: ']' :: [']'])))
      ([], .normal) = scan ('\'' :: (var ++ '\'' :: ',' :: (' ' :: '\'' :: '\'' :: '\'' :: ']' :: [']'])))
      ([.sym .lbrack, .sym .lbrack], .normal) := rfl
  rw [h1, scan_literal hv _ ',' (by decide)] at hl
  revert hl
  generalize [Token.sym .lbrack, .sym .lbrack] ++ [.str false var] = out
  intro hl
  cases hl

/-- C67, against the expectation: an id can also be a part of the expression. This one makes the expression read an
attribute, whose value then goes to the client as the response header. -/
theorem C67_injected :
    Parses (trackingSource "x-id".toList "' + auth.identity.key + '".toList)
      (.list [.list [.str false "x-id".toList, .binary .add
        (.binary .add (.str false []) (path "auth".toList ["identity".toList, "key".toList])) (.str false [])]]) :=
  ⟨[.sym .lbrack, .sym .lbrack, .str false "x-id".toList, .sym .comma, .str false [], .sym .plus,
    .ident "auth".toList, .sym .dot, .ident "identity".toList, .sym .dot, .ident "key".toList, .sym .plus,
    .str false [], .sym .rbrack, .sym .rbrack], 20, by decide +kernel, by with_unfolding_all rfl⟩

section
variable {H : Type} {o : Oracle H}

theorem dev_panics {header x : Text} {d : Ctx H} {rd : List Expr} {w : Bool} {head : Head} {u : Option Text}
    {host : H} (hs : Prepared o { host := host } d) (hlog : d.log = []) (hrid : d.requestId = none)
    (hx : ∀ c : Ctx H, Prepared o { host := host } c → ∃ hs, (o.getHeaders c .request).1 = .available hs ∧
      hs.lookup "x-request-id".toList = some x)
    (hp : o.parse (trackingSource header x) = none) :
    tasksLoop o d rd w [.grpc head (.tracing u) header truePred []] = none := by
  have hr : (requestId o { d with trackerId := some header }).1 = x :=
    idFrom_header o ⟨{ d with trackerId := some header }, hs.named header, hlog, hrid, rfl⟩ fun c hc _ => hx c hc
  simp only [tasksLoop, actionTasks, Action.toCore, toCoreList]
  rw [hr, hp]

theorem build_panics {parse : Text → Option Expr} {cfg : PluginConfig} {f : Factory}
    (hf : Factory.tryFrom parse cfg = some f) {host : H} {b : Blueprint} {name x : Text}
    (hb : (f.select o { host := host }).1 = .found b) (hn : trackingHeader cfg = some name)
    (hx : ∀ c : Ctx H, Prepared o { host := host } c → ∃ hs, (o.getHeaders c .request).1 = .available hs ∧
      hs.lookup "x-request-id".toList = some x)
    (hp : o.parse (trackingSource name x) = none) : f.build o { host := host } = .panic := by
  have hsel : ∃ xs, b.actions = xs ++ (devModeAction cfg).toList ∧ ∀ a ∈ xs, Action.All Ordinary a := by
    rcases servedBy_exists hf hb with ⟨s, _, b', b2, h1, h2, rfl⟩ | ⟨a, ha, hb'⟩
    · rw [hb] at h1
      cases h1
      exact fromSet_ordinary (compile_fromSet parse cfg s b2 h2)
    · exact ⟨[], by rw [hb', ha]; rfl, by simp⟩
  obtain ⟨xs, hxs, hord⟩ := hsel
  have hh : cfg.headerIdentifier = some name := by
    unfold trackingHeader at hn
    split at hn
    · cases hn
    · exact hn
  have hq := select_steady (o := o) f { host := host }
  unfold Factory.build
  generalize f.select o { host := host } = q at hb hq
  obtain ⟨r, c1⟩ := q
  cases hb
  simp only
  have : b.toTasks o (c1.withHost (o.getHeaders c1 .request).2) f.requestData = none := by
    cases ht : b.toTasks o (c1.withHost (o.getHeaders c1 .request).2) f.requestData with
    | none => rfl
    | some y =>
      exfalso
      obtain ⟨ts, td, c2⟩ := y
      unfold Blueprint.toTasks at ht
      rw [hxs] at ht
      generalize { b with actions := b.actions }.tracingEnabled = w at ht
      obtain ⟨ts1, td1, d, ts2, td2, h1, h2, -, -⟩ := tasksLoop_append _ _ _ _ _ _ _ _ ht
      have hs1 : Steady o { host := host } d := hq.trans ((Steady.host c1 _ (Prepared.none.headers .request)).trans
        (tasksLoop_steady _ _ _ (fun a ha => (hord a ha).imp fun _ h => h.1) _ _ _ _ h1))
      unfold devModeAction at h2
      rw [hh] at h2
      simp only [Option.map_some, Option.toList_some] at h2
      unfold trackingHeader at hn
      cases hsv : cfg.tracingService.bind cfg.services with
      | some inst =>
        cases inst with
        | call kind svc deny => rw [hsv] at hn; cases hn
        | tracing u =>
          rw [hsv] at h2
          simp only [Option.getD_some] at h2
          rw [dev_panics hs1.steps hs1.log hs1.rid hx hp] at h2
          cases h2
      | none =>
        rw [hsv] at h2
        simp only [Option.getD_none] at h2
        rw [dev_panics hs1.steps hs1.log hs1.rid hx hp] at h2
        cases h2
  rw [this]

/-- C67, against the expectation that a client cannot break the filter: where a tracking header is configured, a
request with a single quote as its `x-request-id` crashes the filter as soon as an action set is found for it. The
only assumption about the parser is that it accepts nothing that is not CEL. -/
theorem C67_crash (hparse : ∀ t e, o.parse t = some e → ∃ a, Parses t a) (parse : Text → Option Expr)
    (cfg : PluginConfig) (factory : Factory) (hf : Factory.tryFrom parse cfg = some factory) (name : Text)
    (hn : trackingHeader cfg = some name) (hq : Quotable name) (host : H) (b : Blueprint)
    (hb : (factory.select o { host := host }).1 = .found b)
    (hx : ∀ c : Ctx H, Prepared o { host := host } c → ∃ hs, (o.getHeaders c .request).1 = .available hs ∧
      hs.lookup "x-request-id".toList = some ['\''])
    (events : List (Event H)) : (Filter.run o factory host events).crashed = true ∧
      (Filter.run o factory host events).log = [] := by
  have hp : o.parse (trackingSource name ['\'']) = none := by
    cases h : o.parse (trackingSource name ['\'']) with
    | none => rfl
    | some e =>
      obtain ⟨a, ha⟩ := hparse _ _ h
      exact absurd ha (C67_no_expression name hq a)
  have hs : Filter.start o factory host = { crashed := true } := by
    unfold Filter.start
    simp only [build_panics hf hb hn hx hp]
  unfold Filter.run
  rw [hs]
  induction events using snoc_ind with
  | nil => exact ⟨rfl, rfl⟩
  | snoc l e ih =>
    rw [List.foldl_append, List.foldl_cons, List.foldl_nil]
    have : ∀ g : Filter H, g.crashed = true → g.step o e = g := fun g hg => by
      unfold Filter.step
      rw [if_pos hg]
    rw [this _ ih.1]
    exact ih

end

/-- A host whose parser knows the tracking header of one ordinary id, with this request id from the client. -/
def quoteWorld (rid : Text) : Oracle Nat :=
  { Demo.world with
    parse := fun t => if t = trackingSource "x-id".toList "id".toList then some {} else none
    getHeaders := fun c _ => (.available [("x-request-id".toList, rid)], c.host) }

/-- With an ordinary id the request is served; with a quote the filter crashes at once, and stays so. -/
example : (Filter.run (quoteWorld "id".toList) (Demo.factory (Demo.config denyingCall (some "x-id") true)) 0
      []).crashed = false ∧
    (Filter.run (quoteWorld ['\'']) (Demo.factory (Demo.config denyingCall (some "x-id") true)) 0
      [.responseHeaders 0]).crashed = true :=
  ⟨by decide +kernel, (C67_crash (o := quoteWorld ['\'']) (fun t e h => by
      simp only [quoteWorld] at h
      split at h
      · rename_i ht
        exact ⟨_, ht ▸ C67_as_data _ _ (by decide) (by decide)⟩
      · cases h) Demo.parse _ _
    (Demo.factory_eq (Demo.config denyingCall (some "x-id") true) (by decide +kernel)) "x-id".toList rfl (by decide)
    0 _ rfl (fun _ _ => ⟨_, rfl, by decide⟩) [.responseHeaders 0]).1⟩

end Verif.Props
