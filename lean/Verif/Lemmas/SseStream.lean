import Verif.Lemmas.Sse
import Verif.Lemmas.Text
import Verif.Spec.SseStream
set_option linter.unusedSimpArgs false
namespace Verif.Sse
open Verif Verif.Spec.Sse

theorem filterMap_ext {α β : Type} {f g : α → Option β} {l : List α} (h : ∀ x ∈ l, f x = g x) :
    l.filterMap f = l.filterMap g := by
  induction l with
  | nil => rfl
  | cons x xs ih =>
    simp only [List.filterMap_cons, h x (by simp), ih (fun y hy => h y (by simp [hy]))]

theorem readStream_texts (p : Parser) (hp : cut p.buffer = none) (ts : List Text) :
    readStream p (ts.map utf8) = (feedAll p ts).map Prod.fst := by
  induction ts generalizing p with
  | nil => rfl
  | cons t ts ih =>
    simp only [List.map_cons, readStream, feedAll, parseBytes, fromUtf8_utf8]
    rw [parseText_eq]
    simp only
    rw [ih _ (by simpa using splitLines_rest _)]
    cases h : feedAll _ ts with
    | none => rfl
    | some r => rfl

theorem foldl_accData_ne (vs : List Text) : vs.foldl accData [] = [] ↔ vs.all (· = []) = true := by
  rw [foldl_accData]
  constructor
  · intro h
    by_cases hd : vs.dropWhile (· = []) = []
    · clear h
      induction vs with
      | nil => rfl
      | cons v vs ih =>
        by_cases hv : v = []
        · subst hv
          rw [List.dropWhile_cons_of_pos (by simp)] at hd
          simpa using ih hd
        · rw [List.dropWhile_cons_of_neg (by simpa using hv)] at hd
          simp at hd
    · exact absurd h (intercalate_ne_nil vs hd)
  · intro h
    have : vs.dropWhile (· = []) = [] := by
      induction vs with
      | nil => rfl
      | cons v vs ih =>
        simp only [List.all_cons, Bool.and_eq_true, decide_eq_true_eq] at h
        rw [List.dropWhile_cons_of_pos (by simpa using h.1)]
        exact ih h.2
    rw [this]; rfl

theorem dispatch_eq (blk : List Text) (h0 : ∀ l ∈ blk, l ≠ [])
    (h : ∀ l ∈ blk, ∀ c ∈ l, isAnyChar c = true) :
    (build blk).dispatch = (eventOf blk).map toModel := by
  have hf := build_fields blk h0 h
  simp only [Builder.dispatch, hf, eventOf]
  by_cases hd : (values "data".toList blk).all (· = []) = true
  · rw [if_pos ((foldl_accData_ne _).2 hd), if_pos hd]; rfl
  · rw [if_neg (fun e => hd ((foldl_accData_ne _).1 e)), if_neg hd]
    simp only [Option.map_some, toModel, joinData, foldl_accData, lf]

theorem foldl_push (b : SseBody) (es : List Sse.Event) (seen : List Sse.Event)
    (h1 : b.last = seen.getLast?) (h2 : b.beforeLast = secondToLast seen) :
    (es.foldl SseBody.push b).last = (seen ++ es).getLast? ∧
    (es.foldl SseBody.push b).beforeLast = secondToLast (seen ++ es) ∧
    (es.foldl SseBody.push b).parser = b.parser ∧
    (es.foldl SseBody.push b).complete = b.complete ∧
    (es.foldl SseBody.push b).fields = b.fields := by
  induction es generalizing b seen with
  | nil => simp [h1, h2]
  | cons e es ih =>
    have := ih (b.push e) (seen ++ [e]) (by simp [SseBody.push])
      (by simp [SseBody.push, h1, secondToLast, List.getLast?_eq_head?_reverse, List.head?_eq_getElem?])
    simpa [SseBody.push] using this

theorem feedBody_spec (b : SseBody) (chunks : List Bytes) (seen : List Sse.Event)
    (hc : b.complete = false) (h1 : b.last = seen.getLast?) (h2 : b.beforeLast = secondToLast seen)
    (es : List Sse.Event) (hr : readStream b.parser chunks = some es) :
    ∃ b', feedBody b chunks = some b' ∧ b'.beforeLast = secondToLast (seen ++ es) ∧
      b'.last = (seen ++ es).getLast? ∧ b'.complete = false ∧ b'.fields = b.fields := by
  induction chunks generalizing b seen es with
  | nil =>
    simp only [readStream, Option.some.injEq] at hr
    subst hr
    exact ⟨b, rfl, by simpa using h2, by simpa using h1, hc, rfl⟩
  | cons c cs ih =>
    simp only [readStream] at hr
    cases hp : parseBytes b.parser c with
    | mk p' r =>
      rw [hp] at hr
      cases r with
      | none => simp at hr
      | some es1 =>
        simp only [Option.map_eq_some_iff] at hr
        obtain ⟨es2, hr2, rfl⟩ := hr
        have hf := foldl_push { b with parser := p' } es1 seen h1 h2
        have hfeed : b.feed c = some (es1.foldl SseBody.push { b with parser := p' }) := by
          simp [SseBody.feed, hc, hp]
        obtain ⟨b', hb', r1, r2, r3, r4⟩ := ih (es1.foldl SseBody.push { b with parser := p' })
          (seen ++ es1) (by rw [hf.2.2.2.1]; exact hc) hf.1 hf.2.1 es2 (by rw [hf.2.2.1]; exact hr2)
        refine ⟨b', by simp [feedBody, hfeed, hb'], by simpa using r1, by simpa using r2, r3, ?_⟩
        rw [r4, hf.2.2.2.2]

theorem foldl_pair (es seen : List Sse.Event) (l b : Option Sse.Event)
    (h1 : l = seen.getLast?) (h2 : b = secondToLast seen) :
    es.foldl (fun (x : Option Sse.Event × Option Sse.Event) e => (some e, x.1)) (l, b) =
      ((seen ++ es).getLast?, secondToLast (seen ++ es)) := by
  induction es generalizing seen l b with
  | nil => simp [h1, h2]
  | cons e es ih =>
    have := ih (seen ++ [e]) (some e) l (by simp)
      (by simp [h1, secondToLast, List.getLast?_eq_head?_reverse, List.head?_eq_getElem?])
    simpa using this

theorem feedStrategy_spec (p : Parser) (l b : Option Sse.Event) (chunks : List Bytes)
    (seen es : List Sse.Event) (h1 : l = seen.getLast?) (h2 : b = secondToLast seen)
    (hr : readStream p chunks = some es) :
    ∃ p', feedStrategy (.sse p l b) chunks =
      .sse p' (seen ++ es).getLast? (secondToLast (seen ++ es)) := by
  induction chunks generalizing p l b seen es with
  | nil =>
    simp only [readStream, Option.some.injEq] at hr
    subst hr
    exact ⟨p, by simp [feedStrategy, h1, h2]⟩
  | cons c cs ih =>
    simp only [readStream] at hr
    cases hp : parseBytes p c with
    | mk p' r =>
      rw [hp] at hr
      cases r with
      | none => simp at hr
      | some es1 =>
        simp only [Option.map_eq_some_iff] at hr
        obtain ⟨es2, hr2, rfl⟩ := hr
        have hf := foldl_pair es1 seen l b h1 h2
        obtain ⟨p'', hp''⟩ := ih p' (seen ++ es1).getLast? (secondToLast (seen ++ es1)) (seen ++ es1) es2
          rfl rfl hr2
        refine ⟨p'', ?_⟩
        simp only [feedStrategy, List.foldl_cons, Strategy.feed, hp, hf] at hp'' ⊢
        rw [hp'']; simp

end Verif.Sse
